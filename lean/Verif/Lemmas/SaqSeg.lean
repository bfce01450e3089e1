import Verif.Model.Saq
import Verif.Spec.Saq
import Mathlib.Tactic.Linarith
import Mathlib.Tactic.Ring

namespace Valori
open Spec (Tiles)

/-! ## The dynamic program, any cost -/

section
variable {D : Type} [LinearOrder D]

/-- Reachable ends: `e` dimensions can be covered by `seg` segments. -/
def fin (dim seg e : Nat) : Prop := e ≤ dim ∧ (if seg = 0 then e = 0 else seg ≤ e)

theorem dpCell_fold (cost : D → Nat → Nat → D) (prev : List (Option D)) (e : Nat) (l : List Nat)
    (P : Nat → Prop) (hP : ∀ s ∈ l, P s) (st : Option D × Nat)
    (hst : st.1 = none ∨ (P st.2 ∧ (prev[st.2]?.join).isSome)) :
    let r := l.foldl
      (fun st s =>
        match prev[s]?.join with
        | none => st
        | some c =>
          match st.1 with
          | none => (some (cost c s e), s)
          | some b => if cost c s e < b then (some (cost c s e), s) else st) st
    (r.1 = none ∨ (P r.2 ∧ (prev[r.2]?.join).isSome)) ∧
      (r.1 = none → st.1 = none ∧ ∀ s ∈ l, prev[s]?.join = none) := by
  induction l generalizing st with
  | nil => exact ⟨hst, fun h => ⟨h, by simp⟩⟩
  | cons s l ih =>
    simp only [List.foldl_cons]
    have hP' : ∀ s ∈ l, P s := fun x hx => hP x (by simp [hx])
    cases hs : prev[s]?.join with
    | none =>
      obtain ⟨h1, h2⟩ := ih hP' st hst
      refine ⟨h1, fun h => ⟨(h2 h).1, fun x hx => ?_⟩⟩
      rcases List.mem_cons.1 hx with rfl | hx
      · exact hs
      · exact (h2 h).2 x hx
    | some c =>
      have hgood : P s ∧ (prev[s]?.join).isSome := ⟨hP s (by simp), by simp [hs]⟩
      cases hb : st.1 with
      | none =>
        obtain ⟨h1, h2⟩ := ih hP' (some (cost c s e), s) (Or.inr hgood)
        exact ⟨h1, fun h => absurd (h2 h).1 (by simp)⟩
      | some b =>
        simp only
        split_ifs with hlt
        · obtain ⟨h1, h2⟩ := ih hP' (some (cost c s e), s) (Or.inr hgood)
          exact ⟨h1, fun h => absurd (h2 h).1 (by simp)⟩
        · obtain ⟨h1, h2⟩ := ih hP' st hst
          refine ⟨h1, fun h => ?_⟩
          have := (h2 h).1
          rw [hb] at this; simp at this

theorem dpCell_spec (cost : D → Nat → Nat → D) (prev : List (Option D)) (seg e : Nat)
    (h : ∃ s, seg - 1 ≤ s ∧ s < e ∧ (prev[s]?.join).isSome) :
    (dpCell cost prev seg e).1.isSome ∧ seg - 1 ≤ (dpCell cost prev seg e).2 ∧
      (dpCell cost prev seg e).2 < e ∧ (prev[(dpCell cost prev seg e).2]?.join).isSome := by
  obtain ⟨s, h1, h2, h3⟩ := h
  obtain ⟨g1, g2⟩ := dpCell_fold cost prev e (List.range' (seg - 1) (e - (seg - 1)))
    (fun s => seg - 1 ≤ s ∧ s < e) (by
      intro s hs
      rw [List.mem_range'_1] at hs; omega) (none, 0) (Or.inl rfl)
  change (dpCell cost prev seg e).1 = none ∨ _ at g1
  change (dpCell cost prev seg e).1 = none → _ at g2
  have hn : (dpCell cost prev seg e).1 ≠ none := by
    intro hn
    have := (g2 hn).2 s (by rw [List.mem_range'_1]; omega)
    rw [this] at h3; simp at h3
  rcases g1 with g1 | ⟨⟨g1, g3⟩, g4⟩
  · exact absurd g1 hn
  · exact ⟨Option.isSome_iff_ne_none.2 hn, g1, g3, g4⟩

theorem dpRow_get (cost : D → Nat → Nat → D) (prev : List (Option D)) (seg dim e : Nat)
    (he : e ≤ dim) :
    (dpRow cost prev seg dim)[e]? =
      some (if seg ≤ e then dpCell cost prev seg e else (none, 0)) := by
  unfold dpRow
  rw [List.getElem?_map, List.getElem?_range (by omega)]
  rfl

/-- `prev` is finite exactly where `fin` says. -/
def FinRow (dim seg : Nat) (prev : List (Option D)) : Prop :=
  ∀ e, fin dim seg e ↔ (prev[e]?.join).isSome

theorem finRow_zero (zero : D) (dim : Nat) :
    FinRow dim 0 (some zero :: List.replicate dim none) := by
  intro e
  unfold fin
  cases e with
  | zero => simp
  | succ e =>
    simp only [if_true, List.getElem?_cons_succ]
    constructor
    · rintro ⟨-, h⟩; omega
    · intro h
      rw [List.getElem?_replicate] at h
      split_ifs at h <;> simp at h

theorem dpRow_fin (cost : D → Nat → Nat → D) (prev : List (Option D)) (seg dim : Nat)
    (hseg : 1 ≤ seg) (hp : FinRow dim (seg - 1) prev) :
    FinRow dim seg ((dpRow cost prev seg dim).map Prod.fst) ∧
    ∀ e, fin dim seg e → ((dpRow cost prev seg dim).map Prod.snd).getD e 0 < e ∧
      fin dim (seg - 1) (((dpRow cost prev seg dim).map Prod.snd).getD e 0) := by
  have key : ∀ e, fin dim seg e → (dpCell cost prev seg e).1.isSome ∧
      (dpCell cost prev seg e).2 < e ∧ fin dim (seg - 1) (dpCell cost prev seg e).2 := by
    rintro e ⟨h1, h2⟩
    rw [if_neg (by omega)] at h2
    obtain ⟨g1, -, g3, g4⟩ := dpCell_spec cost prev seg e
      ⟨seg - 1, le_rfl, by omega, (hp _).1 ⟨by omega, by split_ifs <;> omega⟩⟩
    exact ⟨g1, g3, (hp _).2 g4⟩
  constructor
  · intro e
    rw [List.getElem?_map]
    by_cases he : e ≤ dim
    · rw [dpRow_get _ _ _ _ _ he]
      constructor
      · intro h
        have h2 := h.2
        rw [if_neg (by omega)] at h2
        rw [if_pos h2]
        simpa using (key e h).1
      · intro h
        refine ⟨he, ?_⟩
        rw [if_neg (by omega)]
        by_contra hc
        rw [if_neg hc] at h
        simp at h
    · constructor
      · intro h; exact absurd h.1 he
      · intro h
        rw [List.getElem?_eq_none (by simp [dpRow]; omega)] at h
        simp at h
  · intro e h
    have h2 := h.2
    rw [if_neg (by omega)] at h2
    rw [List.getD_eq_getElem?_getD, List.getElem?_map, dpRow_get _ _ _ _ _ h.1, if_pos h2]
    exact (key e h).2

/-- Good backtracking rows for segments `seg, seg + 1, ...`. -/
def GoodRows (dim : Nat) : Nat → List (List Nat) → Prop
  | _, [] => True
  | seg, row :: rows => (∀ e, fin dim seg e → row.getD e 0 < e ∧ fin dim (seg - 1) (row.getD e 0)) ∧
      GoodRows dim (seg + 1) rows

theorem dpRows_good (cost : D → Nat → Nat → D) (dim n seg : Nat) (prev : List (Option D))
    (hseg : 1 ≤ seg) (hp : FinRow dim (seg - 1) prev) :
    GoodRows dim seg (dpRows cost dim n seg prev) ∧ (dpRows cost dim n seg prev).length = n := by
  induction n generalizing seg prev with
  | zero => exact ⟨trivial, rfl⟩
  | succ n ih =>
    obtain ⟨h1, h2⟩ := dpRow_fin cost prev seg dim hseg hp
    obtain ⟨g1, g2⟩ := ih (seg + 1) _ (by omega) h1
    exact ⟨⟨h2, g1⟩, by simp [dpRows, g2]⟩

theorem goodRows_append (dim seg : Nat) (a : List (List Nat)) (row : List Nat) :
    GoodRows dim seg (a ++ [row]) → GoodRows dim seg a ∧
      ∀ e, fin dim (seg + a.length) e →
        row.getD e 0 < e ∧ fin dim (seg + a.length - 1) (row.getD e 0) := by
  induction a generalizing seg with
  | nil => intro h; exact ⟨trivial, h.1⟩
  | cons x a ih =>
    rintro ⟨h1, h2⟩
    obtain ⟨g1, g2⟩ := ih (seg + 1) h2
    refine ⟨⟨h1, g1⟩, ?_⟩
    have e1 : seg + (x :: a).length = seg + 1 + a.length := by simp; omega
    rw [e1]; exact g2

theorem walkBack_tiles (dim : Nat) (rows : List (List Nat)) (pos : Nat) (acc : List (Nat × Nat))
    (hg : GoodRows dim 1 rows.reverse) (hf : fin dim rows.length pos) (ht : Tiles pos dim acc) :
    Tiles 0 dim (walkBack rows pos acc) ∧
      (walkBack rows pos acc).length = rows.length + acc.length := by
  induction rows generalizing pos acc with
  | nil =>
    have : pos = 0 := by have := hf.2; simpa using this
    subst this
    exact ⟨ht, by simp [walkBack]⟩
  | cons row rows ih =>
    rw [List.reverse_cons] at hg
    obtain ⟨h1, h2⟩ := goodRows_append dim 1 _ _ hg
    obtain ⟨h3, h4⟩ := h2 pos (by
      rw [List.length_reverse]
      have : 1 + rows.length = (row :: rows).length := by simp; omega
      rw [this]; exact hf)
    have h4' : fin dim rows.length (row.getD pos 0) := by
      have : 1 + rows.reverse.length - 1 = rows.length := by simp
      rw [← this]; exact h4
    obtain ⟨g1, g2⟩ := ih (row.getD pos 0) ((row.getD pos 0, pos) :: acc) h1 h4'
      ⟨rfl, h3, ht⟩
    refine ⟨g1, ?_⟩
    simp only [walkBack]
    rw [g2]; simp; omega

theorem segments_tiles (cost : D → Nat → Nat → D) (zero : D) (n dim : Nat) (hn : 1 ≤ n)
    (hd : n ≤ dim) :
    Tiles 0 dim (segments cost zero n dim) ∧ (segments cost zero n dim).length = n := by
  obtain ⟨h1, h2⟩ := dpRows_good cost dim n 1 _ le_rfl (finRow_zero zero dim)
  obtain ⟨g1, g2⟩ := walkBack_tiles dim
    (dpRows cost dim n 1 (some zero :: List.replicate dim none)).reverse dim []
    (by rw [List.reverse_reverse]; exact h1)
    (by rw [List.length_reverse, h2]; exact ⟨le_rfl, by rw [if_neg (by omega)]; exact hd⟩) rfl
  exact ⟨g1, by unfold segments; rw [g2]; simp [h2]⟩

end

/-! ## Exact costs: every segmentation costs the same -/

section
variable {F : Type} [Field F] [LinearOrder F] [IsStrictOrderedRing F]

/-- Explained variance of the first `e` dimensions. -/
def upTo (cum : List F) (e : Nat) : F := if e = 0 then 0 else cum.getD (e - 1) 0

omit [LinearOrder F] [IsStrictOrderedRing F] in
theorem segVar_eq (cum : List F) (s e : Nat) (h : s < e) :
    segVar cum s e = upTo cum e - upTo cum s := by
  unfold segVar upTo
  rw [if_neg (show ¬ e = 0 by omega)]
  split_ifs <;> simp

theorem dpFold_exact (cum : List F) (prev : List (Option F)) (k : F) (e s0 : Nat) (l : List Nat)
    (hl : ∀ s ∈ l, s < e) (hp : ∀ (s : Nat) c, prev[s]?.join = some c → c = k - upTo cum s) :
    l.foldl
      (fun st s =>
        match prev[s]?.join with
        | none => st
        | some c =>
          match st.1 with
          | none => (some (exactCost cum c s e), s)
          | some b => if exactCost cum c s e < b then (some (exactCost cum c s e), s) else st)
      (some (k + 1 - upTo cum e), s0) = (some (k + 1 - upTo cum e), s0) := by
  induction l with
  | nil => rfl
  | cons s l ih =>
    simp only [List.foldl_cons]
    have hl' : ∀ s ∈ l, s < e := fun x hx => hl x (by simp [hx])
    cases hs : prev[s]?.join with
    | none => exact ih hl'
    | some c =>
      have : exactCost cum c s e = k + 1 - upTo cum e := by
        rw [hp s c hs, exactCost, segVar_eq cum s e (hl s (by simp))]; ring
      simp only [this, lt_irrefl, if_false]
      exact ih hl'

theorem dpCell_exact (cum : List F) (prev : List (Option F)) (k : F) (seg e : Nat) (he : seg ≤ e)
    (hseg : 1 ≤ seg) (hp : ∀ (s : Nat) c, prev[s]?.join = some c → c = k - upTo cum s)
    (hf : (prev[seg - 1]?.join).isSome) :
    dpCell (exactCost cum) prev seg e = (some (k + 1 - upTo cum e), seg - 1) := by
  obtain ⟨m, hm⟩ : ∃ m, e - (seg - 1) = m + 1 := ⟨e - seg, by omega⟩
  obtain ⟨c, hc⟩ := Option.isSome_iff_exists.1 hf
  unfold dpCell
  rw [hm, List.range'_succ, List.foldl_cons]
  simp only [hc]
  have : exactCost cum c (seg - 1) e = k + 1 - upTo cum e := by
    rw [hp _ c hc, exactCost, segVar_eq cum _ e (by omega)]; ring
  rw [this]
  exact dpFold_exact cum prev k e (seg - 1) _ (by
    intro s hs
    rw [List.mem_range'_1] at hs; omega) hp

/-- The rows of the exact program all point to the shortest possible prefix. -/
theorem dpRows_exact (cum : List F) (dim n seg : Nat) (prev : List (Option F)) (hseg : 1 ≤ seg)
    (k : F) (hp : ∀ (s : Nat) c, prev[s]?.join = some c → c = k - upTo cum s)
    (hf : FinRow dim (seg - 1) prev) (i : Nat) (hi : i < n) (e : Nat) (he : seg + i ≤ e)
    (hd : e ≤ dim) :
    ((dpRows (exactCost cum) dim n seg prev).getD i []).getD e 0 = seg + i - 1 := by
  induction n generalizing seg prev k i with
  | zero => omega
  | succ n ih =>
    have hcell : ∀ e, seg ≤ e → e ≤ dim → dpCell (exactCost cum) prev seg e =
        (some (k + 1 - upTo cum e), seg - 1) := fun e h1 h2 =>
      dpCell_exact cum prev k seg e h1 hseg hp
        ((hf (seg - 1)).1 ⟨by omega, by split_ifs <;> omega⟩)
    cases i with
    | zero =>
      have h1 : seg ≤ e := by omega
      simp only [dpRows, List.getD_cons_zero]
      rw [List.getD_eq_getElem?_getD, List.getElem?_map, dpRow_get _ _ _ _ _ hd, if_pos h1,
        hcell e h1 hd]
      rfl
    | succ i =>
      simp only [dpRows, List.getD_cons_succ]
      rw [ih (seg + 1) _ (by omega) (k + 1) ?_ (dpRow_fin _ prev seg dim hseg hf).1 i (by omega)
        (by omega)]
      · omega
      · intro s c hc
        rw [List.getElem?_map] at hc
        by_cases hs : s ≤ dim
        · rw [dpRow_get _ _ _ _ _ hs] at hc
          by_cases h2 : seg ≤ s
          · rw [if_pos h2, hcell s h2 hs] at hc
            simpa using hc.symm
          · rw [if_neg h2] at hc
            simp at hc
        · rw [List.getElem?_eq_none (by simp [dpRow]; omega)] at hc
          simp at hc

/-- The unit segments `(0,1), (1,2), ...` before position `n`. -/
def units (n : Nat) : List (Nat × Nat) := (List.range n).map fun i => (i, i + 1)

theorem walkBack_units (rows : List (List Nat)) (acc : List (Nat × Nat))
    (h : ∀ i, i < rows.length → (rows.getD i []).getD (rows.length - i) 0 = rows.length - i - 1) :
    walkBack rows rows.length acc = units rows.length ++ acc := by
  induction rows generalizing acc with
  | nil => rfl
  | cons row rows ih =>
    have h0 := h 0 (by simp)
    simp only [List.getD_cons_zero, List.length_cons, Nat.sub_zero] at h0
    simp only [walkBack, List.length_cons]
    rw [h0]
    simp only [Nat.add_sub_cancel]
    rw [ih]
    · simp [units, List.range_succ]
    · intro i hi
      have := h (i + 1) (by simp; omega)
      simp only [List.getD_cons_succ, List.length_cons] at this
      rw [show rows.length + 1 - (i + 1) = rows.length - i by omega] at this
      exact this

theorem segments_exact (cum : List F) (n dim : Nat) (hn : 1 ≤ n) (hd : n ≤ dim) :
    segments (exactCost cum) 0 n dim = units (n - 1) ++ [(n - 1, dim)] := by
  set R := dpRows (exactCost cum) dim n 1 (some 0 :: List.replicate dim none) with hR
  have hlen : R.length = n := (dpRows_good (exactCost cum) dim n 1 _ le_rfl (finRow_zero 0 dim)).2
  have hget : ∀ i, i < n → ∀ e, i + 1 ≤ e → e ≤ dim → (R.getD i []).getD e 0 = i := by
    intro i hi e h1 h2
    have := dpRows_exact cum dim n 1 (some 0 :: List.replicate dim none) le_rfl 0 (by
      intro s c hc
      cases s with
      | zero => simp at hc; simp [upTo, ← hc]
      | succ s =>
        simp only [List.getElem?_cons_succ, List.getElem?_replicate] at hc
        split_ifs at hc <;> simp at hc) (finRow_zero 0 dim) i hi e (by omega) h2
    rw [← hR] at this
    omega
  have hrev : ∀ i, i < n → R.reverse.getD i [] = R.getD (n - 1 - i) [] := by
    intro i hi
    rw [List.getD_eq_getElem?_getD, List.getD_eq_getElem?_getD, List.getElem?_reverse (by omega),
      hlen]
  have hne : R.reverse ≠ [] := by
    intro h
    have := congrArg List.length h
    simp [hlen] at this; omega
  obtain ⟨row, rows, hrr⟩ := List.exists_cons_of_ne_nil hne
  have hl' : rows.length = n - 1 := by
    have := congrArg List.length hrr
    simp [hlen] at this; omega
  have hrow : row.getD dim 0 = n - 1 := by
    have h1 := hrev 0 (by omega)
    rw [hrr, List.getD_cons_zero] at h1
    rw [h1, Nat.sub_zero]
    exact hget (n - 1) (by omega) dim (by omega) le_rfl
  unfold segments
  rw [← hR, hrr]
  simp only [walkBack, hrow]
  have := walkBack_units rows [(n - 1, dim)] (by
    intro i hi
    have h1 := hrev (i + 1) (by omega)
    rw [hrr, List.getD_cons_succ] at h1
    rw [h1]
    rw [hget _ (by omega) _ (by omega) (by omega)]
    omega)
  rw [hl'] at this
  exact this

end

/-! ## Bits -/

theorem allocBits_length (r : Int) (w : List Int) : (allocBits r w).length = w.length := by
  induction w generalizing r with
  | nil => rfl
  | cons a w ih =>
    cases w with
    | nil => rfl
    | cons b w => simp only [allocBits, List.length_cons] at ih ⊢; rw [ih]

theorem allocBits_sum (r : Int) (w : List Int) (h : w ≠ []) : (allocBits r w).sum = r := by
  induction w generalizing r with
  | nil => exact absurd rfl h
  | cons a w ih =>
    cases w with
    | nil => simp [allocBits]
    | cons b w =>
      simp only [allocBits, List.sum_cons]
      rw [ih _ (by simp)]; omega

theorem allocBits_pos (r : Int) (w : List Int) : ∀ b ∈ (allocBits r w).dropLast, 1 ≤ b := by
  induction w generalizing r with
  | nil => simp [allocBits]
  | cons a w ih =>
    cases w with
    | nil => simp [allocBits]
    | cons b w =>
      have hne : allocBits (r - max 1 a) (b :: w) ≠ [] := by
        intro h
        have := congrArg List.length h
        rw [allocBits_length] at this
        simp at this
      intro x hx
      simp only [allocBits] at hx
      rw [List.dropLast_cons_of_ne_nil hne] at hx
      rcases List.mem_cons.1 hx with rfl | hx
      · exact le_max_left _ _
      · exact ih _ x hx

theorem kClusters_nonneg (bits : Int) (n k : Nat) (h : kClusters bits n = .ok k) : 0 ≤ bits := by
  unfold kClusters at h
  split_ifs at h <;> first | omega | simp at h

end Valori
