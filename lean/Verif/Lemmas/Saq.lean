import Verif.Lemmas.SaqSeg
import Verif.Lemmas.Product
import Mathlib.Algebra.Order.BigOperators.Group.List

namespace Valori
open Spec (Rect sqDist Tiles decodeRow totalErr)

namespace Saq
variable {F S D : Type} [Field F] [LinearOrder F] [IsStrictOrderedRing F] [LinearOrder D]

/-! ## Rows as concatenated blocks -/

/-- Widths of blocks agree with the intervals. -/
def Fits (bounds : List (Nat × Nat)) (blocks : List (List F)) : Prop :=
  List.Forall₂ (fun b (x : List F) => x.length = b.2 - b.1) bounds blocks

theorem tiles_le {a b : Nat} {l : List (Nat × Nat)} (h : Tiles a b l) : a ≤ b := by
  induction l generalizing a with
  | nil => exact le_of_eq h
  | cons x l ih =>
    obtain ⟨s, e⟩ := x
    obtain ⟨rfl, h2, h3⟩ := h
    have := ih h3
    omega

theorem fits_length {a b : Nat} {bounds : List (Nat × Nat)} {blocks : List (List F)}
    (ht : Tiles a b bounds) (hf : Fits bounds blocks) : a + blocks.flatten.length = b := by
  induction hf generalizing a with
  | nil => simpa [Tiles] using ht
  | cons h1 hrest ih =>
    rename_i bd x bs xs
    obtain ⟨s, e⟩ := bd
    obtain ⟨rfl, h3, h4⟩ := ht
    have := ih h4
    simp only [List.flatten_cons, List.length_append] at this ⊢
    simp only at h1
    omega

/-- Splitting a concatenation at block `j`. -/
theorem blocks_split {a b : Nat} {bounds : List (Nat × Nat)} {blocks : List (List F)}
    (ht : Tiles a b bounds) (hf : Fits bounds blocks) (j : Nat) (bd : Nat × Nat)
    (hj : bounds[j]? = some bd) :
    ∃ pre x post, blocks[j]? = some x ∧ blocks.flatten = pre ++ x ++ post ∧
      a + pre.length = bd.1 ∧ x.length = bd.2 - bd.1 ∧ bd.1 < bd.2 ∧
      ∀ y, (blocks.set j y).flatten = pre ++ y ++ post := by
  induction hf generalizing a j with
  | nil => simp at hj
  | cons h1 hrest ih =>
    rename_i bd' x bs xs
    obtain ⟨s, e⟩ := bd'
    obtain ⟨rfl, h3, h4⟩ := ht
    cases j with
    | zero =>
      obtain rfl : (s, e) = bd := by simpa using hj
      exact ⟨[], x, xs.flatten, by simp, by simp, by simp, h1, h3, by simp⟩
    | succ j =>
      obtain ⟨pre, z, post, g1, g2, g3, g4, g5, g6⟩ := ih h4 j (by simpa using hj)
      refine ⟨x ++ pre, z, post, by simpa using g1, by simp [g2], ?_, g4, g5, ?_⟩
      · simp only [List.length_append]; simp only at h1; omega
      · intro y; simp [g6 y]

theorem slice_mid {α : Type} (pre x post : List α) (s e : Nat) (h1 : pre.length = s)
    (h2 : x.length = e - s) (h3 : s < e) : slice (pre ++ x ++ post) s e = x := by
  unfold slice
  rw [List.take_left' (by simp; omega), List.drop_left' h1]

theorem setSlice_mid {α : Type} (pre x post y : List α) (s e : Nat) (h1 : pre.length = s)
    (h2 : x.length = e - s) (h3 : s < e) (h4 : y.length = e - s) :
    setSlice (pre ++ x ++ post) s e y = .ok (pre ++ y ++ post) := by
  unfold setSlice
  rw [slice_mid pre x post s e h1 h2 h3, if_pos (by omega)]
  congr 1
  rw [List.drop_left' (by simp; omega), List.append_assoc pre x post, List.take_left' h1]

/-- The error splits along blocks. -/
theorem sqDist_mid (r pre x post : List F) (s e : Nat) (h1 : pre.length = s)
    (h2 : x.length = e - s) (h3 : s < e) :
    sqDist r (pre ++ x ++ post) =
      sqDist (r.take s) pre + sqDist (slice r s e) x + sqDist (r.drop e) post := by
  rw [ProductQ.sqDist_append, ProductQ.sqDist_append]
  have e1 : (pre ++ x).length = e := by simp; omega
  rw [e1, h1, List.take_take, show min s e = s by omega]
  rfl

/-! ## Codebooks and codes -/

/-- The segments of a trained quantiser: the intervals tile the dimensions, every codebook is
non-empty and has codewords of the width of its interval. -/
structure SegsOk (dim : Nat) (segs : List ((Nat × Nat) × List (List F))) : Prop where
  tiles : Tiles 0 dim (segs.map Prod.fst)
  cents : ∀ s ∈ segs, s.2 ≠ [] ∧ ∀ c ∈ s.2, c.length = s.1.2 - s.1.1

/-- `codes` are legal: per segment a list of `n` numbers of codewords. -/
def CodesOk (n : Nat) (segs : List ((Nat × Nat) × List (List F))) (codes : List (List Nat)) : Prop :=
  List.Forall₂ (fun (s : (Nat × Nat) × List (List F)) (c : List Nat) =>
    c.length = n ∧ ∀ x ∈ c, x < s.2.length) segs codes

/-- The code of row `i`. -/
def codeAt (codes : List (List Nat)) (i : Nat) : List Nat := codes.map fun c => c.getD i 0

/-- The blocks of row `i`. -/
def blocksAt (segs : List ((Nat × Nat) × List (List F))) (codes : List (List Nat)) (i : Nat) :
    List (List F) :=
  List.zipWith (fun b c => b.getD c []) (segs.map Prod.snd) (codeAt codes i)

theorem decodeRow_eq (segs : List ((Nat × Nat) × List (List F))) (codes : List (List Nat)) (i : Nat) :
    decodeRow (segs.map Prod.snd) (codeAt codes i) = (blocksAt segs codes i).flatten := rfl

theorem blocksAt_fits {dim n : Nat} {segs : List ((Nat × Nat) × List (List F))}
    {codes : List (List Nat)} (hs : ∀ s ∈ segs, s.2 ≠ [] ∧ ∀ c ∈ s.2, c.length = s.1.2 - s.1.1)
    (hc : CodesOk n segs codes) (i : Nat) (hi : i < n) :
    Fits (segs.map Prod.fst) (blocksAt segs codes i) := by
  induction hc with
  | nil => exact List.Forall₂.nil
  | cons h1 hrest ih =>
    rename_i s c ss cs
    refine List.Forall₂.cons ?_ (ih fun x hx => hs x (by simp [hx]))
    have hlt : c.getD i 0 < s.2.length := by
      have hic : i < c.length := by omega
      rw [List.getD_eq_getElem?_getD, List.getElem?_eq_getElem hic]
      exact h1.2 _ (List.getElem_mem hic)
    have := (hs s (by simp)).2 _ (List.getElem_mem hlt)
    show (s.2.getD (c.getD i 0) []).length = _
    rw [List.getD_eq_getElem?_getD, List.getElem?_eq_getElem hlt]
    exact this

/-- The decoded batch. -/
def reconOf (n : Nat) (segs : List ((Nat × Nat) × List (List F))) (codes : List (List Nat)) :
    List (List F) :=
  (List.range n).map fun i => (blocksAt segs codes i).flatten

theorem segDequantize_ok (cents : List (List F)) (codes : List Nat)
    (h : ∀ x ∈ codes, x < cents.length) :
    segDequantize cents codes = .ok (codes.map fun c => cents.getD c []) := by
  apply mapE_ok
  intro c hc
  rw [List.getElem?_eq_getElem (h c hc), List.getD_eq_getElem?_getD,
    List.getElem?_eq_getElem (h c hc)]
  rfl

theorem setBlock_ok {α : Type} (b : Nat × Nat) (l : List α) (f g : α → List F) (k : α → List F)
    (h : ∀ x ∈ l, setSlice (f x) b.1 b.2 (g x) = .ok (k x)) :
    setBlock b (l.map f) (l.map g) = .ok (l.map k) := by
  induction l with
  | nil => rfl
  | cons x l ih =>
    simp only [List.map_cons, setBlock, h x (by simp), ih fun y hy => h y (by simp [hy])]

theorem map_eq_range {α β : Type} (l : List α) (n : Nat) (hl : l.length = n) (d : α) (f : α → β) :
    l.map f = (List.range n).map fun i => f (l.getD i d) := by
  apply List.ext_getElem
  · simp [hl]
  · intro i h1 h2
    have : i < l.length := by simpa using h1
    simp [List.getElem?_eq_getElem this]

theorem decodeSegments_aux (n dim : Nat) (segs : List ((Nat × Nat) × List (List F)))
    (codes : List (List Nat)) (a : Nat) (ht : Tiles a dim (segs.map Prod.fst))
    (hs : ∀ s ∈ segs, s.2 ≠ [] ∧ ∀ c ∈ s.2, c.length = s.1.2 - s.1.1)
    (hc : CodesOk n segs codes) (pre post : Nat → List F)
    (h1 : ∀ i, i < n → (pre i).length = a) (h2 : ∀ i, i < n → a + (post i).length = dim) :
    decodeSegments segs codes ((List.range n).map fun i => pre i ++ post i) =
      .ok ((List.range n).map fun i => pre i ++ (blocksAt segs codes i).flatten) := by
  induction hc generalizing a pre post with
  | nil =>
    simp only [decodeSegments]
    congr 1
    apply List.map_congr_left
    intro i hi
    have hi := List.mem_range.1 hi
    have e : a = dim := by simpa [Tiles] using ht
    have : (post i).length = 0 := by have := h2 i hi; omega
    rw [List.length_eq_zero_iff.1 this]
    simp [blocksAt, codeAt]
  | cons g1 hrest ih =>
    rename_i s c ss cs
    obtain ⟨⟨s0, e0⟩, cents⟩ := s
    obtain ⟨rfl, hlt, ht'⟩ := ht
    simp only at hlt g1
    obtain ⟨hne, hw⟩ := hs ((s0, e0), cents) (by simp)
    simp only at hw
    have hb : ∀ i, i < n → (cents.getD (c.getD i 0) []).length = e0 - s0 := by
      intro i hi
      have hic : i < c.length := by omega
      have hcc : c.getD i 0 < cents.length := by
        rw [List.getD_eq_getElem?_getD, List.getElem?_eq_getElem hic]
        exact g1.2 _ (List.getElem_mem hic)
      rw [List.getD_eq_getElem?_getD, List.getElem?_eq_getElem hcc]
      exact hw _ (List.getElem_mem hcc)
    simp only [decodeSegments, segDequantize_ok cents c g1.2]
    rw [map_eq_range c n g1.1 0]
    have hte : e0 ≤ dim := tiles_le ht'
    have hset : setBlock (s0, e0) ((List.range n).map fun i => pre i ++ post i)
        ((List.range n).map fun i => cents.getD (c.getD i 0) []) =
        .ok ((List.range n).map fun i =>
          (pre i ++ cents.getD (c.getD i 0) []) ++ (post i).drop (e0 - s0)) := by
      apply setBlock_ok
      intro i hi
      have hi := List.mem_range.1 hi
      have hp : pre i ++ post i = pre i ++ (post i).take (e0 - s0) ++ (post i).drop (e0 - s0) := by
        rw [List.append_assoc, List.take_append_drop]
      rw [hp]
      exact setSlice_mid _ _ _ _ s0 e0 (h1 i hi)
        (by have := h2 i hi; simp; omega) hlt (hb i hi)
    rw [hset]
    simp only
    rw [ih e0 ht' (fun x hx => hs x (by simp [hx])) _ _
      (by intro i hi; rw [List.length_append, h1 i hi, hb i hi]; omega)
      (by intro i hi; have := h2 i hi; simp; omega)]
    congr 1
    apply List.map_congr_left
    intro i hi
    simp [blocksAt, codeAt]

theorem decodeSegments_ok (n dim : Nat) (segs : List ((Nat × Nat) × List (List F)))
    (codes : List (List Nat)) (hs : SegsOk dim segs) (hc : CodesOk n segs codes)
    (rows : List (List F)) (hr : rows.length = n) :
    decodeSegments segs codes (rows.map fun _ => List.replicate dim 0) =
      .ok (reconOf n segs codes) := by
  have e : (rows.map fun _ => List.replicate dim (0 : F)) =
      (List.range n).map fun i => ([] : List F) ++ List.replicate dim 0 := by
    rw [map_eq_range rows n hr []]; rfl
  rw [e, decodeSegments_aux n dim segs codes 0 hs.tiles hs.cents hc (fun _ => [])
    (fun _ => List.replicate dim 0) (by simp) (by simp)]
  rfl

/-! ## One adjustment step -/

/-- The error of a batch, by rows. -/
def err (rows : List (List F)) (segs : List ((Nat × Nat) × List (List F)))
    (codes : List (List Nat)) : F :=
  ((List.range rows.length).map fun i =>
    sqDist (rows.getD i []) (blocksAt segs codes i).flatten).sum

theorem codesOk_get {n : Nat} {segs : List ((Nat × Nat) × List (List F))} {codes : List (List Nat)}
    (h : CodesOk n segs codes) (j : Nat) (sg : (Nat × Nat) × List (List F))
    (hj : segs[j]? = some sg) :
    ∃ c, codes[j]? = some c ∧ c.length = n ∧ ∀ x ∈ c, x < sg.2.length := by
  induction h generalizing j with
  | nil => simp at hj
  | cons h1 hrest ih =>
    cases j with
    | zero =>
      simp only [List.getElem?_cons_zero, Option.some.injEq] at hj
      subst hj
      exact ⟨_, rfl, h1⟩
    | succ j => exact ih j (by simpa using hj)

theorem codesOk_set {n : Nat} {segs : List ((Nat × Nat) × List (List F))} {codes : List (List Nat)}
    (h : CodesOk n segs codes) (j : Nat) (sg : (Nat × Nat) × List (List F))
    (hj : segs[j]? = some sg) (c : List Nat) (hc : c.length = n ∧ ∀ x ∈ c, x < sg.2.length) :
    CodesOk n segs (codes.set j c) := by
  induction h generalizing j with
  | nil => exact List.Forall₂.nil
  | cons h1 hrest ih =>
    cases j with
    | zero =>
      simp only [List.getElem?_cons_zero, Option.some.injEq] at hj
      subst hj
      exact List.Forall₂.cons hc hrest
    | succ j => exact List.Forall₂.cons h1 (ih j (by simpa using hj))

theorem blocksAt_get {segs : List ((Nat × Nat) × List (List F))} {codes : List (List Nat)}
    {i j : Nat} {sg : (Nat × Nat) × List (List F)} {c : List Nat}
    (h1 : segs[j]? = some sg) (h2 : codes[j]? = some c) :
    (blocksAt segs codes i)[j]? = some (sg.2.getD (c.getD i 0) []) := by
  unfold blocksAt codeAt
  rw [List.getElem?_zipWith, List.getElem?_map, List.getElem?_map, h1, h2]
  rfl

theorem blocksAt_set {segs : List ((Nat × Nat) × List (List F))} {codes : List (List Nat)}
    {i j : Nat} {sg : (Nat × Nat) × List (List F)} (c : List Nat) (h1 : segs[j]? = some sg) :
    blocksAt segs (codes.set j c) i = (blocksAt segs codes i).set j (sg.2.getD (c.getD i 0) []) := by
  apply List.ext_getElem?
  intro t
  unfold blocksAt codeAt
  rw [List.getElem?_set, List.getElem?_zipWith, List.getElem?_map, List.getElem?_map,
    List.getElem?_set]
  by_cases h : j = t
  · subst h
    rw [if_pos rfl, if_pos rfl, h1]
    have hj : j < segs.length := (List.getElem?_eq_some_iff.1 h1).1
    by_cases hc : j < codes.length
    · rw [if_pos hc, if_pos (by simp; omega)]; rfl
    · rw [if_neg hc, if_neg (by simp; omega)]; rfl
  · rw [if_neg h, if_neg h, List.getElem?_zipWith, List.getElem?_map, List.getElem?_map]

/-- What the quantiser of a segment may do: return a legal code for every row. -/
def PickOk (env : SaqEnv F S D) : Prop :=
  ∀ cents x, cents ≠ [] → (∀ c ∈ cents, c.length = x.length) →
    ∃ c, env.pick cents x = .ok c ∧ c < cents.length

theorem segQuantize_ok {env : SaqEnv F S D} (hp : PickOk env) (cents : List (List F)) (w : Nat)
    (hne : cents ≠ []) (hc : ∀ c ∈ cents, c.length = w) (xs : List (List F)) (hx : Rect w xs) :
    ∃ l, segQuantize env cents xs = .ok l ∧ l.length = xs.length ∧ ∀ c ∈ l, c < cents.length := by
  have hpos : 0 < cents.length := List.length_pos_iff.2 hne
  unfold segQuantize
  split_ifs with h
  · refine ⟨_, rfl, by simp, ?_⟩
    intro c hc
    obtain ⟨_, _, rfl⟩ := List.mem_map.1 hc
    exact hpos
  · clear h
    induction xs with
    | nil => exact ⟨[], rfl, rfl, by simp⟩
    | cons x xs ih =>
      obtain ⟨c, h1, h2⟩ := hp cents x hne (fun c h => by rw [hc c h, hx x (by simp)])
      obtain ⟨l, g1, g2, g3⟩ := ih fun y hy => hx y (by simp [hy])
      refine ⟨c :: l, by simp [mapE, h1, g1], by simp [g2], ?_⟩
      intro y hy
      rcases List.mem_cons.1 hy with rfl | hy
      · exact h2
      · exact g3 y hy

theorem firstCodes_get (env : SaqEnv F S D) (rows : List (List F))
    (segs : List ((Nat × Nat) × List (List F))) (codes : List (List Nat))
    (h : firstCodes env rows segs = .ok codes) (j : Nat) (sg : (Nat × Nat) × List (List F))
    (hj : segs[j]? = some sg) :
    segQuantize env sg.2 (rows.map fun r => slice r sg.1.1 sg.1.2) = .ok (codes.getD j []) := by
  induction segs generalizing codes j with
  | nil => simp at hj
  | cons s segs ih =>
    obtain ⟨b, cents⟩ := s
    unfold firstCodes at h
    split at h
    · simp at h
    · rename_i c hc
      split at h
      · simp at h
      · rename_i cs hcs
        simp only [Except.ok.injEq] at h
        subst h
        cases j with
        | zero =>
          simp only [List.getElem?_cons_zero, Option.some.injEq] at hj
          subst hj
          simpa using hc
        | succ j => simpa using ih cs hcs j (by simpa using hj)

theorem slice_length_of {α : Type} (r : List α) (s e : Nat) (h : e ≤ r.length) :
    (slice r s e).length = e - s := by
  unfold slice; simp; omega

omit [LinearOrder F] [IsStrictOrderedRing F] in
theorem zipWith_range {α : Type} (f : List F → List F → α) (n : Nat) (a b : Nat → List F) :
    List.zipWith f ((List.range n).map a) ((List.range n).map b) =
      (List.range n).map fun i => f (a i) (b i) := by
  apply List.ext_getElem
  · simp
  · intro i h1 h2; simp

theorem meanSq_range (n : Nat) (a b : Nat → List F) :
    meanSq ((List.range n).map a) ((List.range n).map b) =
      ((List.range n).map fun i => sqDist (a i) (b i)).sum /
        ((((List.range n).map a).map List.length).sum : Nat) := by
  unfold meanSq sqDist
  rw [zipWith_range]

theorem sum_lt_of_meanSq_lt (n : Nat) (a b c : Nat → List F)
    (h : meanSq ((List.range n).map a) ((List.range n).map b) <
      meanSq ((List.range n).map a) ((List.range n).map c)) :
    ((List.range n).map fun i => sqDist (a i) (b i)).sum <
      ((List.range n).map fun i => sqDist (a i) (c i)).sum := by
  rw [meanSq_range, meanSq_range] at h
  by_contra hc
  exact absurd h (not_lt.2 (div_le_div_of_nonneg_right (not_lt.1 hc) (Nat.cast_nonneg _)))

theorem tiles_get {a b : Nat} {l : List (Nat × Nat)} (h : Tiles a b l) (j : Nat) (bd : Nat × Nat)
    (hj : l[j]? = some bd) : a ≤ bd.1 ∧ bd.1 < bd.2 ∧ bd.2 ≤ b := by
  induction l generalizing a j with
  | nil => simp at hj
  | cons x l ih =>
    obtain ⟨s, e⟩ := x
    obtain ⟨rfl, h2, h3⟩ := h
    cases j with
    | zero =>
      simp only [List.getElem?_cons_zero, Option.some.injEq] at hj
      subst hj
      exact ⟨le_rfl, h2, tiles_le h3⟩
    | succ j =>
      have := ih h3 j (by simpa using hj)
      omega

theorem input_eq (f : F → F → F) (hf : ∀ v r, f v r = v) (n : Nat) (a b : Nat → List F)
    (h : ∀ i, i < n → (a i).length = (b i).length) :
    List.zipWith (List.zipWith f) ((List.range n).map a)
      ((List.range n).map b) = (List.range n).map a := by
  rw [zipWith_range]
  apply List.map_congr_left
  intro i hi
  have hi := h i (List.mem_range.1 hi)
  apply List.ext_getElem
  · simp [hi]
  · intro j h1 h2; simp [hf]

theorem firstCodes_ok {env : SaqEnv F S D} (hp : PickOk env) {dim : Nat}
    {segs : List ((Nat × Nat) × List (List F))} (hs : SegsOk dim segs) (rows : List (List F))
    (hr : Rect dim rows) : ∃ c, firstCodes env rows segs = .ok c ∧ CodesOk rows.length segs c := by
  have key : ∀ l : List ((Nat × Nat) × List (List F)),
      (∀ s ∈ l, s.1.2 ≤ dim ∧ s.2 ≠ [] ∧ ∀ c ∈ s.2, c.length = s.1.2 - s.1.1) →
      ∃ c, firstCodes env rows l = .ok c ∧ CodesOk rows.length l c := by
    intro l hl
    induction l with
    | nil => exact ⟨[], rfl, List.Forall₂.nil⟩
    | cons s l ih =>
      obtain ⟨b, cents⟩ := s
      obtain ⟨h1, h2, h3⟩ := hl (b, cents) (by simp)
      obtain ⟨c, g1, g2⟩ := ih fun s hs => hl s (by simp [hs])
      obtain ⟨d, e1, e2, e3⟩ := segQuantize_ok hp cents (b.2 - b.1) h2 h3
        (rows.map fun r => slice r b.1 b.2) (by
          intro r h
          obtain ⟨x, hx, rfl⟩ := List.mem_map.1 h
          rw [slice_length_of]
          rw [hr x hx]; exact h1)
      refine ⟨d :: c, ?_, List.Forall₂.cons ⟨by simpa using e2, e3⟩ g2⟩
      simp [firstCodes, e1, g1]
  apply key
  intro s h
  obtain ⟨j, hj⟩ := List.getElem?_of_mem h
  have := tiles_get hs.tiles j s.1 (by rw [List.getElem?_map, hj]; rfl)
  exact ⟨this.2.2, hs.cents s h⟩

/-- One step keeps the codes legal, keeps `reconstructed` in step with them, and never raises the
error; with a fixed candidate equal to the present code it changes nothing. -/
theorem adjustSegment_ok {env : SaqEnv F S D} (hp : PickOk env) {dim : Nat}
    {segs : List ((Nat × Nat) × List (List F))} (hs : SegsOk dim segs) (rows : List (List F))
    (hr : Rect dim rows) (j : Nat) (b : Nat × Nat) (cents : List (List F))
    (hj : segs[j]? = some (b, cents)) (st : Adj F) (hc : CodesOk rows.length segs st.codes)
    (hrec : st.recon = reconOf rows.length segs st.codes) :
    ∃ st', adjustSegment env rows j b cents st = .ok st' ∧
      CodesOk rows.length segs st'.codes ∧ st'.recon = reconOf rows.length segs st'.codes ∧
      err rows segs st'.codes ≤ err rows segs st.codes ∧ st.impr ≤ st'.impr ∧
      ((∀ v r, env.mix v r = v) →
        segQuantize env cents (rows.map fun r => slice r b.1 b.2) = .ok (st.codes.getD j []) →
        st' = st) := by
  obtain ⟨hcne, hcw⟩ := hs.cents _ (List.mem_of_getElem? hj)
  simp only at hcne hcw
  have hbj : (segs.map Prod.fst)[j]? = some b := by rw [List.getElem?_map, hj]; rfl
  obtain ⟨-, hb1, hb2⟩ := tiles_get hs.tiles j b hbj
  obtain ⟨c0, hc0, hc0l, hc0v⟩ := codesOk_get hc j _ hj
  set n := rows.length with hn
  -- the blocks of each row around segment j
  have hsplit : ∀ i, i < n → ∃ pre post, pre.length = b.1 ∧
      (cents.getD (c0.getD i 0) []).length = b.2 - b.1 ∧
      (blocksAt segs st.codes i).flatten = pre ++ cents.getD (c0.getD i 0) [] ++ post ∧
      ∀ y, ((blocksAt segs st.codes i).set j y).flatten = pre ++ y ++ post := by
    intro i hi
    obtain ⟨pre, x, post, g1, g2, g3, g4, g5, g6⟩ := blocks_split hs.tiles
      (blocksAt_fits (dim := dim) hs.cents hc i hi) j b hbj
    rw [blocksAt_get hj hc0] at g1
    obtain rfl := Option.some.inj g1
    exact ⟨pre, post, by omega, g4, g2, g6⟩
  have hvs : (rows.map fun r => slice r b.1 b.2) =
      (List.range n).map fun i => slice (rows.getD i []) b.1 b.2 := map_eq_range rows n rfl [] _
  have hrowlen : ∀ i, i < n → (rows.getD i []).length = dim := by
    intro i hi
    rw [List.getD_eq_getElem?_getD, List.getElem?_eq_getElem (by omega)]
    exact hr _ (List.getElem_mem _)
  have hrs : (st.recon.map fun r => slice r b.1 b.2) =
      (List.range n).map fun i => cents.getD (c0.getD i 0) [] := by
    rw [hrec, reconOf, List.map_map]
    apply List.map_congr_left
    intro i hi
    obtain ⟨pre, post, g1, g2, g3, -⟩ := hsplit i (List.mem_range.1 hi)
    simp only [Function.comp]
    rw [g3]
    exact slice_mid _ _ _ _ _ g1 g2 hb1
  have hlen : ∀ i, i < n → (slice (rows.getD i []) b.1 b.2).length =
      (cents.getD (c0.getD i 0) []).length := by
    intro i hi
    obtain ⟨_, _, _, g2, _⟩ := hsplit i hi
    rw [g2, slice_length_of]
    rw [hrowlen i hi]; exact hb2
  have hin : (∀ v r, env.mix v r = v) → List.zipWith (List.zipWith env.mix)
      (rows.map fun r => slice r b.1 b.2) (st.recon.map fun r => slice r b.1 b.2) =
      rows.map fun r => slice r b.1 b.2 := by
    intro hmix
    rw [hvs, hrs]
    exact input_eq _ hmix _ _ _ hlen
  have hrect : Rect (b.2 - b.1) (List.zipWith (List.zipWith env.mix)
      (rows.map fun r => slice r b.1 b.2) (st.recon.map fun r => slice r b.1 b.2)) := by
    rw [hvs, hrs, zipWith_range]
    intro r h
    obtain ⟨i, hi, rfl⟩ := List.mem_map.1 h
    have hi := List.mem_range.1 hi
    obtain ⟨_, _, _, g2, _⟩ := hsplit i hi
    rw [List.length_zipWith, hlen i hi, g2, min_self]
  obtain ⟨l, hl1, hl2, hl3⟩ := segQuantize_ok hp cents (b.2 - b.1) hcne hcw _ hrect
  have hl2 : l.length = n := by rw [hl2, hvs, hrs, zipWith_range]; simp
  have hblock : segDequantize cents l = .ok ((List.range n).map fun i => cents.getD (l.getD i 0) []) := by
    rw [segDequantize_ok cents l hl3, map_eq_range l n hl2 0]
  unfold adjustSegment
  have hin2 : (∀ v r, env.mix v r = v) →
      segQuantize env cents ((List.range n).map fun i => slice (rows.getD i []) b.1 b.2) = .ok l := by
    intro hmix
    rw [hin hmix, hvs] at hl1
    exact hl1
  simp only [hl1, hblock]
  rw [hvs, hrs]
  split_ifs with hlt
  · have hset : setBlock b st.recon ((List.range n).map fun i => cents.getD (l.getD i 0) []) =
        .ok (reconOf n segs (st.codes.set j l)) := by
      rw [hrec]
      unfold reconOf
      apply setBlock_ok
      intro i hi
      obtain ⟨pre, post, g1, g2, g3, g4⟩ := hsplit i (List.mem_range.1 hi)
      rw [g3, blocksAt_set l hj, g4]
      refine setSlice_mid _ _ _ _ _ _ g1 g2 hb1 ?_
      have hil : i < l.length := by have := List.mem_range.1 hi; omega
      have hcc : l.getD i 0 < cents.length := by
        rw [List.getD_eq_getElem?_getD, List.getElem?_eq_getElem hil]
        exact hl3 _ (List.getElem_mem hil)
      rw [List.getD_eq_getElem?_getD, List.getElem?_eq_getElem hcc]
      exact hcw _ (List.getElem_mem hcc)
    rw [hset]
    refine ⟨_, rfl, codesOk_set hc j _ hj l ⟨hl2, hl3⟩, rfl, ?_, ?_, ?_⟩
    · have hsum := sum_lt_of_meanSq_lt n _ _ _ hlt
      have hdiff : err rows segs (st.codes.set j l) +
          ((List.range n).map fun i => sqDist (slice (rows.getD i []) b.1 b.2)
            (cents.getD (c0.getD i 0) [])).sum =
          err rows segs st.codes +
          ((List.range n).map fun i => sqDist (slice (rows.getD i []) b.1 b.2)
            (cents.getD (l.getD i 0) [])).sum := by
        unfold err
        rw [← List.sum_map_add, ← List.sum_map_add]
        congr 1
        apply List.map_congr_left
        intro i hi
        obtain ⟨pre, post, g1, g2, g3, g4⟩ := hsplit i (List.mem_range.1 hi)
        have hil : i < l.length := by have := List.mem_range.1 hi; omega
        have hcc : l.getD i 0 < cents.length := by
          rw [List.getD_eq_getElem?_getD, List.getElem?_eq_getElem hil]
          exact hl3 _ (List.getElem_mem hil)
        have hw : (cents.getD (l.getD i 0) []).length = b.2 - b.1 := by
          rw [List.getD_eq_getElem?_getD, List.getElem?_eq_getElem hcc]
          exact hcw _ (List.getElem_mem hcc)
        rw [blocksAt_set l hj]
        simp only
        rw [g4, g3, sqDist_mid _ _ _ _ _ _ g1 hw hb1, sqDist_mid _ _ _ _ _ _ g1 g2 hb1]
        ring
      simp only
      linarith
    · simp only
      linarith
    · intro hmix h
      have : l = st.codes.getD j [] := Except.ok.inj ((hin2 hmix).symm.trans h)
      have hl0 : l = c0 := by
        rw [this, List.getD_eq_getElem?_getD, hc0]; rfl
      rw [hl0] at hlt
      exact absurd hlt (lt_irrefl _)
  · exact ⟨st, rfl, hc, hrec, le_rfl, le_rfl, fun _ _ => rfl⟩

theorem adjustPass_ok {env : SaqEnv F S D} (hp : PickOk env) {dim : Nat}
    {segs : List ((Nat × Nat) × List (List F))} (hs : SegsOk dim segs) (rows : List (List F))
    (hr : Rect dim rows) (pre rest : List ((Nat × Nat) × List (List F))) (hsplit : segs = pre ++ rest)
    (st : Adj F) (hc : CodesOk rows.length segs st.codes)
    (hrec : st.recon = reconOf rows.length segs st.codes) :
    ∃ st', adjustPass env rows pre.length rest st = .ok st' ∧
      CodesOk rows.length segs st'.codes ∧ st'.recon = reconOf rows.length segs st'.codes ∧
      err rows segs st'.codes ≤ err rows segs st.codes ∧
      ((∀ v r, env.mix v r = v) → firstCodes env rows segs = .ok st.codes → st' = st) := by
  induction rest generalizing pre st with
  | nil => exact ⟨st, rfl, hc, hrec, le_rfl, fun _ _ => rfl⟩
  | cons sg rest ih =>
    obtain ⟨b, cents⟩ := sg
    have hj : segs[pre.length]? = some (b, cents) := by rw [hsplit]; simp
    obtain ⟨st1, h1, h2, h3, h4, -, h6⟩ := adjustSegment_ok hp hs rows hr _ b cents hj st hc hrec
    obtain ⟨st2, g1, g2, g3, g4, g5⟩ := ih (pre ++ [(b, cents)]) (by simp [hsplit]) st1 h2 h3
    refine ⟨st2, ?_, g2, g3, le_trans g4 h4, ?_⟩
    · unfold adjustPass
      rw [h1]
      simpa using g1
    · intro hmix hf
      have : st1 = st := h6 hmix (firstCodes_get env rows segs st.codes hf _ _ hj)
      subst this
      exact g5 hmix hf

theorem adjustLoop_ok {env : SaqEnv F S D} (hp : PickOk env) {dim : Nat}
    {segs : List ((Nat × Nat) × List (List F))} (hs : SegsOk dim segs) (rows : List (List F))
    (hr : Rect dim rows) (iters : Nat) (codes : List (List Nat))
    (hc : CodesOk rows.length segs codes) :
    ∃ codes', adjustLoop env dim rows segs iters codes = .ok codes' ∧
      CodesOk rows.length segs codes' ∧ err rows segs codes' ≤ err rows segs codes ∧
      ((∀ v r, env.mix v r = v) → firstCodes env rows segs = .ok codes → codes' = codes) := by
  induction iters generalizing codes with
  | zero => exact ⟨codes, rfl, hc, le_rfl, fun _ _ => rfl⟩
  | succ n ih =>
    obtain ⟨st, h1, h2, -, h4, h5⟩ := adjustPass_ok hp hs rows hr [] segs rfl
      ⟨codes, reconOf rows.length segs codes, 0⟩ hc rfl
    unfold adjustLoop
    rw [decodeSegments_ok rows.length dim segs codes hs hc rows rfl]
    simp only
    simp only [List.length_nil] at h1
    rw [h1]
    simp only
    split_ifs with hi
    · refine ⟨_, rfl, h2, h4, fun hm hf => ?_⟩
      rw [h5 hm hf]
    · obtain ⟨c', g1, g2, g3, g4⟩ := ih st.codes h2
      refine ⟨c', g1, g2, le_trans g3 h4, fun hm hf => ?_⟩
      have hst := h5 hm hf
      rw [hst] at g4
      exact g4 hm hf

theorem encode_ok {env : SaqEnv F S D} (hp : PickOk env) {dim : Nat}
    {segs : List ((Nat × Nat) × List (List F))} (hs : SegsOk dim segs) (rows : List (List F))
    (hr : Rect dim rows) (iters : Nat) :
    ∃ c0 c1, encode env 0 dim rows segs = .ok c0 ∧ encode env iters dim rows segs = .ok c1 ∧
      CodesOk rows.length segs c0 ∧ CodesOk rows.length segs c1 ∧
      err rows segs c1 ≤ err rows segs c0 ∧ ((∀ v r, env.mix v r = v) → c1 = c0) := by
  obtain ⟨c0, h1, h2⟩ := firstCodes_ok hp hs rows hr
  obtain ⟨c1, g1, g2, g3, g4⟩ := adjustLoop_ok hp hs rows hr iters c0 h2
  refine ⟨c0, c1, ?_, ?_, h2, g2, g3, fun hm => g4 hm h1⟩
  · unfold encode; rw [h1]; rfl
  · unfold encode; rw [h1]; exact g1

theorem transposeCodes_eq (n : Nat) (codes : List (List Nat)) :
    transposeCodes n codes = (List.range n).map (codeAt codes) := rfl

theorem totalErr_eq (rows : List (List F)) (segs : List ((Nat × Nat) × List (List F)))
    (codes : List (List Nat)) :
    totalErr (segs.map Prod.snd) rows (transposeCodes rows.length codes) = err rows segs codes := by
  unfold totalErr err
  rw [transposeCodes_eq]
  congr 1
  apply List.ext_getElem
  · simp
  · intro i h1 h2
    simp only [List.length_zipWith, List.length_map, List.length_range, min_self] at h1
    simp [decodeRow_eq, List.getElem?_eq_getElem h1]

/-! ## Training -/

/-- What the codebook of a segment looks like, given scikit-learn's contract: KMeans, when it
returns, returns at least one centre, each as wide as the rows. -/
def KmeansOk (env : SaqEnv F S D) : Prop :=
  ∀ k w rows cents, Rect w rows → env.kmeans k rows = .ok cents →
    cents ≠ [] ∧ ∀ c ∈ cents, c.length = w

/-- The scaler keeps the shape. -/
def ScalerOk (env : SaqEnv F S D) : Prop :=
  ∀ sc w X Y, Rect w X → env.transform sc X = .ok Y → Rect w Y ∧ Y.length = X.length

theorem trainSegment_spec {env : SaqEnv F S D} (hk : KmeansOk env) {dim : Nat} (rows : List (List F))
    (hr : Rect dim rows) (b : Nat × Nat) (hb : b.1 < b.2 ∧ b.2 ≤ dim) (bits : Int)
    (cents : List (List F)) (h : trainSegment env rows b bits = .ok cents) :
    0 ≤ bits ∧ cents ≠ [] ∧ ∀ c ∈ cents, c.length = b.2 - b.1 := by
  have hw : Rect (b.2 - b.1) (rows.map fun r => slice r b.1 b.2) := by
    intro r h
    obtain ⟨x, hx, rfl⟩ := List.mem_map.1 h
    rw [slice_length_of]
    rw [hr x hx]; exact hb.2
  unfold trainSegment at h
  simp only at h
  split at h
  · simp at h
  · rename_i k hkc
    refine ⟨kClusters_nonneg _ _ _ hkc, ?_⟩
    rw [if_neg (by omega)] at h
    split at h
    · rename_i cs hcs
      simp only [Except.ok.injEq] at h
      subst h
      exact hk _ _ _ _ hw hcs
    · simp only [Except.ok.injEq] at h
      subst h
      refine ⟨by simp, ?_⟩
      intro c hc
      rw [List.mem_singleton.1 hc]
      unfold ProductQ.meanRow
      rw [List.length_map]
      exact foldl_zipWith_length _ _ _ _ (by simp) hw

omit [IsStrictOrderedRing F] in
theorem trainSegments_spec (env : SaqEnv F S D) (rows : List (List F))
    (l : List ((Nat × Nat) × Int)) (books books' : List (List (List F)))
    (h : trainSegments env rows l books = (.ok (), books')) :
    ∃ new, books' = books ++ new ∧
      List.Forall₂ (fun (b : (Nat × Nat) × Int) c => trainSegment env rows b.1 b.2 = .ok c) l new := by
  induction l generalizing books with
  | nil =>
    simp only [trainSegments, Prod.mk.injEq, true_and] at h
    exact ⟨[], by simp [h], List.Forall₂.nil⟩
  | cons x l ih =>
    obtain ⟨b, bits⟩ := x
    unfold trainSegments at h
    split at h
    · simp at h
    · rename_i cents hc
      obtain ⟨new, h1, h2⟩ := ih _ h
      exact ⟨cents :: new, by simp [h1], List.Forall₂.cons hc h2⟩

omit [IsStrictOrderedRing F] in
/-- A training call that returns went through all of these. -/
theorem train_inv (env : SaqEnv F S D) (q q' : Saq F S) (dim : Nat) (X : List (List F))
    (h : train env q (.mat dim X) = (.ok (), q')) :
    ∃ sc proj want, env.fit X = .ok sc ∧ env.transform sc X = .ok proj ∧
      (let bounds := segments (env.cost proj) env.zero (min q.nSegments dim) dim
       env.want q.totalBits proj bounds = .ok want ∧
       ∃ books, trainSegments env proj (bounds.zip (allocBits q.totalBits want)) [] =
          (.ok (), books) ∧
        q' = { q with dim := some dim, full := some X, scaler := some sc
                      nSegments := min q.nSegments dim, bounds := some bounds
                      bits := some (allocBits q.totalBits want), books := books
                      trained := true }) ∧ q.inited = true := by
  unfold train at h
  split_ifs at h with hi
  · simp at h
  simp only at h
  have hmin : (if dim < q.nSegments then dim else q.nSegments) = min q.nSegments dim := by
    split_ifs <;> omega
  rw [hmin] at h
  split at h
  · simp at h
  rename_i sc hsc
  split at h
  · simp at h
  rename_i proj hproj
  split at h
  · simp at h
  rename_i want hwant
  split at h
  · simp at h
  rename_i u books hbooks
  simp only [Prod.mk.injEq, true_and] at h
  refine ⟨sc, proj, want, hsc, hproj, ⟨hwant, books, hbooks, ?_⟩, by simpa using hi⟩
  rw [← h]

/-- The state after a successful training. -/
structure Ready (q : Saq F S) (dim : Nat) (sc : S) (bounds : List (Nat × Nat)) : Prop where
  inited : q.inited = true
  trained : q.trained = true
  hdim : q.dim = some dim
  hsc : q.scaler = some sc
  hbounds : q.bounds = some bounds
  len : q.books.length = bounds.length
  segs : SegsOk dim (bounds.zip q.books)

theorem train_ready {env : SaqEnv F S D} (hk : KmeansOk env) (hT : ScalerOk env)
    (q q' : Saq F S) (dim : Nat) (X : List (List F)) (hn : 1 ≤ q.nSegments) (hd : 1 ≤ dim)
    (hX : Rect dim X)
    (hw : ∀ t p b w, env.want t p b = .ok w → w.length = b.length)
    (h : train env q (.mat dim X) = (.ok (), q')) : ∃ sc bounds, Ready q' dim sc bounds := by
  obtain ⟨sc, proj, want, h1, h2, ⟨h3, books, h4, rfl⟩, hi⟩ := train_inv env q q' dim X h
  obtain ⟨ht, hl⟩ := segments_tiles (env.cost proj) env.zero (min q.nSegments dim) dim
    (by omega) (by omega)
  set bounds := segments (env.cost proj) env.zero (min q.nSegments dim) dim with hb
  have hwl := hw _ _ _ _ h3
  obtain ⟨_, rfl, h5⟩ := trainSegments_spec env proj _ _ _ h4
  have hbl : (allocBits q.totalBits want).length = bounds.length := by
    rw [allocBits_length, hwl]
  have hnl : books.length = bounds.length := by
    rw [← h5.length_eq, List.length_zip, hbl, min_self]
  refine ⟨sc, bounds, hi, rfl, rfl, rfl, rfl, by simpa using hnl, ?_, ?_⟩
  · simp only [List.nil_append]
    rw [List.map_fst_zip (by omega)]
    exact ht
  · simp only [List.nil_append]
    intro s hs
    obtain ⟨j, hj⟩ := List.getElem?_of_mem hs
    rw [List.getElem?_zip_eq_some] at hj
    obtain ⟨hj1, hj2⟩ := hj
    have hjl := (List.getElem?_eq_some_iff.1 hj1).1
    obtain ⟨hjn, hj2'⟩ := List.getElem?_eq_some_iff.1 hj2
    have hseg := List.forall₂_iff_get.1 h5 |>.2 j (by rw [List.length_zip]; omega) hjn
    simp only [List.get_eq_getElem, List.getElem_zip] at hseg
    rw [hj2'] at hseg
    have hjb : bounds[j] = s.1 := (List.getElem?_eq_some_iff.1 hj1).2
    rw [hjb] at hseg
    have htl := tiles_get ht j s.1 hj1
    exact (trainSegment_spec hk proj (hT _ _ _ _ hX h2).1 s.1 ⟨htl.2.1, htl.2.2⟩ _ _ hseg).2

/-! ## The exact nearest centroid -/

theorem dist_expand (x c : List F) (h : c.length = x.length) :
    (x.map (· ^ 2)).sum + (c.map (· ^ 2)).sum - 2 * (List.zipWith (· * ·) x c).sum =
      sqDist x c := by
  induction x generalizing c with
  | nil =>
    cases c with
    | nil => simp [sqDist]
    | cons a c => simp at h
  | cons a x ih =>
    cases c with
    | nil => simp at h
    | cons b c =>
      have := ih c (by simpa using h)
      simp only [sqDist, List.map_cons, List.sum_cons, List.zipWith_cons_cons] at this ⊢
      rw [← this]; ring

theorem pickExact_spec (cents : List (List F)) (x : List F) (hne : cents ≠ [])
    (hc : ∀ c ∈ cents, c.length = x.length) :
    ∃ j c, pickExact cents x = .ok j ∧ cents[j]? = some c ∧
      ∀ d ∈ cents, sqDist x c ≤ sqDist x d := by
  obtain ⟨j, v, h1, h2, h3⟩ := argmin_spec (cents.map (sqDist x)) (by simpa using hne)
  rw [List.getElem?_map, Option.map_eq_some_iff] at h2
  obtain ⟨c, h2, rfl⟩ := h2
  refine ⟨j, c, ?_, h2, fun d hd => h3 _ (List.mem_map_of_mem hd)⟩
  unfold pickExact
  rw [mapE_ok _ (sqDist x) cents]
  · exact h1
  · intro c h
    simp only [dotE, if_pos (hc c h).symm]
    rw [dist_expand x c (hc c h)]

theorem pickExact_ok (env : SaqEnv F S D) (h : env.pick = pickExact) : PickOk env := by
  intro cents x hne hc
  obtain ⟨j, c, h1, h2, -⟩ := pickExact_spec cents x hne hc
  exact ⟨j, by rw [h]; exact h1, (List.getElem?_eq_some_iff.1 h2).1⟩

/-- Codes laid out by rows are legal. -/
def RowCodesOk (books : List (List (List F))) (codes : List (List Nat)) : Prop :=
  ∀ r ∈ codes, List.Forall₂ (fun (b : List (List F)) (c : Nat) => c < b.length) books r

theorem codesOk_rows {n : Nat} {bounds : List (Nat × Nat)} {books : List (List (List F))}
    (hl : books.length = bounds.length) {codes : List (List Nat)}
    (h : CodesOk n (bounds.zip books) codes) : RowCodesOk books (transposeCodes n codes) := by
  intro r hr
  obtain ⟨i, hi, rfl⟩ := List.mem_map.1 hr
  have hi := List.mem_range.1 hi
  have hlen := h.length_eq
  rw [List.length_zip] at hlen
  rw [List.forall₂_iff_get]
  refine ⟨by simp; omega, ?_⟩
  intro j h1 h2
  obtain ⟨c, g1, g2, g3⟩ := codesOk_get h j (bounds[j]'(by omega), books[j]'h1) (by
    rw [List.getElem?_zip_eq_some]
    exact ⟨List.getElem?_eq_getElem _, List.getElem?_eq_getElem _⟩)
  obtain ⟨g0, g1⟩ := List.getElem?_eq_some_iff.1 g1
  have hic : i < c.length := by omega
  simp only [List.get_eq_getElem, List.getElem_map, g1]
  rw [List.getD_eq_getElem?_getD, List.getElem?_eq_getElem hic]
  exact g3 _ (List.getElem_mem hic)

theorem rowCodes_cols {bounds : List (Nat × Nat)} {books : List (List (List F))}
    (hl : books.length = bounds.length) {codes : List (List Nat)} (h : RowCodesOk books codes) :
    CodesOk codes.length (bounds.zip books)
      ((List.range books.length).map fun j => codes.map fun r => r.getD j 0) := by
  unfold CodesOk
  rw [List.forall₂_iff_get]
  refine ⟨by simp; omega, ?_⟩
  intro j h1 h2
  have hj : j < books.length := by rw [List.length_zip] at h1; omega
  simp only [List.get_eq_getElem, List.getElem_map, List.getElem_range, List.length_map,
    List.getElem_zip, true_and]
  intro x hx
  obtain ⟨r, hr, rfl⟩ := List.mem_map.1 hx
  have hf := h r hr
  have hlr := hf.length_eq
  have := (List.forall₂_iff_get.1 hf).2 j hj (by omega)
  simp only [List.get_eq_getElem] at this
  rw [List.getD_eq_getElem?_getD, List.getElem?_eq_getElem (by omega)]
  exact this

theorem codeAt_cols {books : List (List (List F))} {codes : List (List Nat)}
    (h : RowCodesOk books codes) (i : Nat) (hi : i < codes.length) :
    codeAt ((List.range books.length).map fun j => codes.map fun r => r.getD j 0) i = codes[i] := by
  have hlr := (h _ (List.getElem_mem hi)).length_eq
  unfold codeAt
  apply List.ext_getElem
  · simp; omega
  · intro j h1 h2
    simp [hi, List.getElem?_eq_getElem h2]

theorem dequantize_eq (env : SaqEnv F S D) (q : Saq F S) (dim : Nat) (sc : S)
    (bounds : List (Nat × Nat)) (hq : Ready q dim sc bounds) (codes : List (List Nat))
    (hc : RowCodesOk q.books codes) :
    dequantize env q codes = match env.inverse sc (codes.map (decodeRow q.books)) with
      | .error _ => .error .quantization
      | .ok out => .ok out := by
  have hall : codes.all (fun r => r.length = q.books.length) = true := by
    rw [List.all_eq_true]
    intro r hr
    simpa using (hc r hr).length_eq.symm
  have hrec : reconOf codes.length (bounds.zip q.books)
      ((List.range q.books.length).map fun j => codes.map fun r => r.getD j 0) =
      codes.map (decodeRow q.books) := by
    unfold reconOf
    apply List.ext_getElem
    · simp
    · intro i h1 h2
      have hi : i < codes.length := by simpa using h2
      rw [List.getElem_map, List.getElem_map, List.getElem_range, ← decodeRow_eq,
        codeAt_cols hc i hi, List.map_snd_zip (by have := hq.len; omega)]
  have hdec := decodeSegments_ok codes.length dim (bounds.zip q.books)
    ((List.range q.books.length).map fun j => codes.map fun r => r.getD j 0) hq.segs
    (rowCodes_cols hq.len hc)
  unfold dequantize
  rw [if_neg (by simp [hq.inited, hq.trained]), hq.hsc, hq.hbounds, hq.hdim]
  simp only
  rw [if_pos hall]
  have e : (codes.map fun _ => List.replicate dim (0 : F)) =
      ((codes.map (decodeRow q.books)).map fun _ => List.replicate dim (0 : F)) := by
    rw [List.map_map]; rfl
  rw [e, hdec _ (by simp), hrec]
  rfl

theorem mapE_getElem {α β : Type} (f : α → Except Err β) (l : List α) (r : List β)
    (h : mapE f l = .ok r) (i : Nat) (x : α) (hx : l[i]? = some x) :
    ∃ y, f x = .ok y ∧ r[i]? = some y := by
  induction l generalizing r i with
  | nil => simp at hx
  | cons a l ih =>
    unfold mapE at h
    split at h
    · simp at h
    · rename_i b hb
      split at h
      · simp at h
      · rename_i bs hbs
        simp only [Except.ok.injEq] at h
        subst h
        cases i with
        | zero =>
          simp only [List.getElem?_cons_zero, Option.some.injEq] at hx
          subst hx
          exact ⟨b, hb, rfl⟩
        | succ i => simpa using ih bs hbs i (by simpa using hx)

/-- Blocks that are nearest one by one are nearest together. -/
theorem nearest_blocks {a dim : Nat} {bounds : List (Nat × Nat)} (ht : Tiles a dim bounds)
    (row : List F) (xs ys : List (List F)) (hx : Fits bounds xs) (hy : Fits bounds ys)
    (h : ∀ (j : Nat) b x y, bounds[j]? = some b → xs[j]? = some x → ys[j]? = some y →
      sqDist (slice row b.1 b.2) x ≤ sqDist (slice row b.1 b.2) y) :
    sqDist (row.drop a) xs.flatten ≤ sqDist (row.drop a) ys.flatten := by
  induction bounds generalizing a xs ys with
  | nil => cases hx; cases hy; exact le_rfl
  | cons bd bounds ih =>
    obtain ⟨s, e⟩ := bd
    obtain ⟨rfl, hse, ht'⟩ := ht
    cases hx with
    | cons x1 xrest =>
    cases hy with
    | cons y1 yrest =>
    rename_i x xs y ys
    have h0 := h 0 (s, e) x y rfl rfl rfl
    have ih' := ih ht' xs ys xrest yrest fun j b u v h1 h2 h3 => h (j + 1) b u v (by simpa using h1)
      (by simpa using h2) (by simpa using h3)
    simp only [List.flatten_cons]
    rw [ProductQ.sqDist_append, ProductQ.sqDist_append]
    simp only at x1 y1
    rw [x1, y1]
    have e1 : (row.drop s).take (e - s) = slice row s e := by
      unfold slice
      rw [List.drop_take]
    have e2 : (row.drop s).drop (e - s) = row.drop e := by
      rw [List.drop_drop]; congr 1; omega
    rw [e1, e2]
    exact add_le_add h0 ih'

theorem rowCodes_fits {bounds : List (Nat × Nat)} {books : List (List (List F))}
    (hl : books.length = bounds.length)
    (hs : ∀ s ∈ bounds.zip books, s.2 ≠ [] ∧ ∀ c ∈ s.2, c.length = s.1.2 - s.1.1) (code : List Nat)
    (hc : List.Forall₂ (fun (b : List (List F)) (c : Nat) => c < b.length) books code) :
    Fits bounds (List.zipWith (fun b c => b.getD c []) books code) := by
  induction hc generalizing bounds with
  | nil =>
    cases bounds with
    | nil => exact List.Forall₂.nil
    | cons b l => simp at hl
  | cons h1 hrest ih =>
    rename_i b c bs cs
    cases bounds with
    | nil => simp at hl
    | cons bd l =>
      refine List.Forall₂.cons ?_ (ih (by simpa using hl) fun s h => hs s (by simp [h]))
      show (b.getD c []).length = _
      rw [List.getD_eq_getElem?_getD, List.getElem?_eq_getElem h1]
      exact (hs (bd, b) (by simp)).2 _ (List.getElem_mem h1)

/-- The first codes are, row by row, the nearest of all legal codes. -/
theorem firstCodes_nearest {env : SaqEnv F S D} (hp : env.pick = pickExact) {dim : Nat}
    {bounds : List (Nat × Nat)} {books : List (List (List F))} (hl : books.length = bounds.length)
    (hs : SegsOk dim (bounds.zip books)) (rows : List (List F)) (hr : Rect dim rows)
    (codes : List (List Nat)) (hf : firstCodes env rows (bounds.zip books) = .ok codes)
    (hc : CodesOk rows.length (bounds.zip books) codes) (i : Nat) (hi : i < rows.length)
    (code : List Nat)
    (hcode : List.Forall₂ (fun (b : List (List F)) (c : Nat) => c < b.length) books code) :
    sqDist rows[i] (decodeRow books (codeAt codes i)) ≤ sqDist rows[i] (decodeRow books code) := by
  have hfst : (bounds.zip books).map Prod.fst = bounds := List.map_fst_zip (by omega)
  have hsnd : (bounds.zip books).map Prod.snd = books := List.map_snd_zip (by omega)
  have ht := hs.tiles
  rw [hfst] at ht
  have hx := blocksAt_fits (dim := dim) hs.cents hc i hi
  rw [hfst] at hx
  have := nearest_blocks ht rows[i] _ _ hx (rowCodes_fits hl hs.cents code hcode) (by
    intro j b x y hb hxj hyj
    have hjl := (List.getElem?_eq_some_iff.1 hb).1
    have hbk : books[j]? = some (books[j]'(by omega)) := List.getElem?_eq_getElem _
    set cents := books[j]'(by omega) with hcents
    have hseg : (bounds.zip books)[j]? = some (b, cents) := by
      rw [List.getElem?_zip_eq_some]; exact ⟨hb, hbk⟩
    obtain ⟨c, hcj, hcl, hcv⟩ := codesOk_get hc j _ hseg
    obtain ⟨hne, hcw⟩ := hs.cents _ (List.mem_of_getElem? hseg)
    rw [blocksAt_get hseg hcj] at hxj
    obtain rfl := Option.some.inj hxj
    have hq := firstCodes_get env rows _ codes hf j _ hseg
    rw [List.getD_eq_getElem?_getD, hcj] at hq
    simp only [Option.getD_some] at hq
    have htg := tiles_get ht j b hb
    have hrl : rows[i].length = dim := hr _ (List.getElem_mem hi)
    have hsl : (slice rows[i] b.1 b.2).length = b.2 - b.1 := slice_length_of _ _ _ (by omega)
    -- the quantiser of the segment chose c[i]
    have hpick : pickExact cents (slice rows[i] b.1 b.2) = .ok (c.getD i 0) := by
      unfold segQuantize at hq
      rw [if_neg] at hq
      · have := mapE_getElem _ _ _ hq i (slice rows[i] b.1 b.2) (by
          rw [List.getElem?_map, List.getElem?_eq_getElem hi]; rfl)
        obtain ⟨d, h1, h2⟩ := this
        rw [hp] at h1
        rw [h1, List.getD_eq_getElem?_getD, h2]; rfl
      · rintro (h | h)
        · cases rows with
          | nil => simp at hi
          | cons r rows =>
            have hrr : r.length = dim := hr r (by simp)
            have := slice_length_of r b.1 b.2 (by omega)
            simp only [List.map_cons, List.headD_cons] at h
            omega
        · obtain ⟨c0, cs, hcs⟩ := List.exists_cons_of_ne_nil hne
          simp only at hcs
          rw [hcs] at h
          have : c0.length = b.2 - b.1 := hcw c0 (by simp [hcs])
          simp only [List.headD_cons] at h
          omega
    obtain ⟨k, ck, h1, h2, h3⟩ := pickExact_spec cents (slice rows[i] b.1 b.2) hne
      (fun c h => by rw [hcw c h, hsl])
    rw [hpick] at h1
    obtain rfl := Except.ok.inj h1
    rw [List.getD_eq_getElem?_getD, h2]
    refine h3 y ?_
    rw [List.getElem?_zipWith] at hyj
    rw [hbk] at hyj
    have hlc := hcode.length_eq
    have hcv' := (List.forall₂_iff_get.1 hcode).2 j (by omega) (by omega)
    simp only [List.get_eq_getElem] at hcv'
    rw [List.getElem?_eq_getElem (by omega : j < code.length)] at hyj
    simp only [Option.map_some, Option.bind_some, Option.some.injEq] at hyj
    rw [← hyj, List.getD_eq_getElem?_getD, List.getElem?_eq_getElem hcv']
    exact List.getElem_mem hcv')
  rw [List.drop_zero] at this
  have e : decodeRow books (codeAt codes i) = (blocksAt (bounds.zip books) codes i).flatten := by
    rw [← decodeRow_eq, hsnd]
  rw [e]
  exact this

end Saq
end Valori
