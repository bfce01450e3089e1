import Verif.Props.Saq
import Mathlib.Algebra.BigOperators.Field
import Mathlib.Algebra.BigOperators.Intervals

/-!
# How SAQ divides its bits among the segments: C144
-/

namespace Valori.Props
open Valori Valori.Spec

variable {F S D : Type} [Field F] [LinearOrder F] [IsStrictOrderedRing F]

/-- Variance: mean of the squares minus square of the mean. -/
def variance (c : List F) : F :=
  (c.map (· ^ 2)).sum / (c.length : F) - (c.sum / (c.length : F)) ^ 2

/-- Variance of column `j` of a table. -/
def colVariance (rows : List (List F)) (j : Nat) : F := variance (rows.map fun r => r.getD j 0)

/-- Sum of the variances of the columns `s ... e - 1`. -/
def segVariance (rows : List (List F)) (s e : Nat) : F :=
  ∑ j ∈ Finset.Ico s e, colVariance rows j

omit [LinearOrder F] [IsStrictOrderedRing F] in
theorem sum_sq_sub (c : List F) (m : F) :
    (c.map fun x => (x - m) ^ 2).sum =
      (c.map (· ^ 2)).sum - 2 * m * c.sum + (c.length : F) * m ^ 2 := by
  induction c with
  | nil => simp
  | cons x c ih => simp only [List.map_cons, List.sum_cons, ih, List.length_cons]; push_cast; ring

omit [LinearOrder F] in
theorem varOf_eq [LinearOrder F] [IsStrictOrderedRing F] (c : List F) : varOf c = variance c := by
  unfold varOf variance
  simp only
  rw [sum_sq_sub]
  by_cases h : c = []
  · subst h; simp
  · have hn : (c.length : F) ≠ 0 := by
      simpa using h
    field_simp
    ring

omit [LinearOrder F] [IsStrictOrderedRing F] in
theorem cumsum_get (a : F) (v : List F) (i : Nat) (h : i < v.length) :
    (cumsum a v).getD i 0 = a + (v.take (i + 1)).sum := by
  induction v generalizing a i with
  | nil => simp at h
  | cons x v ih =>
    cases i with
    | zero => simp [cumsum]
    | succ i =>
      simp only [cumsum, List.getD_cons_succ]
      rw [ih (a + x) i (by simpa using h)]
      simp [add_assoc]

omit [LinearOrder F] [IsStrictOrderedRing F] in
theorem upTo_cumsum (v : List F) (e : Nat) (h : e ≤ v.length) :
    upTo (cumsum 0 v) e = (v.take e).sum := by
  unfold upTo
  split_ifs with h0
  · subst h0; simp
  · rw [cumsum_get 0 v (e - 1) (by omega), show e - 1 + 1 = e by omega, zero_add]

/-- The share of a dimension in the total variance; all the same if there is none. -/
def dimShare (dim : Nat) (rows : List (List F)) (j : Nat) : F :=
  if segVariance rows 0 dim = 0 then 1 / (dim : F) else
    colVariance rows j / segVariance rows 0 dim

omit [LinearOrder F] [IsStrictOrderedRing F] in
theorem sum_range_map (f : Nat → F) (n : Nat) :
    ((List.range n).map f).sum = ∑ j ∈ Finset.range n, f j := by
  induction n with
  | zero => simp
  | succ n ih => rw [List.range_succ, List.map_append, List.sum_append, ih, Finset.sum_range_succ]; simp

theorem explained_eq (dim : Nat) (rows : List (List F)) :
    explained dim rows = (List.range dim).map (dimShare dim rows) := by
  have hv : (List.range dim).map (fun j => varOf (colOf rows j)) =
      (List.range dim).map (colVariance rows) :=
    List.map_congr_left fun j _ => varOf_eq _
  have hs : ((List.range dim).map (colVariance rows)).sum = segVariance rows 0 dim := by
    rw [sum_range_map, segVariance, Finset.range_eq_Ico]
  unfold explained
  simp only [hv, hs]
  split_ifs with h0
  · apply List.ext_getElem
    · simp
    · intro i h1 h2; simp [dimShare, h0]
  · rw [List.map_map]
    refine List.map_congr_left fun j _ => ?_
    simp [dimShare, h0]

theorem explained_upTo (dim : Nat) (rows : List (List F)) (e : Nat) (h : e ≤ dim) :
    upTo (cumsum 0 (explained dim rows)) e = ∑ j ∈ Finset.Ico 0 e, dimShare dim rows j := by
  rw [upTo_cumsum _ _ (by rw [explained_eq]; simpa using h), explained_eq, ← List.map_take,
    List.take_range, Nat.min_eq_left h, sum_range_map, Finset.range_eq_Ico]

/-- What a segment is entitled to: its part of the total variance, or, if the data do not vary, of
the dimensions. -/
def segShare (dim : Nat) (rows : List (List F)) (s e : Nat) : F :=
  if segVariance rows 0 dim = 0 then ((e - s : Nat) : F) / (dim : F) else
    segVariance rows s e / segVariance rows 0 dim

omit [LinearOrder F] [IsStrictOrderedRing F] in
theorem sum_dimShare (dim : Nat) (rows : List (List F)) (s e : Nat) [DecidableEq F] :
    ∑ j ∈ Finset.Ico s e, (if segVariance rows 0 dim = 0 then 1 / (dim : F) else
      colVariance rows j / segVariance rows 0 dim) =
    if segVariance rows 0 dim = 0 then ((e - s : Nat) : F) / (dim : F) else
    segVariance rows s e / segVariance rows 0 dim := by
  split_ifs with h
  · simp [div_eq_mul_inv]
  · exact (Finset.sum_div _ _ _).symm

theorem segVar_explained (dim : Nat) (rows : List (List F)) (s e : Nat) (h : s < e) (hd : e ≤ dim) :
    segVar (cumsum 0 (explained dim rows)) s e = segShare dim rows s e := by
  rw [segVar_eq _ _ _ h, explained_upTo _ _ _ hd, explained_upTo _ _ _ (by omega),
    ← Finset.sum_Ico_consecutive _ (Nat.zero_le s) h.le, add_sub_cancel_left]
  exact sum_dimShare dim rows s e

omit [IsStrictOrderedRing F] in
theorem segShare_add (dim : Nat) (rows : List (List F)) (a b c : Nat) (h1 : a ≤ b) (h2 : b ≤ c) :
    segShare dim rows a b + segShare dim rows b c = segShare dim rows a c := by
  unfold segShare
  split_ifs
  · rw [← add_div, ← Nat.cast_add, show b - a + (c - b) = c - a by omega]
  · have h3 : segVariance rows a b + segVariance rows b c = segVariance rows a c :=
      Finset.sum_Ico_consecutive _ h1 h2
    rw [← add_div, h3]

theorem segShare_all (dim : Nat) (hd : 1 ≤ dim) (rows : List (List F)) :
    segShare dim rows 0 dim = 1 := by
  unfold segShare
  split_ifs with h
  · have : (dim : F) ≠ 0 := by
      exact_mod_cast (by omega : dim ≠ 0)
    simp [this]
  · exact div_self h

omit [LinearOrder F] [IsStrictOrderedRing F] in
theorem tiles_sum {f : Nat → Nat → F} (hf : ∀ a b c, a ≤ b → b ≤ c → f a b + f b c = f a c)
    {a b : Nat} {l : List (Nat × Nat)} (h : Tiles a b l) (hl : l ≠ []) :
    (l.map fun x => f x.1 x.2).sum = f a b ∧ a ≤ b := by
  induction l generalizing a with
  | nil => exact absurd rfl hl
  | cons x l ih =>
    obtain ⟨s, e⟩ := x
    obtain ⟨rfl, h2, h3⟩ := h
    cases l with
    | nil => obtain rfl : e = b := h3; exact ⟨by simp, h2.le⟩
    | cons y l =>
      obtain ⟨g1, g2⟩ := ih h3 (by simp)
      rw [List.map_cons, List.sum_cons, g1]
      exact ⟨hf _ _ _ h2.le g2, by omega⟩

theorem tiles_le {a b : Nat} {l : List (Nat × Nat)} (h : Tiles a b l) :
    ∀ x ∈ l, x.1 < x.2 ∧ x.2 ≤ b := by
  induction l generalizing a with
  | nil => simp
  | cons x l ih =>
    obtain ⟨s, e⟩ := x
    obtain ⟨rfl, h2, h3⟩ := h
    have he : ∀ {a : Nat} {l : List (Nat × Nat)}, Tiles a b l → a ≤ b := by
      intro a l h
      induction l generalizing a with
      | nil => exact le_of_eq h
      | cons x l ih => obtain ⟨rfl, h2, h3⟩ := h; exact h2.le.trans (ih h3)
    intro x hx
    rcases List.mem_cons.1 hx with rfl | hx
    · exact ⟨h2, he h3⟩
    · exact ih h3 x hx

/-- Exact numbers of bits wanted: the whole part of the share of the budget. -/
theorem exactWant_eq [FloorRing F] (total dim : Nat) (hd : 1 ≤ dim) (rows : List (List F))
    (bounds : List (Nat × Nat)) (ht : Tiles 0 dim bounds) :
    exactWant total (cumsum 0 (explained dim rows)) bounds =
      bounds.map fun b => truncInt ((total : F) * segShare dim rows b.1 b.2) := by
  have hv : (bounds.map fun b => segVar (cumsum 0 (explained dim rows)) b.1 b.2) =
      bounds.map fun b => segShare dim rows b.1 b.2 :=
    List.map_congr_left fun b hb =>
      segVar_explained dim rows b.1 b.2 (tiles_le ht b hb).1 (tiles_le ht b hb).2
  have hs : (bounds.map fun b => segShare dim rows b.1 b.2).sum = 1 := by
    cases hb : bounds with
    | nil => subst hb; have : 0 = dim := ht; omega
    | cons x l =>
      rw [← hb, (tiles_sum (segShare_add dim rows) ht (by simp [hb])).1, segShare_all dim hd]
  unfold exactWant
  simp only [hv, hs, List.map_map]
  exact List.map_congr_left fun b _ => by simp

theorem variance_nonneg (c : List F) : 0 ≤ variance c := by
  rw [← varOf_eq]
  unfold varOf
  refine div_nonneg (List.sum_nonneg ?_) (Nat.cast_nonneg _)
  intro x hx
  obtain ⟨y, -, rfl⟩ := List.mem_map.1 hx
  positivity

theorem segVariance_nonneg (rows : List (List F)) (s e : Nat) : 0 ≤ segVariance rows s e :=
  Finset.sum_nonneg fun _ _ => variance_nonneg _

theorem segShare_nonneg (dim : Nat) (rows : List (List F)) (s e : Nat) :
    0 ≤ segShare dim rows s e := by
  unfold segShare
  split_ifs
  · positivity
  · exact div_nonneg (segVariance_nonneg _ _ _) (segVariance_nonneg _ _ _)

theorem allocBits_get (r : Int) (ws : List Int) (i : Nat) (h : i + 1 < ws.length) :
    (allocBits r ws)[i]? = (ws[i]?).map (max 1) := by
  induction ws generalizing r i with
  | nil => simp at h
  | cons w ws ih =>
    cases ws with
    | nil => simp at h
    | cons w' ws =>
      cases i with
      | zero => rfl
      | succ i =>
        simp only [allocBits, List.getElem?_cons_succ]
        exact ih _ i (by simpa using h)

/-- **C144.**  In exact arithmetic every segment but the last gets the whole part of
`total_bits` times its share of the total variance of the (normalised) training data - or of the
dimensions, if the data do not vary - and at least one bit. -/
theorem C144_saq_shares [LinearOrder D] [FloorRing F] (env : SaqEnv F S D) (q q' : Saq F S) (dim : Nat)
    (X : List (List F)) (hn : 1 ≤ q.nSegments) (hd : 1 ≤ dim)
    (hw : ∀ t P b, env.want t P b = .ok (exactWant t (cumsum 0 (explained dim P)) b))
    (h : Saq.train env q (.mat dim X) = (.ok (), q')) :
    ∃ sc P bounds bits, env.fit X = .ok sc ∧ env.transform sc X = .ok P ∧
      q'.bounds = some bounds ∧ q'.bits = some bits ∧ bits.length = bounds.length ∧
      ∀ i s e, i + 1 < bounds.length → bounds[i]? = some (s, e) →
        bits[i]? = some (max 1 ⌊(q.totalBits : F) * segShare dim P s e⌋) := by
  obtain ⟨bounds, hb, ht, hl⟩ := C53_segments_tile env q q' dim X hn hd h
  obtain ⟨sc, P, want, h1, h2, ⟨h3, books, -, rfl⟩, -⟩ := Saq.train_inv env q q' dim X h
  obtain rfl := Option.some.inj hb
  set bounds := segments (env.cost P) env.zero (min q.nSegments dim) dim with hbd
  rw [hw] at h3
  obtain rfl := Except.ok.inj h3
  have he := exactWant_eq q.totalBits dim hd P bounds ht
  refine ⟨sc, P, bounds, _, h1, h2, rfl, rfl, ?_, ?_⟩
  · rw [he]
    have hlen : ∀ (r : Int) (ws : List Int), (allocBits r ws).length = ws.length := by
      intro r ws
      induction ws generalizing r with
      | nil => rfl
      | cons w ws ih =>
        cases ws with
        | nil => rfl
        | cons w' ws => simp [allocBits, ih]
    rw [hlen, List.length_map]
  · intro i s e hi hse
    rw [allocBits_get _ _ _ (by rw [he]; simpa using hi), he, List.getElem?_map, hse]
    simp only [Option.map_some]
    rw [truncInt, if_pos (mul_nonneg (Nat.cast_nonneg _) (segShare_nonneg _ _ _ _))]

example : exSaqTrained.bits = some [4, 4] ∧
    segShare 3 exSaqData 0 1 = 1 / 2 ∧ segShare 3 exSaqData 1 3 = 1 / 2 := by
  refine ⟨by decide +kernel, by decide +kernel, by decide +kernel⟩

/-- **C144, partial.**  Of two segments that are not the last, the one with more variance gets at
least as many bits. -/
theorem C144_saq_monotone_partial [LinearOrder D] [FloorRing F] (env : SaqEnv F S D) (q q' : Saq F S)
    (dim : Nat) (X : List (List F)) (hn : 1 ≤ q.nSegments) (hd : 1 ≤ dim)
    (hw : ∀ t P b, env.want t P b = .ok (exactWant t (cumsum 0 (explained dim P)) b))
    (h : Saq.train env q (.mat dim X) = (.ok (), q')) :
    ∃ sc P bounds bits, env.fit X = .ok sc ∧ env.transform sc X = .ok P ∧
      q'.bounds = some bounds ∧ q'.bits = some bits ∧
      ∀ i j s e s' e' (b b' : Int), i + 1 < bounds.length → j + 1 < bounds.length →
        bounds[i]? = some (s, e) → bounds[j]? = some (s', e') →
        segShare dim P s e ≤ segShare dim P s' e' →
        bits[i]? = some b → bits[j]? = some b' → b ≤ b' := by
  obtain ⟨sc, P, bounds, bits, h1, h2, h3, h4, -, h5⟩ := C144_saq_shares env q q' dim X hn hd hw h
  refine ⟨sc, P, bounds, bits, h1, h2, h3, h4, ?_⟩
  intro i j s e s' e' b b' hi hj hs hs' hle hb hb'
  rw [h5 i s e hi hs] at hb
  rw [h5 j s' e' hj hs'] at hb'
  obtain rfl := Option.some.inj hb
  obtain rfl := Option.some.inj hb'
  exact max_le_max le_rfl (Int.floor_mono (mul_le_mul_of_nonneg_left hle (Nat.cast_nonneg _)))

/-- **C144, refuted.**  It fails for the last segment, which gets what is left: with two bits for three
segments it gets none, though it holds almost all the variance. -/
theorem C144_saq_monotone_refuted :
    ∃ (q : Saq ℚ Unit) (X : List (List ℚ)),
      (Saq.train (exSaqEnv 3) q (.mat 3 X)).1 = .ok () ∧
      (Saq.train (exSaqEnv 3) q (.mat 3 X)).2.bounds = some [(0, 1), (1, 2), (2, 3)] ∧
      (Saq.train (exSaqEnv 3) q (.mat 3 X)).2.bits = some [1, 1, 0] ∧
      segShare 3 X 0 1 = 1 / 102 ∧ segShare 3 X 1 2 = 1 / 102 ∧ segShare 3 X 2 3 = 100 / 102 :=
  ⟨⟨2, 3, 5, 100, true, false, none, none, none, none, none, []⟩, [[0, 0, 0], [1, 1, 10]],
    by decide +kernel, by decide +kernel, by decide +kernel, by decide +kernel, by decide +kernel,
    by decide +kernel⟩

end Valori.Props
