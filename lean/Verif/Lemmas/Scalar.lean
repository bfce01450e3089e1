import Verif.Model.Scalar
import Verif.Spec.Quant
import Mathlib.Tactic.Linarith
import Mathlib.Tactic.FieldSimp
import Mathlib.Tactic.Positivity

namespace Valori
open Spec (Rect at2 column)

/-! ## Arrays -/

theorem mapE_ok {α β : Type} (f : α → Except Err β) (g : α → β) (l : List α)
    (h : ∀ x ∈ l, f x = .ok (g x)) : mapE f l = .ok (l.map g) := by
  induction l with
  | nil => rfl
  | cons x xs ih =>
    simp only [mapE, h x (by simp), ih fun y hy => h y (by simp [hy]), List.map_cons]

theorem bzip_eq {α β γ : Type} (f : α → β → γ) (a : List α) (b : List β) (h : a.length = b.length) :
    bzip f a b = .ok (List.zipWith f a b) := by
  simp [bzip, h]

theorem setSlice_all {α : Type} (d : Nat) (x : α) (vals : List α) (h : vals.length = d) :
    setSlice (List.replicate d x) 0 d vals = .ok vals := by
  simp [setSlice, slice, h]

theorem foldl_zipWith_length {F : Type} (op : F → F → F) (d : Nat) (rs : List (List F)) (r : List F)
    (hr : r.length = d) (h : Rect d rs) : (rs.foldl (List.zipWith op) r).length = d := by
  induction rs generalizing r with
  | nil => exact hr
  | cons a rs ih =>
    rw [List.foldl_cons]
    refine ih _ ?_ fun x hx => h x (by simp [hx])
    have := h a (by simp)
    simp [hr, this]

/-! ## Rounding -/

section
variable {F : Type} [Field F] [LinearOrder F] [IsStrictOrderedRing F] [FloorRing F]

theorem rint_intCast (n : Int) : rint (n : F) = n := by
  simp [rint]

theorem rint_near (x : F) : |x - rint x| ≤ 1 / 2 := by
  have h0 := Int.fract_nonneg x
  have h1 := Int.fract_lt_one x
  have hx : x = ⌊x⌋ + Int.fract x := (Int.floor_add_fract x).symm
  rw [abs_le]
  unfold rint
  split_ifs <;> push_cast <;> constructor <;> linarith

theorem rint_mono {x y : F} (h : x ≤ y) : rint x ≤ rint y := by
  by_contra hc
  have hc : rint y + 1 ≤ rint x := by omega
  have hcF : ((rint y : Int) : F) + 1 ≤ (rint x : F) := by exact_mod_cast hc
  have hx := abs_le.1 (rint_near x)
  have hy := abs_le.1 (rint_near y)
  have e : x = y := by linarith
  subst e; omega

end

namespace ScalarQ
variable {F : Type} [Field F] [LinearOrder F] [IsStrictOrderedRing F] [FloorRing F]

/-! ## One coordinate -/

theorem upper_eq (q : ScalarQ F) (h : q.bits ≤ 63) : q.upper = 2 ^ q.bits - 1 := by
  have h1 : 2 ^ q.bits ≤ 2 ^ 63 := Nat.pow_le_pow_right (by omega) h
  have : (2 : Nat) ^ 63 = 9223372036854775808 := by norm_num
  unfold upper maxVal int32Max int64Max
  simp only
  split_ifs <;> omega

theorem denom_eq (q : ScalarQ F) (h : q.bits ≤ 63) : q.denom = 2 ^ q.bits - 1 := by
  have h1 : 2 ^ q.bits ≤ 2 ^ 63 := Nat.pow_le_pow_right (by omega) h
  have : (2 : Nat) ^ 63 = 9223372036854775808 := by norm_num
  unfold denom int64Max
  omega

/-- At any width the largest code is the divisor of the range. -/
theorem upper_eq_denom (q : ScalarQ F) : q.upper = q.denom := by
  unfold upper denom maxVal int32Max int64Max
  simp only
  split_ifs <;> omega

theorem denom_pos (q : ScalarQ F) (h : 1 ≤ q.bits) : 0 < q.denom := by
  have : 2 ^ 1 ≤ 2 ^ q.bits := Nat.pow_le_pow_right (by omega) h
  unfold denom int64Max
  omega

theorem scaleOf_pos (q : ScalarQ F) (hb : 1 ≤ q.bits) {lo hi : F} (h : lo ≤ hi) :
    0 < q.scaleOf lo hi := by
  have hd : (0 : F) < q.denom := by exact_mod_cast q.denom_pos hb
  unfold scaleOf
  split_ifs with h0
  · exact one_pos
  · exact lt_of_le_of_ne (div_nonneg (by linarith) hd.le) (Ne.symm h0)

theorem scaleOf_eq (q : ScalarQ F) (hb : 1 ≤ q.bits) {lo hi : F} (h : lo < hi) :
    q.scaleOf lo hi = (hi - lo) / q.denom := by
  have hd : (0 : F) < q.denom := by exact_mod_cast q.denom_pos hb
  unfold scaleOf
  rw [if_neg]
  exact (div_pos (by linarith) hd).ne'

theorem scaleOf_const (q : ScalarQ F) (lo : F) : q.scaleOf lo lo = 1 := by
  simp [scaleOf]

/-- One coordinate encoded. -/
def enc (q : ScalarQ F) (lo hi x : F) : Int := q.codeOf ((x - lo) / q.scaleOf lo hi)

/-- One code decoded. -/
def dec (q : ScalarQ F) (lo hi : F) (c : Int) : F := (c : F) * q.scaleOf lo hi + lo

theorem codeOf_range (q : ScalarQ F) (t : F) : 0 ≤ q.codeOf t ∧ q.codeOf t ≤ q.upper := by
  unfold codeOf; omega

theorem codeOf_int (q : ScalarQ F) (c : Int) (h0 : 0 ≤ c) (h1 : c ≤ q.upper) :
    q.codeOf (c : F) = c := by
  unfold codeOf; rw [rint_intCast]; omega

theorem codeOf_mono (q : ScalarQ F) {s t : F} (h : s ≤ t) : q.codeOf s ≤ q.codeOf t := by
  have := rint_mono h
  unfold codeOf; omega

theorem enc_dec (q : ScalarQ F) (hb : 1 ≤ q.bits) {lo hi : F} (h : lo ≤ hi) (c : Int)
    (h0 : 0 ≤ c) (h1 : c ≤ q.upper) : q.enc lo hi (q.dec lo hi c) = c := by
  have hs := q.scaleOf_pos hb h
  unfold enc dec
  rw [add_sub_cancel_right, mul_div_assoc, div_self hs.ne', mul_one, q.codeOf_int c h0 h1]

theorem enc_mono (q : ScalarQ F) (hb : 1 ≤ q.bits) {lo hi : F} (h : lo ≤ hi) {x y : F}
    (hxy : x ≤ y) : q.enc lo hi x ≤ q.enc lo hi y :=
  q.codeOf_mono (div_le_div_of_nonneg_right (by linarith) (q.scaleOf_pos hb h).le)

theorem dec_range (q : ScalarQ F) (hb : 1 ≤ q.bits) {lo hi : F} (h : lo < hi) (c : Int)
    (h0 : 0 ≤ c) (h1 : c ≤ q.upper) : lo ≤ q.dec lo hi c ∧ q.dec lo hi c ≤ hi := by
  have hd : (0 : F) < q.denom := by exact_mod_cast q.denom_pos hb
  have hs := q.scaleOf_pos hb h.le
  have c0 : (0 : F) ≤ (c : F) := by exact_mod_cast h0
  have c1 : (c : F) ≤ (q.denom : F) := by
    rw [upper_eq_denom] at h1; exact_mod_cast h1
  unfold dec
  constructor
  · nlinarith [mul_nonneg c0 hs.le]
  · have : (c : F) * q.scaleOf lo hi ≤ q.denom * q.scaleOf lo hi :=
      mul_le_mul_of_nonneg_right c1 hs.le
    rw [q.scaleOf_eq hb h, mul_div_cancel₀ _ hd.ne'] at this
    rw [q.scaleOf_eq hb h]
    linarith

/-- Inside the range the error is at most half a step. -/
theorem dec_enc (q : ScalarQ F) (hb : 1 ≤ q.bits) {lo hi x : F} (hlo : lo ≤ x) (hhi : x ≤ hi) :
    |q.dec lo hi (q.enc lo hi x) - x| ≤ (hi - lo) / (2 * q.denom) := by
  have hd : (0 : F) < q.denom := by exact_mod_cast q.denom_pos hb
  rcases eq_or_lt_of_le (hlo.trans hhi) with h | h
  · subst h
    have : x = lo := le_antisymm hhi hlo
    subst this
    have := q.codeOf_int (F := F) 0 le_rfl (by omega)
    simp only [Int.cast_zero] at this
    simp [dec, enc, this]
  · have hs := q.scaleOf_pos hb h.le
    set t := (x - lo) / q.scaleOf lo hi with ht
    have hx : x = t * q.scaleOf lo hi + lo := by rw [ht, div_mul_cancel₀ _ hs.ne']; ring
    have t0 : 0 ≤ t := div_nonneg (by linarith) hs.le
    have t1 : t ≤ q.denom := by
      rw [ht, div_le_iff₀ hs, q.scaleOf_eq hb h, mul_div_cancel₀ _ hd.ne']; linarith
    have r0 : 0 ≤ rint t := by
      have := rint_mono t0
      simpa using (rint_intCast (F := F) 0 ▸ (by simpa using this) : (0 : Int) ≤ rint t)
    have r1 : rint t ≤ q.upper := by
      have := rint_mono t1
      have e : rint ((q.denom : Nat) : F) = (q.denom : Int) := by
        have := rint_intCast (F := F) (q.denom : Int)
        simpa using this
      rw [e, ← upper_eq_denom] at this; exact this
    have hc : q.enc lo hi x = rint t := by
      unfold enc codeOf; rw [← ht]; omega
    have hn := rint_near t
    have e : q.dec lo hi (q.enc lo hi x) - x = -((t - rint t) * q.scaleOf lo hi) := by
      rw [hc]; unfold dec
      rw [hx]; ring
    rw [e, abs_neg, abs_mul, abs_of_pos hs]
    calc |t - rint t| * q.scaleOf lo hi ≤ 1 / 2 * q.scaleOf lo hi :=
          mul_le_mul_of_nonneg_right hn hs.le
      _ = (hi - lo) / (2 * q.denom) := by rw [q.scaleOf_eq hb h]; field_simp

/-! ## Training -/

section
variable {α : Type}

theorem foldl_zipWith_get (op : F → F → F) (d : Nat) (rs : List (List F)) (r : List F)
    (hr : r.length = d) (h : Rect d rs) (j : Nat) (x : F) (hx : r[j]? = some x) :
    (rs.foldl (List.zipWith op) r)[j]? = some ((rs.filterMap (·[j]?)).foldl op x) := by
  induction rs generalizing r x with
  | nil => simpa using hx
  | cons a rs ih =>
    have ha : a.length = d := h a (by simp)
    obtain ⟨hj, rfl⟩ := List.getElem?_eq_some_iff.1 hx
    have hja : j < a.length := by omega
    rw [List.foldl_cons, List.filterMap_cons_some (f := fun x : List F => x[j]?)
      (List.getElem?_eq_getElem hja), List.foldl_cons]
    refine ih _ (by simp [hr, ha]) (fun y hy => h y (by simp [hy])) _ ?_
    rw [List.getElem?_eq_getElem (by simp; omega)]
    simp

end

theorem foldl_min_least (l : List F) (x : F) : IsLeast {y | y = x ∨ y ∈ l} (l.foldl min x) := by
  induction l generalizing x with
  | nil => simp [IsLeast, lowerBounds]
  | cons a l ih =>
    rw [List.foldl_cons]
    obtain ⟨h1, h2⟩ := ih (min x a)
    constructor
    · rcases h1 with h | h
      · rcases min_choice x a with e | e <;> rw [e] at h <;> rw [e] <;> simp [h]
      · exact Or.inr (by simp [h])
    · intro y hy
      have hm : l.foldl min (min x a) ≤ min x a := h2 (Or.inl rfl)
      rcases hy with rfl | hy
      · exact hm.trans (min_le_left _ _)
      · rcases List.mem_cons.1 hy with rfl | hy
        · exact hm.trans (min_le_right _ _)
        · exact h2 (Or.inr hy)

theorem foldl_max_greatest (l : List F) (x : F) :
    IsGreatest {y | y = x ∨ y ∈ l} (l.foldl max x) := by
  induction l generalizing x with
  | nil => simp [IsGreatest, upperBounds]
  | cons a l ih =>
    rw [List.foldl_cons]
    obtain ⟨h1, h2⟩ := ih (max x a)
    constructor
    · rcases h1 with h | h
      · rcases max_choice x a with e | e <;> rw [e] at h <;> rw [e] <;> simp [h]
      · exact Or.inr (by simp [h])
    · intro y hy
      have hm : max x a ≤ l.foldl max (max x a) := h2 (Or.inl rfl)
      rcases hy with rfl | hy
      · exact (le_max_left _ _).trans hm
      · rcases List.mem_cons.1 hy with rfl | hy
        · exact (le_max_right _ _).trans hm
        · exact h2 (Or.inr hy)

theorem column_cons (r : List F) (rs : List (List F)) (j : Nat) (x : F) (hx : r[j]? = some x) :
    column (r :: rs) j = {y | y = x ∨ y ∈ rs.filterMap (·[j]?)} := by
  ext y
  simp only [column, List.mem_cons, Set.mem_setOf_eq, List.mem_filterMap]
  constructor
  · rintro ⟨a, rfl | ha, h⟩
    · rw [hx] at h; exact Or.inl (Option.some.inj h).symm
    · exact Or.inr ⟨a, ha, h⟩
  · rintro (rfl | ⟨a, ha, h⟩)
    · exact ⟨r, Or.inl rfl, hx⟩
    · exact ⟨a, Or.inr ha, h⟩

/-- What a successful training stores. -/
theorem train_spec (q : ScalarQ F) (hi : q.inited = true) (d : Nat) (X : List (List F))
    (hne : X ≠ []) (hX : Rect d X) :
    ∃ lo hiL, q.train (.mat d X) =
        (.ok (), { q with dim := some d, minV := some lo, maxV := some hiL
                          scale := some (List.zipWith q.scaleOf lo hiL), trained := true }) ∧
      lo.length = d ∧ hiL.length = d ∧
      (∀ (j : Nat) m, lo[j]? = some m → IsLeast (column X j) m) ∧
      (∀ (j : Nat) m, hiL[j]? = some m → IsGreatest (column X j) m) := by
  obtain ⟨r, rs, rfl⟩ := List.exists_cons_of_ne_nil hne
  have hr : r.length = d := hX r (by simp)
  have hrs : Rect d rs := fun x hx => hX x (by simp [hx])
  have l1 := foldl_zipWith_length (min : F → F → F) d rs r hr hrs
  have l2 := foldl_zipWith_length (max : F → F → F) d rs r hr hrs
  refine ⟨rs.foldl (List.zipWith min) r, rs.foldl (List.zipWith max) r, ?_, l1, l2, ?_, ?_⟩
  · simp [train, hi, reduceRows]
  · intro j m hm
    have hj : j < r.length := by
      obtain ⟨h, _⟩ := List.getElem?_eq_some_iff.1 hm; omega
    have hx := List.getElem?_eq_getElem hj
    rw [foldl_zipWith_get _ d rs r hr hrs j _ hx] at hm
    rw [column_cons r rs j _ hx, ← Option.some.inj hm]
    exact foldl_min_least _ _
  · intro j m hm
    have hj : j < r.length := by
      obtain ⟨h, _⟩ := List.getElem?_eq_some_iff.1 hm; omega
    have hx := List.getElem?_eq_getElem hj
    rw [foldl_zipWith_get _ d rs r hr hrs j _ hx] at hm
    rw [column_cons r rs j _ hx, ← Option.some.inj hm]
    exact foldl_max_greatest _ _

/-! ## Whole tables -/

/-- A row encoded. -/
def encRow (q : ScalarQ F) (lo hi row : List F) : List Int :=
  List.zipWith (fun p x => q.enc p.1 p.2 x) (lo.zip hi) row

/-- A row decoded. -/
def decRow (q : ScalarQ F) (lo hi : List F) (row : List Int) : List F :=
  List.zipWith (fun p c => q.dec p.1 p.2 c) (lo.zip hi) row

theorem quantizeRow_eq (q : ScalarQ F) (d : Nat) (lo hi row : List F) (h1 : lo.length = d)
    (h2 : hi.length = d) (h3 : row.length = d) :
    quantizeRow q d lo (List.zipWith q.scaleOf lo hi) row = .ok (q.encRow lo hi row) := by
  unfold quantizeRow
  rw [bzip_eq _ _ _ (by omega)]
  simp only
  rw [bzip_eq _ _ _ (by simp; omega)]
  simp only
  rw [setSlice_all _ _ _ (by simp; omega)]
  congr 1
  apply List.ext_getElem
  · simp [encRow]; omega
  · intro i a b
    simp [encRow, enc]

theorem dequantizeRow_eq (q : ScalarQ F) (d : Nat) (lo hi : List F) (row : List Int)
    (h1 : lo.length = d) (h2 : hi.length = d) (h3 : row.length = d) :
    dequantizeRow lo (List.zipWith q.scaleOf lo hi) row = .ok (q.decRow lo hi row) := by
  unfold dequantizeRow
  rw [bzip_eq _ _ _ (by simp; omega)]
  simp only
  rw [bzip_eq _ _ _ (by simp; omega)]
  congr 1
  apply List.ext_getElem
  · simp [decRow]; omega
  · intro i a b
    simp [decRow, dec]

theorem at2_zip {α β : Type} (g : F × F → α → β) (lo hi : List F) (Y : List (List α)) (i j : Nat)
    (c : β) (h : at2 (Y.map fun row => List.zipWith g (lo.zip hi) row) i j = some c) :
    ∃ x l u, at2 Y i j = some x ∧ lo[j]? = some l ∧ hi[j]? = some u ∧ c = g (l, u) x := by
  unfold at2 at h
  rw [List.getElem?_map] at h
  cases hy : Y[i]? with
  | none => simp [hy] at h
  | some row =>
    rw [hy] at h
    simp only [Option.map_some, Option.bind_some] at h
    rw [List.getElem?_zipWith] at h
    cases hz : (lo.zip hi)[j]? with
    | none => simp [hz] at h
    | some p =>
      cases hx : row[j]? with
      | none => simp [hz, hx] at h
      | some x =>
        rw [hz, hx] at h
        obtain ⟨h1, h2⟩ := List.getElem?_zip_eq_some.1 hz
        exact ⟨x, p.1, p.2, by simp [at2, hy, hx], h1, h2, (Option.some.inj h).symm⟩

theorem encRow_length (q : ScalarQ F) (d : Nat) (lo hi row : List F) (h1 : lo.length = d)
    (h2 : hi.length = d) (h3 : row.length = d) : (q.encRow lo hi row).length = d := by
  simp [encRow]; omega

theorem decRow_length (q : ScalarQ F) (d : Nat) (lo hi : List F) (row : List Int)
    (h1 : lo.length = d) (h2 : hi.length = d) (h3 : row.length = d) :
    (q.decRow lo hi row).length = d := by
  simp [decRow]; omega

/-- Training, then encoding and decoding any tables of the trained width. -/
theorem run_spec (q : ScalarQ F) (hi : q.inited = true) (d : Nat) (X : List (List F))
    (hne : X ≠ []) (hX : Rect d X) :
    ∃ q' lo hiL, q.train (.mat d X) = (.ok (), q') ∧ lo.length = d ∧ hiL.length = d ∧
      (∀ (j : Nat) m, lo[j]? = some m → IsLeast (column X j) m) ∧
      (∀ (j : Nat) m, hiL[j]? = some m → IsGreatest (column X j) m) ∧
      (∀ n Y, Rect d Y → q'.quantize (.mat n Y) = .ok (Y.map (q.encRow lo hiL))) ∧
      (∀ n C, Rect d C → q'.dequantize (.mat n C) = .ok (C.map (q.decRow lo hiL))) := by
  obtain ⟨lo, hiL, ht, l1, l2, g1, g2⟩ := train_spec q hi d X hne hX
  refine ⟨_, lo, hiL, ht, l1, l2, g1, g2, ?_, ?_⟩
  · intro n Y hY
    have hm := mapE_ok (quantizeRow q d lo (List.zipWith q.scaleOf lo hiL)) (q.encRow lo hiL) Y
      fun row hr => quantizeRow_eq q d lo hiL row l1 l2 (hY row hr)
    have e : mapE (quantizeRow { q with dim := some d, minV := some lo, maxV := some hiL
                                        scale := some (List.zipWith q.scaleOf lo hiL)
                                        trained := true } d lo (List.zipWith q.scaleOf lo hiL)) Y
        = .ok (Y.map (q.encRow lo hiL)) := hm
    unfold quantize
    rw [if_neg (by simp [hi]), if_neg (by simp)]
    simp only [e]
  · intro n C hC
    have hm := mapE_ok (dequantizeRow lo (List.zipWith q.scaleOf lo hiL)) (q.decRow lo hiL) C
      fun row hr => dequantizeRow_eq q d lo hiL row l1 l2 (hC row hr)
    simp only [dequantize, hi, hm, Bool.true_eq_false, if_false]

end ScalarQ
end Valori
