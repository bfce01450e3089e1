import Verif.Lemmas.Scalar
import Mathlib.Algebra.Order.Archimedean.Basic
import Mathlib.Data.Rat.Floor

/-!
# Scalar quantiser: C48, C49, C50

Exact arithmetic over any ordered field with a floor function (rationals, reals).
-/

namespace Valori.Props
open Valori.Spec (Rect at2 column)

variable {F : Type} [Field F] [LinearOrder F] [IsStrictOrderedRing F] [FloorRing F]

/-- **C48.**  Whatever state an initialised quantiser is in, training it on a non-empty table and
encoding any table of the same width succeeds; every code is between 0 and `2^bits - 1`; the
codes decode, each value into the trained range of its column, or to `min + code` when the
column was constant. -/
theorem C48_scalar_codes_in_range (q : ScalarQ F) (hi : q.inited = true) (hb : 1 ≤ q.bits)
    (hb' : q.bits ≤ 31) (d : Nat) (X Y : List (List F)) (hne : X ≠ []) (hX : Rect d X)
    (hY : Rect d Y) :
    ∃ q' codes Z, q.train (.mat d X) = (.ok (), q') ∧ q'.quantize (.mat d Y) = .ok codes ∧
      q'.dequantize (.mat d codes) = .ok Z ∧
      codes.length = Y.length ∧ Rect d codes ∧ Z.length = Y.length ∧ Rect d Z ∧
      ∀ i j c z lo hi, at2 codes i j = some c → at2 Z i j = some z →
        IsLeast (column X j) lo → IsGreatest (column X j) hi →
        0 ≤ c ∧ c ≤ 2 ^ q.bits - 1 ∧ (lo < hi → lo ≤ z ∧ z ≤ hi) ∧ (lo = hi → z = lo + c) := by
  obtain ⟨q', lo, hiL, ht, l1, l2, g1, g2, hq, hd⟩ := ScalarQ.run_spec q hi d X hne hX
  have hC : Rect d (Y.map (q.encRow lo hiL)) := by
    intro r hr
    obtain ⟨y, hy, rfl⟩ := List.mem_map.1 hr
    exact q.encRow_length d lo hiL y l1 l2 (hY y hy)
  refine ⟨q', _, _, ht, hq d Y hY, hd d _ hC, by simp, hC, by simp, ?_, ?_⟩
  · intro r hr
    obtain ⟨y, hy, rfl⟩ := List.mem_map.1 hr
    exact q.decRow_length d lo hiL y l1 l2 (hC y hy)
  · intro i j c z a b hc hz ha hb2
    obtain ⟨c', l, u, e1, e2, e3, rfl⟩ := ScalarQ.at2_zip _ lo hiL _ i j z hz
    rw [hc] at e1
    obtain rfl := Option.some.inj e1
    obtain ⟨x, l', u', -, e2', e3', rfl⟩ := ScalarQ.at2_zip _ lo hiL Y i j c hc
    rw [e2] at e2'; rw [e3] at e3'
    obtain rfl := Option.some.inj e2'
    obtain rfl := Option.some.inj e3'
    obtain rfl := (g1 j _ e2).unique ha
    obtain rfl := (g2 j _ e3).unique hb2
    obtain ⟨r0, r1⟩ := q.codeOf_range ((x - l) / q.scaleOf l u)
    refine ⟨r0, ?_, fun h => q.dec_range hb h _ r0 r1, fun h => ?_⟩
    · have := q.upper_eq (by omega)
      have p : 1 ≤ 2 ^ q.bits := Nat.one_le_two_pow
      change q.codeOf _ ≤ _
      have e : ((2 ^ q.bits - 1 : Nat) : Int) = 2 ^ q.bits - 1 := by push_cast [p]; rfl
      rw [← e, ← this]; exact r1
    · subst h
      simp only [ScalarQ.dec, q.scaleOf_const]
      ring

/-- **C49.**  Encoding and decoding a table within the trained range moves no coordinate by more
than half a step; a constant column (`lo = hi`) is therefore reproduced exactly. -/
theorem C49_scalar_error_bound (q : ScalarQ F) (hi : q.inited = true) (hb : 1 ≤ q.bits)
    (hb' : q.bits ≤ 63) (d : Nat) (X Y : List (List F)) (hne : X ≠ []) (hX : Rect d X)
    (hY : Rect d Y) :
    ∃ q' codes Z, q.train (.mat d X) = (.ok (), q') ∧ q'.quantize (.mat d Y) = .ok codes ∧
      q'.dequantize (.mat d codes) = .ok Z ∧ Z.length = Y.length ∧ Rect d Z ∧
      ∀ i j y z lo hi, at2 Y i j = some y → at2 Z i j = some z →
        IsLeast (column X j) lo → IsGreatest (column X j) hi → lo ≤ y → y ≤ hi →
        |z - y| ≤ (hi - lo) / (2 * (2 ^ q.bits - 1)) := by
  obtain ⟨q', lo, hiL, ht, l1, l2, g1, g2, hq, hd⟩ := ScalarQ.run_spec q hi d X hne hX
  have hC : Rect d (Y.map (q.encRow lo hiL)) := by
    intro r hr
    obtain ⟨y, hy, rfl⟩ := List.mem_map.1 hr
    exact q.encRow_length d lo hiL y l1 l2 (hY y hy)
  refine ⟨q', _, _, ht, hq d Y hY, hd d _ hC, by simp, ?_, ?_⟩
  · intro r hr
    obtain ⟨y, hy, rfl⟩ := List.mem_map.1 hr
    exact q.decRow_length d lo hiL y l1 l2 (hC y hy)
  · intro i j y z a b hy hz ha hb2 hay hyb
    obtain ⟨c, l, u, e1, e2, e3, rfl⟩ := ScalarQ.at2_zip _ lo hiL _ i j z hz
    obtain ⟨x, l', u', ex, e2', e3', rfl⟩ := ScalarQ.at2_zip _ lo hiL Y i j c e1
    rw [e2] at e2'; rw [e3] at e3'
    obtain rfl := Option.some.inj e2'
    obtain rfl := Option.some.inj e3'
    rw [hy] at ex
    obtain rfl := Option.some.inj ex
    obtain rfl := (g1 j _ e2).unique ha
    obtain rfl := (g2 j _ e3).unique hb2
    have h := q.dec_enc hb hay hyb
    have p : 1 ≤ 2 ^ q.bits := Nat.one_le_two_pow
    have e : (q.denom : F) = 2 ^ q.bits - 1 := by
      rw [q.denom_eq hb']; push_cast [p]; rfl
    rw [e] at h
    exact h

/-- **C49, the training set.**  The training vectors themselves come back within half a step. -/
theorem C49_scalar_training_set (q : ScalarQ F) (hi : q.inited = true) (hb : 1 ≤ q.bits)
    (hb' : q.bits ≤ 63) (d : Nat) (X : List (List F)) (hne : X ≠ []) (hX : Rect d X) :
    ∃ q' codes Z, q.train (.mat d X) = (.ok (), q') ∧ q'.quantize (.mat d X) = .ok codes ∧
      q'.dequantize (.mat d codes) = .ok Z ∧ Z.length = X.length ∧ Rect d Z ∧
      ∀ i j x z lo hi, at2 X i j = some x → at2 Z i j = some z →
        IsLeast (column X j) lo → IsGreatest (column X j) hi →
        |z - x| ≤ (hi - lo) / (2 * (2 ^ q.bits - 1)) := by
  obtain ⟨q', codes, Z, h1, h2, h3, h4, h5, h6⟩ :=
    C49_scalar_error_bound q hi hb hb' d X X hne hX hX
  refine ⟨q', codes, Z, h1, h2, h3, h4, h5, ?_⟩
  intro i j x z lo hi' hx hz hlo hhi
  have hmem : x ∈ column X j := by
    unfold at2 at hx
    cases hr : X[i]? with
    | none => simp [hr] at hx
    | some r => exact ⟨r, List.mem_of_getElem? hr, by simpa [hr] using hx⟩
  exact h6 i j x z lo hi' hx hz hlo hhi (hlo.2 hmem) (hhi.2 hmem)

/-- **C50, idempotence.**  Any table of legal codes is reproduced by decoding and encoding. -/
theorem C50_scalar_requantize (q : ScalarQ F) (hi : q.inited = true) (hb : 1 ≤ q.bits)
    (hb' : q.bits ≤ 63) (d : Nat) (X : List (List F)) (hne : X ≠ []) (hX : Rect d X)
    (C : List (List Int)) (hC : Rect d C)
    (hr : ∀ r ∈ C, ∀ c ∈ r, 0 ≤ c ∧ c ≤ 2 ^ q.bits - 1) :
    ∃ q' Z, q.train (.mat d X) = (.ok (), q') ∧ q'.dequantize (.mat d C) = .ok Z ∧
      q'.quantize (.mat d Z) = .ok C := by
  obtain ⟨q', lo, hiL, ht, l1, l2, g1, g2, hq, hd⟩ := ScalarQ.run_spec q hi d X hne hX
  have hZ : Rect d (C.map (q.decRow lo hiL)) := by
    intro r hr
    obtain ⟨y, hy, rfl⟩ := List.mem_map.1 hr
    exact q.decRow_length d lo hiL y l1 l2 (hC y hy)
  refine ⟨q', _, ht, hd d C hC, ?_⟩
  rw [hq d _ hZ, List.map_map]
  congr 1
  conv_rhs => rw [← List.map_id C]
  apply List.map_congr_left
  intro row hrow
  have hl := hC row hrow
  apply List.ext_getElem
  · simp [ScalarQ.encRow, ScalarQ.decRow]; omega
  · intro j a b
    have hj : j < row.length := by simpa using b
    have hlo := g1 j _ (List.getElem?_eq_getElem (show j < lo.length by omega))
    have hhi := g2 j _ (List.getElem?_eq_getElem (show j < hiL.length by omega))
    obtain ⟨c0, c1⟩ := hr row hrow _ (List.getElem_mem hj)
    have p : 1 ≤ 2 ^ q.bits := Nat.one_le_two_pow
    have e : ((q.upper : Nat) : Int) = 2 ^ q.bits - 1 := by
      rw [q.upper_eq hb']; push_cast [p]; rfl
    have := q.enc_dec hb (hhi.2 hlo.1) row[j] c0 (by rw [e]; exact c1)
    simpa [ScalarQ.encRow, ScalarQ.decRow] using this

/-- **C50, monotonicity.**  Of two vectors, the one with the larger coordinate never gets the
smaller code in that coordinate; no restriction to the trained range. -/
theorem C50_scalar_monotone (q : ScalarQ F) (hi : q.inited = true) (hb : 1 ≤ q.bits)
    (d : Nat) (X Y : List (List F)) (hne : X ≠ []) (hX : Rect d X) (hY : Rect d Y) :
    ∃ q' codes, q.train (.mat d X) = (.ok (), q') ∧ q'.quantize (.mat d Y) = .ok codes ∧
      codes.length = Y.length ∧ Rect d codes ∧
      ∀ i i' j y y' c c', at2 Y i j = some y → at2 Y i' j = some y' → y ≤ y' →
        at2 codes i j = some c → at2 codes i' j = some c' → c ≤ c' := by
  obtain ⟨q', lo, hiL, ht, l1, l2, g1, g2, hq, hd⟩ := ScalarQ.run_spec q hi d X hne hX
  refine ⟨q', _, ht, hq d Y hY, by simp, ?_, ?_⟩
  · intro r hr
    obtain ⟨y, hy, rfl⟩ := List.mem_map.1 hr
    exact q.encRow_length d lo hiL y l1 l2 (hY y hy)
  · intro i i' j y y' c c' hy hy' hle hc hc'
    obtain ⟨x, l, u, ex, e2, e3, rfl⟩ := ScalarQ.at2_zip _ lo hiL Y i j c hc
    obtain ⟨x', l', u', ex', e2', e3', rfl⟩ := ScalarQ.at2_zip _ lo hiL Y i' j c' hc'
    rw [e2] at e2'; rw [e3] at e3'
    obtain rfl := Option.some.inj e2'
    obtain rfl := Option.some.inj e3'
    rw [hy] at ex; rw [hy'] at ex'
    obtain rfl := Option.some.inj ex
    obtain rfl := Option.some.inj ex'
    exact q.enc_mono hb ((g2 j _ e3).2 (g1 j _ e2).1) hle

/-- A two-bit quantiser over the rationals, one constant column. -/
def exScq : ScalarQ ℚ := (ScalarQ.new ℚ 2).init

/-- Trained on three rows. -/
def exScTrained : ScalarQ ℚ := (exScq.train (.mat 2 [[0, 5], [3, 5], [6, 5]])).2

example : exScq.inited = true ∧ 1 ≤ exScq.bits ∧ exScq.bits ≤ 31 ∧
    Rect 2 [[0, 5], [3, 5], [6, (5 : ℚ)]] := by
  refine ⟨rfl, by decide, by decide, ?_⟩
  intro r hr
  simp at hr
  rcases hr with rfl | rfl | rfl <;> rfl

/- Steps of 2 from 0 to 6; the tie 3 goes to the even code 2, outside values are clipped. -/
example : exScTrained.quantize (.mat 2 [[3, 5], [5, 5], [100, 9], [-4, 5]])
    = .ok [[2, 0], [2, 0], [3, 3], [0, 0]] := by decide +kernel
example : exScTrained.dequantize (.mat 2 [[2, 0], [3, 3]]) = .ok [[4, 5], [6, 8]] := by
  decide +kernel
/- One bit more than an `int64` holds: the bound of C49 fails, hence its limit of 63 bits. -/
example : let q := ((ScalarQ.new ℚ 64).init.train (.mat 1 [[0], [9223372036854775807]])).2
    q.quantize (.mat 1 [[1 / 2]]) = .ok [[0]] ∧ q.dequantize (.mat 1 [[0]]) = .ok [[0]] ∧
    ¬ |(0 : ℚ) - 1 / 2| ≤ (9223372036854775807 - 0) / (2 * (2 ^ 64 - 1)) := by decide +kernel

end Valori.Props
