import Verif.Props.Fixed

/-!
# Property C200 for every integer type: different vectors at distance 0
-/

namespace Valori.Props
open Valori Valori.Spec

theorem wrap_multiple (d : IntType) (c : Int) : d.wrap (2 ^ d.bits * c) = 0 := by
  unfold IntType.wrap
  split
  · have : (2 : Int) ^ d.bits * c = ((2 ^ d.bits : Nat) : Int) * c := by push_cast; rfl
    rw [this]
    exact Int.bmod_eq_zero_of_dvd ⟨c, rfl⟩
  · simp

/-- **C200, refuted** in every numpy integer type: there is a vector other than zero whose squared distance
to the zero vector is computed as 0, and whose cosine with itself is computed as 0 instead of 1. -/
theorem C200_types_refuted (d : IntType) (hb : 4 ≤ d.bits) :
    ∃ x, IntType.Holds d x ∧ x ≠ 0 ∧ IntType.euclidSq d (some [x]) (some [0]) = .ok 0 ∧
      IntType.cosineSim Real.sqrt d (some [x]) (some [x]) = .ok (0 : ℝ) ∧
      cosineSim Real.sqrt (some (IntType.floats [x])) (some (IntType.floats [x])) = .ok (1 : ℝ) := by
  obtain ⟨k, hk⟩ : ∃ k, k = (d.bits + 1) / 2 := ⟨_, rfl⟩
  have hh : IntType.Holds d ((2 : Int) ^ k) := by
    have h1 : (2 : Int) ^ k < 2 ^ (d.bits - 1) := pow_lt_pow_right₀ (by norm_num) (by omega)
    have h2 : (2 : Int) ^ (d.bits - 1) ≤ 2 ^ d.bits := pow_le_pow_right₀ (by norm_num) (by omega)
    have h3 : (0 : Int) < 2 ^ k := by positivity
    have h4 : (0 : Int) < 2 ^ (d.bits - 1) := by positivity
    obtain ⟨n, s⟩ := d
    simp only [IntType.Holds, InRange] at *
    cases s <;> simp only [Bool.false_eq_true, if_false, if_true] <;> constructor <;> omega
  have hx : ((2 : Int) ^ k) * 2 ^ k = 2 ^ d.bits * 2 ^ (k + k - d.bits) := by
    rw [← pow_add, ← pow_add]; congr 1; omega
  have hw : d.wrap ((2 : Int) ^ k - 0) = 2 ^ k := by rw [sub_zero]; exact wrap_id d (by omega) hh
  have hdot : d.dot [(2 : Int) ^ k] [(2 : Int) ^ k] = 0 := by
    simp only [IntType.dot, List.zipWith_cons_cons, List.zipWith_nil_left, hx, wrap_multiple,
      IntType.total, List.foldl_cons, List.foldl_nil, add_zero, wrap_zero]
  have hn : normL Real.sqrt (IntType.floats [(2 : Int) ^ k]) = 2 ^ k := by
    simp only [normL, IntType.floats, List.map_cons, List.map_nil, List.sum_cons, List.sum_nil, add_zero]
    push_cast
    exact Real.sqrt_mul_self (by positivity)
  have hp : (2 : ℝ) ^ k ≠ 0 := by positivity
  refine ⟨2 ^ k, hh, by positivity, ?_, ?_, ?_⟩
  · simp only [IntType.euclidSq, onVecs, IntType.sub, List.zipWith_cons_cons, List.zipWith_nil_left, hw, hdot,
      List.length_cons, List.length_nil]
    simp
  · simp [IntType.cosineSim, onVecs, hdot, hn, clipTo]
  · have hd : dotL (IntType.floats [(2 : Int) ^ k]) (IntType.floats [(2 : Int) ^ k]) = (2 : ℝ) ^ k * 2 ^ k := by
      simp [dotL, IntType.floats]
    simp only [cosineSim, onVecs, hn, hd, hp, ne_eq, not_true, if_false, or_self]
    rw [div_self (mul_ne_zero hp hp)]
    norm_num [clipTo]

example : IntType.euclidSq ⟨16, true⟩ (some [256]) (some [0]) = .ok 0 ∧ (4 : Nat) ≤ (⟨16, true⟩ : IntType).bits := by
  decide

end Valori.Props
