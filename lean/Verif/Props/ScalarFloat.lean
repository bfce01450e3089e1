import Mathlib.Tactic.Ring
import Mathlib.Tactic.NormNum
import Mathlib.Tactic.Linarith
import Verif.Model.ScalarFloat
import Verif.Props.Scalar

/-!
# C192: how many bits the scalar quantiser really has

The integers the code converts to floating point are rounded to 24 or 53 binary digits.
-/

namespace Valori.Props

open Valori

/-! ### Rounding integers -/

theorem rndNat_small (p n : Nat) (h : n < 2 ^ p) : rndNat p n = n := by
  unfold rndNat
  rw [if_pos h]

/-- The bounds of a number by its number of digits. -/
theorem log2_bounds (n : Nat) (h : n ≠ 0) : 2 ^ n.log2 ≤ n ∧ n < 2 ^ (n.log2 + 1) :=
  ⟨Nat.log2_self_le h, Nat.lt_log2_self⟩

/-- Rounding moves a number by at most its `2^p`-th part. -/
theorem rndNat_error (p n : Nat) :
    2 ^ p * rndNat p n ≤ 2 ^ p * n + n ∧ 2 ^ p * n ≤ 2 ^ p * rndNat p n + n := by
  by_cases h : n < 2 ^ p
  · rw [rndNat_small p n h]; omega
  · have hn : n ≠ 0 := by
      have : 0 < 2 ^ p := by positivity
      omega
    obtain ⟨b1, b2⟩ := log2_bounds n hn
    have hp : p ≤ n.log2 := by
      by_contra hlt
      have : 2 ^ (n.log2 + 1) ≤ 2 ^ p := Nat.pow_le_pow_right (by norm_num) (by omega)
      omega
    unfold rndNat
    rw [if_neg h]
    simp only
    obtain ⟨e, he⟩ : ∃ e, e = n.log2 + 1 - p := ⟨_, rfl⟩
    rw [← he]
    have hpe : 2 ^ p * 2 ^ e = 2 * 2 ^ n.log2 := by
      rw [← pow_add, ← pow_succ']
      congr 1
      omega
    have hd : 2 ^ e * (n / 2 ^ e) + n % 2 ^ e = n := Nat.div_add_mod n (2 ^ e)
    have hr : n % 2 ^ e < 2 ^ e := Nat.mod_lt _ (by positivity)
    generalize n / 2 ^ e = q at *
    generalize n % 2 ^ e = r at *
    have key : ∀ a b : Nat, 2 * b ≤ 2 ^ e → a = n + b ∨ n = a + b →
        2 ^ p * a ≤ 2 ^ p * n + n ∧ 2 ^ p * n ≤ 2 ^ p * a + n := by
      intro a b hb hab
      have : 2 ^ p * b ≤ n := by
        have h1 : 2 ^ p * (2 * b) ≤ 2 ^ p * 2 ^ e := Nat.mul_le_mul_left _ hb
        have h2 : 2 ^ p * (2 * b) = 2 * (2 ^ p * b) := by ring
        omega
      rcases hab with rfl | hab
      · rw [Nat.mul_add]; omega
      · have : 2 ^ p * n = 2 ^ p * a + 2 ^ p * b := by rw [hab, Nat.mul_add]
        omega
    have hc : q * 2 ^ e = 2 ^ e * q := Nat.mul_comm _ _
    have hc1 : (q + 1) * 2 ^ e = 2 ^ e * q + 2 ^ e := by ring
    split_ifs with c1 c2 c3
    · exact key _ r (by omega) (Or.inr (by omega))
    · exact key _ (2 ^ e - r) (by omega) (Or.inl (by omega))
    · exact key _ r (by omega) (Or.inr (by omega))
    · exact key _ (2 ^ e - r) (by omega) (Or.inl (by omega))

/-- The largest number of `b` digits becomes the next power of two when there are fewer digits. -/
theorem rndNat_top (p b : Nat) (hp : 1 ≤ p) (hb : p < b) : rndNat p (2 ^ b - 1) = 2 ^ b := by
  have hpos : 1 ≤ 2 ^ b := Nat.one_le_two_pow
  have hlog : (2 ^ b - 1).log2 = b - 1 := by
    have hn : 2 ^ b - 1 ≠ 0 := by
      have : 2 ^ 1 ≤ 2 ^ b := Nat.pow_le_pow_right (by norm_num) (by omega)
      omega
    obtain ⟨b1, b2⟩ := log2_bounds _ hn
    have h1 : (2 ^ b - 1).log2 < b := by
      by_contra hlt
      have : 2 ^ b ≤ 2 ^ (2 ^ b - 1).log2 := Nat.pow_le_pow_right (by norm_num) (by omega)
      omega
    have h2 : b ≤ (2 ^ b - 1).log2 + 1 := by
      by_contra hlt
      have : 2 ^ ((2 ^ b - 1).log2 + 1) ≤ 2 ^ (b - 1) := Nat.pow_le_pow_right (by norm_num) (by omega)
      have h3 : 2 ^ (b - 1) < 2 ^ b := Nat.pow_lt_pow_right (by norm_num) (by omega)
      omega
    omega
  unfold rndNat
  have hlt : ¬ (2 ^ b - 1 < 2 ^ p) := by
    have : 2 ^ p < 2 ^ b := Nat.pow_lt_pow_right (by norm_num) hb
    omega
  rw [if_neg hlt, hlog]
  simp only
  obtain ⟨e, he⟩ : ∃ e, e = b - 1 + 1 - p := ⟨_, rfl⟩
  rw [← he]
  have hbe : 2 ^ b = 2 ^ p * 2 ^ e := by rw [← pow_add]; congr 1; omega
  have he1 : 2 ≤ 2 ^ e := by
    calc 2 = 2 ^ 1 := rfl
      _ ≤ 2 ^ e := Nat.pow_le_pow_right (by norm_num) (by omega)
  have hp1 : 2 ≤ 2 ^ p := by
    calc 2 = 2 ^ 1 := rfl
      _ ≤ 2 ^ p := Nat.pow_le_pow_right (by norm_num) (by omega)
  have hsplit : 2 ^ b - 1 = 2 ^ e * (2 ^ p - 1) + (2 ^ e - 1) := by
    have : 2 ^ e * (2 ^ p - 1) = 2 ^ p * 2 ^ e - 2 ^ e := by rw [Nat.mul_sub, Nat.mul_one, Nat.mul_comm]
    have h2 : 2 ^ e ≤ 2 ^ p * 2 ^ e := Nat.le_mul_of_pos_left _ (by omega)
    omega
  have hq : (2 ^ b - 1) / 2 ^ e = 2 ^ p - 1 := by
    rw [hsplit, Nat.mul_add_div (by omega), Nat.div_eq_of_lt (by omega)]; rfl
  have hr : (2 ^ b - 1) % 2 ^ e = 2 ^ e - 1 := by
    rw [hsplit, Nat.mul_add_mod, Nat.mod_eq_of_lt (by omega)]
  rw [hq, hr]
  have hodd : (2 ^ p - 1) % 2 ≠ 0 := by
    obtain ⟨k, rfl⟩ : ∃ k, p = k + 1 := ⟨p - 1, by omega⟩
    rw [pow_succ] at hp1 ⊢
    omega
  rw [if_neg (by omega)]
  have hfin : (2 ^ p - 1 + 1) * 2 ^ e = 2 ^ b := by
    rw [Nat.sub_add_cancel (by omega), hbe]
  split_ifs with c2
  · exact hfin
  · exact hfin

theorem rndInt_small (p : Nat) (n : Int) (h : n.natAbs < 2 ^ p) : rndInt p n = n := by
  unfold rndInt
  rw [rndNat_small p _ h]
  exact Int.sign_mul_natAbs n

/-! ### C192 -/

variable {F : Type} [Field F] [LinearOrder F] [FloorRing F]

/-- **C192.** With at most 24 bits (and an array of float32 or better) the conversions change nothing:
training, encoding and decoding are those of exact arithmetic, whatever the machine does with values too
large for an integer type.  C48, C49, C50 and C132 therefore hold with the conversions too. -/
theorem C192_exact (q : ScalarQ F) (hb : q.bits ≤ 24) (p : Nat) (hp : 24 ≤ p) (cast : Int → Int)
    (a : Arr F) :
    q.trainP p a = q.train a ∧ q.quantizeP cast p a = q.quantize a ∧
      ∀ d (rows : List (List Int)), (∀ r ∈ rows, ∀ c ∈ r, c.natAbs < 2 ^ 24) →
        q.dequantizeP (.mat d rows) = q.dequantize (.mat d rows) := by
  have hpow : 2 ^ q.bits ≤ 2 ^ 24 := Nat.pow_le_pow_right (by norm_num) hb
  have hpp : 2 ^ 24 ≤ 2 ^ p := Nat.pow_le_pow_right (by norm_num) hp
  have hone : 1 ≤ 2 ^ q.bits := Nat.one_le_two_pow
  have hmv : q.maxVal = 2 ^ q.bits - 1 := rfl
  have hup : q.upper = 2 ^ q.bits - 1 := by
    unfold ScalarQ.upper
    rw [hmv]
    have : 2 ^ q.bits - 1 ≤ ScalarQ.int32Max := by unfold ScalarQ.int32Max; omega
    simp [this]
  have hden : q.denom = 2 ^ q.bits - 1 := by
    unfold ScalarQ.denom ScalarQ.int64Max
    omega
  have h1 : q.denomP p = q.denom := by
    unfold ScalarQ.denomP
    have : q.denom < 2 ^ 53 := by rw [hden]; omega
    rw [rndNat_small 53 _ this, rndNat_small p _ (by rw [hden]; omega)]
  have h2 : q.upperP p = q.upper := by
    unfold ScalarQ.upperP
    rw [rndNat_small p _ (by rw [hup]; omega)]
  have h3 : q.scaleP p = q.scaleOf := by
    funext lo hi
    unfold ScalarQ.scaleP ScalarQ.scaleOf
    rw [h1]
  have h4 : q.codeP cast p = q.codeOf := by
    funext t
    unfold ScalarQ.codeP ScalarQ.codeOf
    rw [h2]
    simp only
    rw [if_pos]
    have ht : q.upper ≤ q.typeMax := by
      unfold ScalarQ.typeMax
      rw [hup, hmv]
      unfold ScalarQ.int32Max ScalarQ.int64Max
      split_ifs <;> omega
    have : (q.upper : Int) ≤ (q.typeMax : Int) := by exact_mod_cast ht
    omega
  refine ⟨?_, ?_, ?_⟩
  · unfold ScalarQ.trainP ScalarQ.train
    rw [h3]
    rfl
  · unfold ScalarQ.quantizeP ScalarQ.quantize
    have h5 : ∀ d lo sc, q.quantizeRowP cast p d lo sc = q.quantizeRow d lo sc := by
      intro d lo sc
      funext row
      unfold ScalarQ.quantizeRowP ScalarQ.quantizeRow
      rw [h4]
      rfl
    simp only [h5]
    rfl
  · intro d rows hr
    unfold ScalarQ.dequantizeP
    have : (rows.map fun r => r.map (rndInt 24)) = rows := by
      have h6 : ∀ r ∈ rows, (fun r : List Int => r.map (rndInt 24)) r = r := by
        intro r hr'
        have : r.map (rndInt 24) = r.map id :=
          List.map_congr_left fun c hc => rndInt_small 24 c (hr r hr' c hc)
        simpa using this
      rw [List.map_congr_left h6]
      simp
    simp only [this]

/-- A quantiser of `b` bits trained on 0 and 1 in an array of precision `p`. -/
def trained01 (p b : Nat) : ScalarQ ℚ := ((ScalarQ.new ℚ b).init.trainP p (.mat 1 [[0], [1]])).2

/-- With 8 bits and float32: the values 0, 1 and 1/2. -/
example : (trained01 24 8).quantizeP (fun _ => -1) 24 (.mat 1 [[0], [1], [1 / 2]]) = .ok [[0], [255], [128]] := by
  decide +kernel

/-- A power of two stays. -/
theorem rndNat_pow (p b : Nat) (hp : 1 ≤ p) : rndNat p (2 ^ b) = 2 ^ b := by
  by_cases h : b < p
  · exact rndNat_small _ _ (Nat.pow_lt_pow_right (by norm_num) h)
  · unfold rndNat
    have : ¬ (2 ^ b < 2 ^ p) := by
      have : 2 ^ p ≤ 2 ^ b := Nat.pow_le_pow_right (by norm_num) (by omega)
      omega
    rw [if_neg this, Nat.log2_two_pow]
    simp only
    have hs : 2 ^ b = 2 ^ (p - 1) * 2 ^ (b + 1 - p) := by rw [← pow_add]; congr 1; omega
    have hpos : 0 < 2 ^ (b + 1 - p) := by positivity
    have h1 : 2 ^ b % 2 ^ (b + 1 - p) = 0 := by rw [hs]; exact Nat.mul_mod_left _ _
    have h2 : 2 ^ b / 2 ^ (b + 1 - p) = 2 ^ (p - 1) := by
      conv_lhs => rw [hs]
      exact Nat.mul_div_cancel _ hpos
    rw [h1, h2, if_pos (by omega), ← hs]

/-- **C192, as users expect it, fails** from 25 bits on for float32 and from 54 bits on for float64: the
largest value of the training set gets the code `2^bits`, one more than the largest code; and where that
does not fit the integer type chosen (31 and 63 bits), it gets what the machine makes of it. -/
theorem C192_top_refuted (p b : Nat) (hp : 1 ≤ p) (hb : p < b) (hb' : b ≤ 63) (cast : Int → Int) :
    (trained01 p b).quantizeP cast p (.mat 1 [[1]]) =
      .ok [[if b = 31 ∨ b = 63 then cast (2 ^ b) else 2 ^ b]] := by
  obtain ⟨q, hq⟩ : ∃ q, q = (ScalarQ.new ℚ b).init := ⟨_, rfl⟩
  have hqb : q.bits = b := by rw [hq]; rfl
  have hden : q.denomP p = 2 ^ b := by
    unfold ScalarQ.denomP
    rw [q.denom_eq (by omega), hqb]
    by_cases h53 : b ≤ 53
    · rw [rndNat_small 53, rndNat_top p b hp hb]
      have : 2 ^ b ≤ 2 ^ 53 := Nat.pow_le_pow_right (by norm_num) h53
      have : 1 ≤ 2 ^ b := Nat.one_le_two_pow
      omega
    · rw [rndNat_top 53 b (by omega) (by omega), rndNat_pow p b hp]
  have hpos : (0 : ℚ) < 2 ^ b := by positivity
  have hsc : q.scaleP p 0 1 = 1 / 2 ^ b := by
    unfold ScalarQ.scaleP
    rw [hden]
    push_cast
    rw [if_neg]
    · simp
    · simp
  have ht : trained01 p b = { q with
      dim := some 1, minV := some [0], maxV := some [1], scale := some [1 / 2 ^ b], trained := true } := by
    unfold trained01
    rw [← hq, ← hsc]
    have hi : q.inited = true := by rw [hq]; rfl
    unfold ScalarQ.trainP
    rw [if_neg (by simp [hi])]
    rfl
  have hup : (trained01 p b).upperP p = 2 ^ b := by
    have : (trained01 p b).upper = q.upper := by rw [ht]; rfl
    unfold ScalarQ.upperP
    rw [this, q.upper_eq (by omega), hqb, rndNat_top p b hp hb]
  have htm : ((2 : Int) ^ b ≤ ((trained01 p b).typeMax : Int)) ↔ ¬ (b = 31 ∨ b = 63) := by
    have hm : (trained01 p b).maxVal = 2 ^ b - 1 := by rw [ht]; show 2 ^ q.bits - 1 = _; rw [hqb]
    have e : ((2 : Int) ^ b ≤ ((trained01 p b).typeMax : Int)) ↔ 2 ^ b ≤ (trained01 p b).typeMax := by
      norm_cast
    rw [e]
    unfold ScalarQ.typeMax
    rw [hm]
    have h31 : ScalarQ.int32Max + 1 = 2 ^ 31 := by decide
    have h63 : ScalarQ.int64Max + 1 = 2 ^ 63 := by decide
    have hone : 1 ≤ 2 ^ b := Nat.one_le_two_pow
    by_cases c1 : b ≤ 31
    · have : 2 ^ b ≤ 2 ^ 31 := Nat.pow_le_pow_right (by norm_num) c1
      rw [if_pos (by omega)]
      by_cases c2 : b = 31
      · subst c2; omega
      · have : 2 ^ b < 2 ^ 31 := Nat.pow_lt_pow_right (by norm_num) (by omega)
        omega
    · have : 2 ^ 32 ≤ 2 ^ b := Nat.pow_le_pow_right (by norm_num) (by omega)
      rw [if_neg (by omega)]
      by_cases c2 : b = 63
      · subst c2; omega
      · have : 2 ^ b < 2 ^ 63 := Nat.pow_lt_pow_right (by norm_num) (by omega)
        omega
  have hcode : (trained01 p b).codeP cast p ((1 - 0) / (1 / 2 ^ b)) =
      if b = 31 ∨ b = 63 then cast (2 ^ b) else 2 ^ b := by
    have hr : rint ((1 - 0) / (1 / 2 ^ b) : ℚ) = 2 ^ b := by
      have : ((1 - 0) / (1 / 2 ^ b) : ℚ) = (((2 : Int) ^ b : Int) : ℚ) := by
        push_cast
        field_simp
        ring
      rw [this, rint_intCast]
    unfold ScalarQ.codeP
    rw [hr, hup]
    push_cast
    have hpi : (0 : Int) ≤ 2 ^ b := by positivity
    simp only [min_self, max_eq_right hpi]
    by_cases c : b = 31 ∨ b = 63
    · rw [if_pos c, if_neg (by rw [htm]; exact not_not.2 c)]
    · rw [if_neg c, if_pos (by rw [htm]; exact c)]
  rw [← hcode]
  have hrow : (trained01 p b).quantizeRowP cast p 1 [0] [1 / 2 ^ b] [1] =
      .ok [(trained01 p b).codeP cast p ((1 - 0) / (1 / 2 ^ b))] := by
    simp [ScalarQ.quantizeRowP, bzip, setSlice, slice]
  have hi : (trained01 p b).inited = true := by rw [ht, hq]; rfl
  have htr : (trained01 p b).trained = true := by rw [ht]
  have hd : (trained01 p b).dim = some 1 := by rw [ht]
  have hlo : (trained01 p b).minV = some [0] := by rw [ht]
  have hs : (trained01 p b).scale = some [1 / 2 ^ b] := by rw [ht]
  unfold ScalarQ.quantizeP
  rw [hi, htr, hd, hlo, hs]
  simp only [Bool.true_eq_false, if_false, mapE, hrow]

/-- float32 and 25 bits: the code 33554432 though the largest is 33554431; float32 and 31 bits: negative on
most machines. -/
example : (trained01 24 25).quantizeP (fun _ => -2147483648) 24 (.mat 1 [[1]]) = .ok [[33554432]] ∧
    (trained01 24 25).maxVal = 33554431 ∧
    (trained01 24 31).quantizeP (fun _ => -2147483648) 24 (.mat 1 [[1]]) = .ok [[-2147483648]] := by
  refine ⟨?_, ?_, ?_⟩ <;> decide +kernel

omit [LinearOrder F] [FloorRing F] in
/-- **C192, as users expect it, fails:** bits beyond 24 are lost in decoding, whatever the array. The codes
`2^24` and `2^24 + 1` decode to the same vector in every quantiser, though both are codes of a quantiser with
25 bits or more. -/
theorem C192_decode_refuted (q : ScalarQ F) (d : Nat) :
    q.dequantizeP (.mat d [List.replicate d (2 ^ 24 + 1)]) = q.dequantizeP (.mat d [List.replicate d (2 ^ 24)]) ∧
      (25 ≤ q.bits → 2 ^ 24 + 1 ≤ q.maxVal) := by
  constructor
  · have : rndInt 24 (2 ^ 24 + 1) = rndInt 24 (2 ^ 24) := by decide +kernel
    unfold ScalarQ.dequantizeP
    simp only [List.map_cons, List.map_nil, List.map_replicate, this]
  · intro h
    have : 2 ^ 25 ≤ 2 ^ q.bits := Nat.pow_le_pow_right (by norm_num) h
    unfold ScalarQ.maxVal
    omega

/-- Two values told apart by the codes of a float64 array with 25 bits and not by what they decode to. -/
example : (trained01 53 25).quantizeP id 53 (.mat 1 [[2 ^ 24 / (2 ^ 25 - 1)], [(2 ^ 24 + 1) / (2 ^ 25 - 1)]]) =
      .ok [[2 ^ 24], [2 ^ 24 + 1]] ∧
    (trained01 53 25).dequantizeP (.mat 1 [[2 ^ 24], [2 ^ 24 + 1]]) =
      .ok [[2 ^ 24 / (2 ^ 25 - 1)], [2 ^ 24 / (2 ^ 25 - 1)]] := by
  refine ⟨?_, ?_⟩ <;> decide +kernel

/-- **C192 (what is left).** With any number of bits the conversion in `dequantize` moves a coordinate by at
most the `2^24`-th part of its distance from the minimum of its column (code times step).  Missing: half a
step, which C49 gives in exact arithmetic. -/
theorem C192_decode_partial [IsStrictOrderedRing F] (q : ScalarQ F) (hi : q.inited = true) (ht : q.trained = true)
    (d : Nat) (lo sc : List F) (hd : q.dim = some d) (hlo : q.minV = some lo) (hsc : q.scale = some sc)
    (l1 : lo.length = d) (l2 : sc.length = d) (codes : List (List Int)) (hr : Spec.Rect d codes) :
    ∃ Z Z', q.dequantizeP (.mat d codes) = .ok Z ∧ q.dequantize (.mat d codes) = .ok Z' ∧
      Z.length = codes.length ∧ Z'.length = codes.length ∧
      ∀ i j c m s z z', Spec.at2 codes i j = some c → lo[j]? = some m → sc[j]? = some s →
        Spec.at2 Z i j = some z → Spec.at2 Z' i j = some z' →
        z' = m + c * s ∧ |z - z'| * 2 ^ 24 ≤ |(c : F)| * |s| := by
  have deq : ∀ C : List (List Int), Spec.Rect d C → q.dequantize (.mat d C) =
      .ok (C.map fun row => List.zipWith (fun (g : F × F) (c : Int) => (c : F) * g.2 + g.1) (lo.zip sc) row) := by
    intro C hC
    unfold ScalarQ.dequantize
    rw [if_neg (by simp [hi]), if_neg (by simp [ht]), hd, hlo, hsc]
    simp only
    rw [mapE_ok (ScalarQ.dequantizeRow lo sc)
      (fun row => List.zipWith (fun (g : F × F) (c : Int) => (c : F) * g.2 + g.1) (lo.zip sc) row) C]
    intro row hrow
    have hl := hC row hrow
    unfold ScalarQ.dequantizeRow
    rw [bzip_eq _ _ _ (by omega)]
    simp only
    rw [bzip_eq _ _ _ (by simp; omega)]
    congr 1
    apply List.ext_getElem?
    intro j
    simp only [List.getElem?_zipWith, List.zip, List.getElem?_zipWith]
    cases row[j]? <;> cases sc[j]? <;> cases lo[j]? <;> rfl
  have hC' : Spec.Rect d (codes.map fun r => r.map (rndInt 24)) := by
    intro r hr'
    obtain ⟨r0, h0, rfl⟩ := List.mem_map.1 hr'
    rw [List.length_map]
    exact hr r0 h0
  refine ⟨_, _, deq _ hC', deq _ hr, by simp, by simp, ?_⟩
  intro i j c m s z z' hc hm hs hz hz'
  obtain ⟨c1, m1, s1, e1, e2, e3, rfl⟩ := ScalarQ.at2_zip _ lo sc _ i j z hz
  obtain ⟨c2, m2, s2, f1, f2, f3, rfl⟩ := ScalarQ.at2_zip _ lo sc _ i j z' hz'
  rw [hc] at f1; rw [hm] at e2 f2; rw [hs] at e3 f3
  obtain rfl := Option.some.inj f1
  obtain rfl := Option.some.inj e2
  obtain rfl := Option.some.inj f2
  obtain rfl := Option.some.inj e3
  obtain rfl := Option.some.inj f3
  have hc1 : c1 = rndInt 24 c := by
    unfold Spec.at2 at e1 hc
    rw [List.getElem?_map] at e1
    cases hrow : codes[i]? with
    | none => simp [hrow] at hc
    | some row =>
      rw [hrow] at e1 hc
      simp only [Option.map_some, Option.bind_some, List.getElem?_map] at e1 hc
      rw [hc] at e1
      simpa using e1.symm
  subst hc1
  refine ⟨by ring, ?_⟩
  have herr : |rndInt 24 c - c| * 2 ^ 24 ≤ |c| := by
    obtain ⟨h1, h2⟩ := rndNat_error 24 c.natAbs
    have hab : |rndInt 24 c - c| = |(rndNat 24 c.natAbs : Int) - c.natAbs| := by
      rcases lt_trichotomy c 0 with h | h | h
      · unfold rndInt
        rw [Int.sign_eq_neg_one_of_neg h]
        have : (c.natAbs : Int) = -c := by omega
        rw [this, ← abs_neg]
        congr 1
        ring
      · subst h; simp [rndInt, rndNat]
      · unfold rndInt
        rw [Int.sign_eq_one_of_pos h]
        have : (c.natAbs : Int) = c := by omega
        rw [this]
        congr 1
        ring
    rw [hab]
    have hc2 : |c| = (c.natAbs : Int) := Int.abs_eq_natAbs c
    rw [hc2]
    have : ((rndNat 24 c.natAbs : Int) - c.natAbs) * 2 ^ 24 ≤ c.natAbs ∧
        -((rndNat 24 c.natAbs : Int) - c.natAbs) * 2 ^ 24 ≤ c.natAbs := by
      constructor <;> omega
    rcases abs_cases ((rndNat 24 c.natAbs : Int) - c.natAbs) with ⟨h, -⟩ | ⟨h, -⟩ <;> rw [h]
    · exact this.1
    · exact this.2
  have e : ((rndInt 24 c : Int) : F) * s + m - ((c : F) * s + m) = ((rndInt 24 c - c : Int) : F) * s := by
    push_cast; ring
  simp only
  rw [e, abs_mul]
  have hF : |((rndInt 24 c - c : Int) : F)| * 2 ^ 24 ≤ |(c : F)| := by exact_mod_cast herr
  calc |((rndInt 24 c - c : Int) : F)| * |s| * 2 ^ 24 = |((rndInt 24 c - c : Int) : F)| * 2 ^ 24 * |s| := by ring
    _ ≤ |(c : F)| * |s| := mul_le_mul_of_nonneg_right hF (abs_nonneg _)

end Valori.Props
