import Verif.Props.Scalar
import Verif.Lemmas.Similarity
import Verif.Lemmas.Product

/-!
# Scalar quantiser: nearest codes (C132), failures (C133), distances (C134)
-/

namespace Valori.Props
open Valori.Spec (Rect at2 column fit)

section
variable {F : Type} [Field F] [LinearOrder F] [IsStrictOrderedRing F] [FloorRing F]

/-- `np.rint` is a nearest integer, and the even one if there are two. -/
theorem rint_nearest (x : F) (n : Int) :
    |x - rint x| ≤ |x - n| ∧ (|x - rint x| = |x - n| → n ≠ rint x → rint x % 2 = 0) := by
  have hr := rint_near x
  by_cases hn : n = rint x
  · subst hn; exact ⟨le_refl _, fun _ h => absurd rfl h⟩
  · have h1 : (1 : F) ≤ |((rint x - n : Int) : F)| := by
      rw [← Int.cast_abs]
      have : (1 : Int) ≤ |rint x - n| := Int.one_le_abs (by omega)
      exact_mod_cast this
    have h2 : |((rint x - n : Int) : F)| ≤ |x - rint x| + |x - n| := by
      have : (((rint x - n : Int)) : F) = (x - n) - (x - rint x) := by push_cast; ring
      rw [this, add_comm]
      exact abs_sub _ _
    refine ⟨by linarith, fun he _ => ?_⟩
    have he2 : |x - rint x| = 1 / 2 := by linarith
    by_contra hodd
    unfold rint at he2 hodd
    have hf := Int.self_sub_floor x
    have hf0 := Int.fract_nonneg x
    have hf1 := Int.fract_lt_one x
    split_ifs at he2 hodd with c1 c2 c3
    · rw [hf, abs_of_nonneg hf0] at he2; linarith
    · have : x - ((⌊x⌋ + 1 : Int) : F) = Int.fract x - 1 := by push_cast; linarith
      rw [this, abs_of_nonpos (by linarith)] at he2; linarith
    · exact hodd c3
    · omega

/-- The code of a number is a nearest code in range, the even one if there are two. -/
theorem codeOf_nearest (q : ScalarQ F) (x : F) (n : Int) (h0 : 0 ≤ n) (h1 : n ≤ q.upper) :
    |x - q.codeOf x| ≤ |x - n| ∧
      (|x - q.codeOf x| = |x - n| → n ≠ q.codeOf x → q.codeOf x % 2 = 0) := by
  have hr := rint_near x
  rw [abs_le] at hr
  unfold ScalarQ.codeOf
  have hu : (0 : Int) ≤ (q.upper : Int) := Int.natCast_nonneg _
  rcases lt_trichotomy (rint x) 0 with h | h | h
  · have e : max 0 (min (rint x) (q.upper : Int)) = 0 := by omega
    rw [e]
    have hx : x ≤ 0 := by
      have : ((rint x : Int) : F) ≤ -1 := by exact_mod_cast (by omega : rint x ≤ -1)
      linarith
    have hn : (0 : F) ≤ n := by exact_mod_cast h0
    have a1 : |x - ((0 : Int) : F)| = -x := by rw [abs_of_nonpos] <;> push_cast <;> linarith
    have a2 : |x - (n : F)| = n - x := by rw [abs_of_nonpos] <;> linarith
    rw [a1, a2]
    exact ⟨by linarith, fun _ _ => by decide⟩
  · have e : max 0 (min (rint x) (q.upper : Int)) = rint x := by omega
    rw [e]; exact rint_nearest x n
  · by_cases hU : rint x ≤ q.upper
    · have e : max 0 (min (rint x) (q.upper : Int)) = rint x := by omega
      rw [e]; exact rint_nearest x n
    · have e : max 0 (min (rint x) (q.upper : Int)) = q.upper := by omega
      rw [e]
      have hx : (((q.upper : Int)) : F) ≤ x := by
        have : (((q.upper : Int)) : F) + 1 ≤ ((rint x : Int) : F) := by
          exact_mod_cast (by omega : (q.upper : Int) + 1 ≤ rint x)
        linarith
      have hn : (n : F) ≤ ((q.upper : Int) : F) := by exact_mod_cast h1
      have a1 : |x - ((q.upper : Int) : F)| = x - (q.upper : Int) := abs_of_nonneg (by linarith)
      have a2 : |x - (n : F)| = x - n := abs_of_nonneg (by linarith)
      rw [a1, a2]
      refine ⟨by linarith, fun he hne => ?_⟩
      exfalso
      apply hne
      have : (n : F) = ((q.upper : Int) : F) := by linarith
      exact_mod_cast this

/-- **C132.**  After training, the code of every coordinate is a nearest one of the `2^bits` codes
(code `c` standing for `lo + c * step`), also outside the trained range; between two equally near
codes the even one is taken. -/
theorem C132_scalar_nearest (q : ScalarQ F) (hi : q.inited = true) (hb : 1 ≤ q.bits)
    (hb' : q.bits ≤ 63) (d : Nat) (X Y : List (List F)) (hne : X ≠ []) (hX : Rect d X)
    (hY : Rect d Y) :
    ∃ q' codes, q.train (.mat d X) = (.ok (), q') ∧ q'.quantize (.mat d Y) = .ok codes ∧
      codes.length = Y.length ∧ Rect d codes ∧
      ∀ i j y c lo hi step, at2 Y i j = some y → at2 codes i j = some c →
        IsLeast (column X j) lo → IsGreatest (column X j) hi →
        (lo < hi → step = (hi - lo) / (2 ^ q.bits - 1)) → (lo = hi → step = 1) →
        ∀ c' : Int, 0 ≤ c' → c' ≤ 2 ^ q.bits - 1 →
          |y - (lo + c * step)| ≤ |y - (lo + c' * step)| ∧
          (|y - (lo + c * step)| = |y - (lo + c' * step)| → c' ≠ c → c % 2 = 0) := by
  obtain ⟨q', lo, hiL, ht, l1, l2, g1, g2, hq, hd⟩ := ScalarQ.run_spec q hi d X hne hX
  refine ⟨q', _, ht, hq d Y hY, by simp, ?_, ?_⟩
  · intro r hr
    obtain ⟨y, hy, rfl⟩ := List.mem_map.1 hr
    exact q.encRow_length d lo hiL y l1 l2 (hY y hy)
  · intro i j y c a b step hy hc ha hb2 hs1 hs2 c' h0 h1
    obtain ⟨x, l, u, ex, e2, e3, rfl⟩ := ScalarQ.at2_zip _ lo hiL Y i j c hc
    rw [hy] at ex
    obtain rfl := Option.some.inj ex
    obtain rfl := (g1 j _ e2).unique ha
    obtain rfl := (g2 j _ e3).unique hb2
    have hlu : l ≤ u := hb2.2 ha.1
    have p : 1 ≤ 2 ^ q.bits := Nat.one_le_two_pow
    have hstep : step = q.scaleOf l u := by
      rcases hlu.lt_or_eq with h | h
      · rw [hs1 h, q.scaleOf_eq hb h, q.denom_eq hb']; push_cast [p]; rfl
      · rw [hs2 h, h, q.scaleOf_const]
    have hpos := q.scaleOf_pos hb hlu
    have hup : c' ≤ (q.upper : Int) := by
      rw [q.upper_eq hb']; push_cast [p]; exact h1
    obtain ⟨k1, k2⟩ := codeOf_nearest q ((y - l) / q.scaleOf l u) c' h0 hup
    subst hstep
    have conv : ∀ n : Int, |y - (l + n * q.scaleOf l u)|
        = q.scaleOf l u * |(y - l) / q.scaleOf l u - n| := by
      intro n
      rw [← abs_of_pos hpos, ← abs_mul, abs_of_pos hpos]
      congr 1
      field_simp
      ring
    change |y - (l + (q.codeOf ((y - l) / q.scaleOf l u) : Int) * _)| ≤ _ ∧ (_ → _ → _)
    change _ ∧ (|y - (l + (q.codeOf ((y - l) / q.scaleOf l u) : Int) * _)| = _ → _ → _)
    rw [conv, conv]
    refine ⟨mul_le_mul_of_nonneg_left k1 hpos.le, fun he hne' => ?_⟩
    exact k2 (mul_left_cancel₀ hpos.ne' he) hne'

/-- The hypotheses of C132: see the examples of C48; a tie goes to the even code. -/
example : exScTrained.quantize (.mat 2 [[1, 5], [3, 5], [5, 5], [7, 4]])
    = .ok [[0, 0], [2, 0], [2, 0], [3, 0]] := by decide +kernel

/-! ### C133 -/

omit [IsStrictOrderedRing F] in
/-- **C133.**  Whatever fails in the scalar quantiser is a `QuantizationError`. -/
theorem C133_scalar_only_quantization_errors (q : ScalarQ F) (a : Arr F) (c : Arr Int) (e : Err) :
    ((q.train a).1 = .error e → e = .quantization) ∧
    (q.quantize a = .error e → e = .quantization) ∧
    (q.dequantize c = .error e → e = .quantization) := by
  refine ⟨?_, ?_, ?_⟩
  · unfold ScalarQ.train
    intro h
    split_ifs at h
    · simpa [eq_comm] using h
    · cases a with
      | vec v => simpa [eq_comm] using h
      | mat cols rows =>
        simp only at h
        rcases h1 : reduceRows min rows with e1 | lo <;> rcases h2 : reduceRows max rows with e2 | hi <;>
          rw [h1, h2] at h <;> simp_all
  · unfold ScalarQ.quantize
    intro h
    split_ifs at h
    · simpa [eq_comm] using h
    · simpa [eq_comm] using h
    · split at h
      · split at h
        · simpa [eq_comm] using h
        · simp at h
      · simpa [eq_comm] using h
  · unfold ScalarQ.dequantize
    intro h
    split_ifs at h
    · simpa [eq_comm] using h
    · simpa [eq_comm] using h
    · split at h
      · simp only at h
        split at h
        · simpa [eq_comm] using h
        · simp at h
      · simpa [eq_comm] using h

/-- **C133.**  The same for distances. -/
theorem C133_scalar_distance_errors (q : ScalarQ ℝ) (v : List ℝ) (c : List Int) (e : Err)
    (h : q.computeDistance v c = .error e) : e = .quantization := by
  unfold ScalarQ.computeDistance at h
  split_ifs at h
  · simpa [eq_comm] using h
  · simpa [eq_comm] using h
  · split at h
    · simpa [eq_comm] using h
    · simp only at h
      split at h
      · split at h
        · simpa [eq_comm] using h
        · split_ifs at h
      · simpa [eq_comm] using h

omit [IsStrictOrderedRing F] in
/-- **C133.**  A new quantiser refuses everything and stays as it is; an initialised one refuses to
encode and decode until it is trained, whatever it was trained on before. -/
theorem C133_scalar_needs_training (bits : Nat) (q : ScalarQ F) (a : Arr F) (c : Arr Int) :
    (ScalarQ.new F bits).train a = (.error .quantization, ScalarQ.new F bits) ∧
    (ScalarQ.new F bits).quantize a = .error .quantization ∧
    (ScalarQ.new F bits).dequantize c = .error .quantization ∧
    q.init.quantize a = .error .quantization ∧ q.init.dequantize c = .error .quantization ∧
    (q.trained = false → q.quantize a = .error .quantization ∧
      q.dequantize c = .error .quantization) ∧
    (q.inited = false → q.train a = (.error .quantization, q) ∧
      q.quantize a = .error .quantization ∧ q.dequantize c = .error .quantization) := by
  refine ⟨rfl, rfl, rfl, ?_, ?_, ?_, ?_⟩
  · unfold ScalarQ.quantize ScalarQ.init
    cases h : q.trained <;> cases a <;> simp [h]
  · unfold ScalarQ.dequantize ScalarQ.init
    cases h : q.trained <;> simp [h]
  · intro h
    unfold ScalarQ.quantize ScalarQ.dequantize
    simp [h]
  · intro h
    unfold ScalarQ.train ScalarQ.quantize ScalarQ.dequantize
    simp [h]

/-- **C133.**  The same for distances. -/
theorem C133_scalar_distance_needs_training (q : ScalarQ ℝ) (v : List ℝ) (c : List Int)
    (h : q.inited = false ∨ q.trained = false ∨ q.dim = none) :
    q.computeDistance v c = .error .quantization := by
  unfold ScalarQ.computeDistance
  rcases h with h | h | h
  · rw [if_pos h]
  · by_cases hi : q.inited = false
    · rw [if_pos hi]
    · rw [if_neg hi, if_pos h]
  · by_cases hi : q.inited = false
    · rw [if_pos hi]
    · rw [if_neg hi]
      by_cases ht : q.trained = false
      · rw [if_pos ht]
      · rw [if_neg ht]; simp only [h]

omit [IsStrictOrderedRing F] in
/-- **C133.**  Training refuses one-dimensional arrays and arrays without rows; the statistics and
the trained flag stay.  (The dimension does not, see C88.) -/
theorem C133_scalar_train_refuses (q : ScalarQ F) (v : List F) (cols : Nat) :
    q.train (.vec v) = (.error .quantization, q) ∧
    ∃ q', q.train (.mat cols []) = (.error .quantization, q') ∧ q'.minV = q.minV ∧
      q'.maxV = q.maxV ∧ q'.scale = q.scale ∧ q'.trained = q.trained := by
  constructor
  · unfold ScalarQ.train
    cases q.inited <;> rfl
  · unfold ScalarQ.train
    cases h : q.inited
    · exact ⟨q, by simp, rfl, rfl, rfl, rfl⟩
    · exact ⟨{ q with dim := some cols, inited := true }, by simp [reduceRows, h], rfl, rfl, rfl, rfl⟩

example : exScq.train (.mat 3 []) = (.error .quantization, { exScq with dim := some 3 }) := by
  decide +kernel

end

/-! ### C134 -/

theorem dotE_ofFn {n : Nat} (a b : Fin n → ℝ) :
    dotE (List.ofFn a) (List.ofFn b) = .ok (inner ℝ (pt a) (pt b)) := by
  unfold dotE
  rw [if_pos (by simp), ← dotL_ofFn]
  rfl

theorem normR_ofFn {n : Nat} (a : Fin n → ℝ) : normR (List.ofFn a) = ‖pt a‖ := by
  rw [← normL_ofFn]
  unfold normR normL
  congr 2
  apply List.map_congr_left
  intro x _
  exact sq x

/-- **C134.**  After training, the distance between a query of any length and a code of the trained
width is the cosine distance `1 - cos` between the query, cut or padded with zeros to the trained
width, and the decoded vector (`cos` being 0 when one of them is zero). -/
theorem C134_scalar_distance (q : ScalarQ ℝ) (hi : q.inited = true) (d : Nat) (X : List (List ℝ))
    (hne : X ≠ []) (hX : Rect d X) (query : List ℝ) (code : List Int) (hc : code.length = d) :
    ∃ q' z, q.train (.mat d X) = (.ok (), q') ∧
      q'.dequantize (.mat d [code]) = .ok [List.ofFn (n := d) z] ∧
      q'.computeDistance query code = .ok (1 - Real.cos (InnerProductGeometry.angle
        (pt fun i : Fin d => query.getD i 0) (pt z))) := by
  obtain ⟨lo, hiL, ht, l1, l2, g1, g2⟩ := ScalarQ.train_spec q hi d X hne hX
  obtain ⟨q', lo', hiL', ht', l1', l2', -, -, hq, hd⟩ := ScalarQ.run_spec q hi d X hne hX
  have hqd : q'.dim = some d ∧ q'.inited = true ∧ q'.trained = true := by
    rw [ht] at ht'
    have := (Prod.mk.inj ht').2
    subst this
    exact ⟨rfl, hi, rfl⟩
  have hrect : Rect d [code] := by intro r hr; rw [List.mem_singleton.1 hr]; exact hc
  have hlen : (q.decRow lo' hiL' code).length = d := q.decRow_length d lo' hiL' code l1' l2' hc
  obtain ⟨z, hz⟩ := ofFn_of_length _ hlen
  have hdq := hd d [code] hrect
  rw [List.map_singleton, hz] at hdq
  refine ⟨q', z, ht', hdq, ?_⟩
  have hdq' : q'.dequantize (.mat code.length [code]) = .ok [List.ofFn z] := by rw [hc]; exact hdq
  have hf : fitTo d query = List.ofFn fun i : Fin d => query.getD i 0 := by
    rw [ProductQ.fitTo_eq]
    unfold fit
    apply List.ext_getElem <;> simp
  unfold ScalarQ.computeDistance
  rw [if_neg (by simp [hqd.2.1]), if_neg (by simp [hqd.2.2])]
  simp only [hqd.1, hdq', hf, dotE_ofFn, normR_ofFn]
  rw [InnerProductGeometry.cos_angle]
  split_ifs with h
  · rcases h with h | h <;> rw [h] <;> simp only [mul_zero, zero_mul, div_zero, sub_zero]
  · rfl

/-- **C134.**  Hence the distance always lies between 0 and 2. -/
theorem C134_scalar_distance_range (q : ScalarQ ℝ) (hi : q.inited = true) (d : Nat)
    (X : List (List ℝ)) (hne : X ≠ []) (hX : Rect d X) (query : List ℝ) (code : List Int)
    (hc : code.length = d) :
    ∃ q' r, q.train (.mat d X) = (.ok (), q') ∧ q'.computeDistance query code = .ok r ∧
      0 ≤ r ∧ r ≤ 2 := by
  obtain ⟨q', z, h1, -, h3⟩ := C134_scalar_distance q hi d X hne hX query code hc
  refine ⟨q', _, h1, h3, ?_, ?_⟩
  · linarith [Real.cos_le_one (InnerProductGeometry.angle
      (pt fun i : Fin d => query.getD i 0) (pt z))]
  · linarith [Real.neg_one_le_cos (InnerProductGeometry.angle
      (pt fun i : Fin d => query.getD i 0) (pt z))]

example : ((ScalarQ.new ℝ 2).init).inited = true ∧ Rect 2 [[0, 5], [3, 5], [6, (5 : ℝ)]] ∧
    ([2, 1] : List Int).length = 2 := by
  refine ⟨rfl, ?_, rfl⟩
  intro r hr
  simp at hr
  rcases hr with rfl | rfl | rfl <;> rfl

end Valori.Props
