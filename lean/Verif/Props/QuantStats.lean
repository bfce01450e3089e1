import Verif.Model.QuantStats
import Verif.Props.Scalar
import Verif.Props.Saq
import Verif.Props.QuantContract

/-!
# C161, C162: reported compression, and the life of a quantiser
-/

namespace Valori.Props

open Valori Spec ProductQ

/-- How much smaller a row of codes is than the `float32` vector of `d` coordinates it stands for, if it
takes `bits` bits. -/
noncomputable def shrinks (d bits : ℝ) : ℝ := 32 * d / bits

/-! ## C161: scalar -/

theorem qs_range {F : Type} [LinearOrder F] (l : List F) (h : l ≠ []) : ∃ p, rangeOf l = .ok p := by
  cases l with
  | nil => exact absurd rfl h
  | cons x xs => exact ⟨_, rfl⟩

/-- What a scalar quantiser reports after training. -/
theorem qs_scalar (q : ScalarQ ℝ) (hi : q.inited = true) (hb : 1 ≤ q.bits) (d : Nat) (hd : 1 ≤ d)
    (X : List (List ℝ)) (hne : X ≠ []) (hX : Rect d X) :
    ∃ q' st, q.train (.mat d X) = (.ok (), q') ∧ q'.bits = q.bits ∧
      q'.getStats = .ok (some (some st)) ∧ st.dimensions = d ∧ st.ratio = 32 / (q.bits : ℝ) := by
  obtain ⟨lo, hiL, ht, l1, l2, -, -⟩ := ScalarQ.train_spec q hi d X hne hX
  obtain ⟨a, ha⟩ := qs_range lo (by rintro rfl; simp at l1; omega)
  obtain ⟨b, hb'⟩ := qs_range hiL (by rintro rfl; simp at l2; omega)
  refine ⟨_, ⟨d, some a, some b, 32 / (q.bits : ℝ)⟩, ht, rfl, ?_, rfl, rfl⟩
  have hb0 : q.bits ≠ 0 := by omega
  simp [ScalarQ.getStats, rangeOpt, ha, hb', hi, hb0, Except.map]

/-- **C161 (partial), scalar.** The ratio reported is the one of codes packed into `bits` bits each, and
they do fit into so many bits. -/
theorem C161_scalar_partial (q : ScalarQ ℝ) (hi : q.inited = true) (hb : 1 ≤ q.bits)
    (hb' : q.bits ≤ 31) (d : Nat) (hd : 1 ≤ d) (X Y : List (List ℝ)) (hne : X ≠ []) (hX : Rect d X)
    (hY : Rect d Y) :
    ∃ q' codes st, q.train (.mat d X) = (.ok (), q') ∧ q'.quantize (.mat d Y) = .ok codes ∧
      q'.getStats = .ok (some (some st)) ∧ st.dimensions = d ∧
      ∀ row ∈ codes, st.ratio = shrinks d (row.length * q.bits) ∧ ∀ c ∈ row, 0 ≤ c ∧ c < 2 ^ q.bits := by
  obtain ⟨q', st, ht, -, hs, h1, h2⟩ := qs_scalar q hi hb d hd X hne hX
  obtain ⟨q'', codes, Z, ht', hc, -, hlen1, hR, hlen2, hRZ, hin⟩ :=
    C48_scalar_codes_in_range q hi hb hb' d X Y hne hX hY
  obtain rfl : q' = q'' := by rw [ht] at ht'; exact (Prod.mk.inj ht').2
  refine ⟨q', codes, st, ht, hc, hs, h1, fun row hrow => ⟨?_, fun c hcr => ?_⟩⟩
  · rw [h2, hR row hrow, shrinks]
    have : (d : ℝ) ≠ 0 := by positivity
    have : (q.bits : ℝ) ≠ 0 := by positivity
    field_simp
  · obtain ⟨lo, hiL, ht2, l1, l2, g1, g2⟩ := ScalarQ.train_spec q hi d X hne hX
    obtain ⟨i, hi1, rfl⟩ := List.getElem_of_mem hrow
    obtain ⟨j, hj, rfl⟩ := List.getElem_of_mem hcr
    have hlen := hR _ (List.getElem_mem hi1)
    have hiz : i < Z.length := by omega
    have hjz : j < Z[i].length := by rw [hRZ _ (List.getElem_mem hiz)]; omega
    have h := hin i j codes[i][j] Z[i][j] (lo[j]'(by omega)) (hiL[j]'(by omega)) (by simp [at2, hi1, hj])
      (by simp [at2, hiz, hjz]) (g1 j _ (by simp)) (g2 j _ (by simp))
    exact ⟨h.1, by have := h.2.1; omega⟩

/-- **C161 (refuted), scalar.** The codes are an array of 32-bit integers, as large as the vectors
themselves: nothing is saved, while the ratio reported is greater than one. -/
theorem C161_scalar_refuted (q : ScalarQ ℝ) (hi : q.inited = true) (hb : 1 ≤ q.bits)
    (hb' : q.bits ≤ 31) (d : Nat) (hd : 1 ≤ d) (X Y : List (List ℝ)) (hne : X ≠ []) (hX : Rect d X)
    (hY : Rect d Y) :
    ∃ q' codes st, q.train (.mat d X) = (.ok (), q') ∧ q'.quantize (.mat d Y) = .ok codes ∧
      q'.getStats = .ok (some (some st)) ∧ 1 < st.ratio ∧
      ∀ row ∈ codes, shrinks d (row.length * q'.codeBits) = 1 := by
  obtain ⟨q', st, ht, hb2, hs, h1, h2⟩ := qs_scalar q hi hb d hd X hne hX
  obtain ⟨q'', codes, Z, ht', hc, -, hlen1, hR, -, -, -⟩ :=
    C48_scalar_codes_in_range q hi hb hb' d X Y hne hX hY
  obtain rfl : q' = q'' := by rw [ht] at ht'; exact (Prod.mk.inj ht').2
  have hcb : q'.codeBits = 32 := by
    unfold ScalarQ.codeBits ScalarQ.maxVal
    rw [if_pos]
    have : 2 ^ q'.bits ≤ 2 ^ 31 := Nat.pow_le_pow_right (by norm_num) (by omega)
    have : ScalarQ.int32Max = 2 ^ 31 - 1 := by decide
    omega
  refine ⟨q', codes, st, ht, hc, hs, ?_, fun row hrow => ?_⟩
  · rw [h2, lt_div_iff₀ (by positivity)]
    have : (q.bits : ℝ) ≤ 31 := by exact_mod_cast hb'
    linarith
  · rw [hR row hrow, hcb, shrinks]
    have : (d : ℝ) ≠ 0 := by positivity
    push_cast
    field_simp

/-- More than 31 bits make the codes twice as large as the vectors, and the ratio reported falls below
one only for more than 32 bits; without any bits the statistics raise. -/
theorem C161_scalar_edges (q : ScalarQ ℝ) (hi : q.inited = true) (d : Nat) (hd : 1 ≤ d)
    (X : List (List ℝ)) (hne : X ≠ []) (hX : Rect d X) :
    (32 ≤ q.bits → shrinks d (d * q.codeBits) = 1 / 2) ∧
    (q.bits = 0 → ∃ q', q.train (.mat d X) = (.ok (), q') ∧ q'.getStats = .error .other) := by
  constructor
  · intro h
    have hcb : q.codeBits = 64 := by
      unfold ScalarQ.codeBits ScalarQ.maxVal
      rw [if_neg]
      have : 2 ^ 32 ≤ 2 ^ q.bits := Nat.pow_le_pow_right (by norm_num) h
      have : ScalarQ.int32Max = 2 ^ 31 - 1 := by decide
      omega
    rw [hcb, shrinks]
    have : (d : ℝ) ≠ 0 := by positivity
    push_cast
    field_simp
    norm_num
  · intro h
    obtain ⟨lo, hiL, ht, l1, l2, -, -⟩ := ScalarQ.train_spec q hi d X hne hX
    obtain ⟨a, ha⟩ := qs_range lo (by rintro rfl; simp at l1; omega)
    obtain ⟨b, hb'⟩ := qs_range hiL (by rintro rfl; simp at l2; omega)
    refine ⟨_, ht, ?_⟩
    simp [ScalarQ.getStats, rangeOpt, ha, hb', hi, h, Except.map]

/-- The hypotheses hold for a quantiser of eight bits and two vectors. -/
example : (ScalarQ.new ℝ 8).init.inited = true ∧ 1 ≤ (ScalarQ.new ℝ 8).init.bits ∧
    (ScalarQ.new ℝ 8).init.bits ≤ 31 ∧ ([[1, 2], [3, 4]] : List (List ℝ)) ≠ [] ∧
    Rect 2 ([[1, 2], [3, 4]] : List (List ℝ)) := by
  refine ⟨rfl, by decide, by decide, by simp, ?_⟩
  intro r hr
  simp only [List.mem_cons, List.not_mem_nil, or_false] at hr
  rcases hr with rfl | rfl <;> rfl

/-! ## C161: product -/

theorem pq_train_fixed {F : Type} [Field F] [LinearOrder F]
    (kmeans : Nat → Nat → List (List F) → Except Err (List (List F))) (q : ProductQ F) (a : Arr F) :
    (q.train kmeans a).2.m = q.m ∧ (q.train kmeans a).2.k = q.k ∧
      (q.train kmeans a).2.inited = q.inited := by
  unfold ProductQ.train
  simp only
  repeat' split
  all_goals exact ⟨rfl, rfl, rfl⟩

/-- What a product quantiser is like after training. -/
theorem qs_product {kmeans : Nat → Nat → List (List ℝ) → Except Err (List (List ℝ))}
    (hkm : KmeansOk kmeans) (w : ProductW ℝ) (hi : w.q.inited = true) (hm : 1 ≤ w.q.m)
    (hk : 2 ≤ w.q.k) (sub : Nat) (X : List (List ℝ)) (hX : Rect (w.q.m * sub) X) (h2 : 2 ≤ X.length) :
    ∃ w' st books, w.train kmeans (.mat (w.q.m * sub) X) = (.ok (), w') ∧
      ProductQ.Ready w'.q w.q.m (min w.q.k X.length) sub books ∧ w'.getStats = some (some st) ∧
      st.dimensions = some (w.q.m * sub) ∧ st.subDimensions = some sub ∧
      st.bitsPerSub = Real.logb 2 (min w.q.k X.length : ℕ) ∧
      st.totalBits = w.q.m * Real.logb 2 (min w.q.k X.length : ℕ) ∧
      st.ratio = some (32 / Real.logb 2 (min w.q.k X.length : ℕ)) := by
  obtain ⟨q', books, ht, hr⟩ := C51_pq_train hkm w.q hi hm (by omega) sub X hX
  have hek : min w.q.k (max 1 X.length) = min w.q.k X.length := by omega
  rw [hek] at hr
  have hf := pq_train_fixed kmeans w.q (.mat (w.q.m * sub) X)
  rw [ht] at hf
  refine ⟨⟨q', some (min w.q.k X.length)⟩, ⟨some (w.q.m * sub), some sub,
    Real.logb 2 (min w.q.k X.length : ℕ), w.q.m * Real.logb 2 (min w.q.k X.length : ℕ),
    some (32 / Real.logb 2 (min w.q.k X.length : ℕ))⟩, books, ?_, hr, ?_, rfl, rfl, rfl, rfl, rfl⟩
  · have hm0 : w.q.m ≠ 0 := by omega
    simp [ProductW.train, ht, hi, hm0, hek]
  · have h1 : min w.q.k X.length > 1 := by omega
    have hf1 : q'.m = w.q.m := hf.1
    unfold ProductW.getStats
    simp only [hr.inited, hr.trained, hr.hdim, hr.hsub, hf1, Option.getD_some, Option.map_some,
      if_pos h1, Bool.true_eq_false, if_false]

/-- **C161 (partial), product.** With at least two centroids per subspace, `total_bits` is the number of
bits of a row of codes, counting for each code the logarithm of the number of centroids, and the codes
do not exceed it. -/
theorem C161_product_partial {kmeans : Nat → Nat → List (List ℝ) → Except Err (List (List ℝ))}
    (hkm : KmeansOk kmeans) (w : ProductW ℝ) (hi : w.q.inited = true) (hm : 1 ≤ w.q.m)
    (hk : 2 ≤ w.q.k) (hk' : w.q.k ≤ 65536) (sub : Nat) (X Y : List (List ℝ))
    (hX : Rect (w.q.m * sub) X) (h2 : 2 ≤ X.length) (hY : Rect (w.q.m * sub) Y) :
    ∃ w' codes st, w.train kmeans (.mat (w.q.m * sub) X) = (.ok (), w') ∧
      w'.q.quantize (.mat (w.q.m * sub) Y) = .ok codes ∧ w'.getStats = some (some st) ∧
      st.dimensions = some (w.q.m * sub) ∧ st.subDimensions = some sub ∧
      ∀ row ∈ codes, st.totalBits = row.length * st.bitsPerSub ∧
        ∀ c ∈ row, (c : ℝ) + 1 ≤ 2 ^ st.bitsPerSub := by
  obtain ⟨w', st, books, ht, hr, hs, h3, h4, h5, h6, -⟩ := qs_product hkm w hi hm hk sub X hX h2
  obtain ⟨codes, Z, hc, -, -, hR, hlt, -⟩ := C51_pq_nearest w'.q w.q.m _ sub books hr
    (by omega) (by omega) Y hY
  refine ⟨w', codes, st, ht, hc, hs, h3, h4, fun row hrow => ⟨?_, fun c hcr => ?_⟩⟩
  · rw [h5, h6, hR row hrow]
  · rw [h5, Real.rpow_logb (by norm_num) (by norm_num) (by positivity)]
    have := hlt row hrow c hcr
    exact_mod_cast this

/-- **C161 (refuted), product.** The ratio reported is too small by the factor `subvector_dimensions`: it
is right only when every subvector has one coordinate. -/
theorem C161_product_refuted {kmeans : Nat → Nat → List (List ℝ) → Except Err (List (List ℝ))}
    (hkm : KmeansOk kmeans) (w : ProductW ℝ) (hi : w.q.inited = true) (hm : 1 ≤ w.q.m)
    (hk : 2 ≤ w.q.k) (sub : Nat) (hsub : 1 ≤ sub) (X : List (List ℝ))
    (hX : Rect (w.q.m * sub) X) (h2 : 2 ≤ X.length) :
    ∃ w' st ratio, w.train kmeans (.mat (w.q.m * sub) X) = (.ok (), w') ∧
      w'.getStats = some (some st) ∧ st.ratio = some ratio ∧
      shrinks (w.q.m * sub : ℕ) st.totalBits = ratio * sub ∧
      (ratio = shrinks (w.q.m * sub : ℕ) st.totalBits ↔ sub = 1) ∧
      (256 ≤ w.q.k → 256 ≤ X.length → ratio ≤ 4 ∧
        (w.q.k = 256 → ratio = 4 ∧
          shrinks (w.q.m * sub : ℕ) (w.q.m * ProductQ.codeBits 256) = 4 * sub)) := by
  obtain ⟨w', st, books, ht, hr, hs, h3, h4, h5, h6, h7⟩ := qs_product hkm w hi hm hk sub X hX h2
  have hl : 0 < Real.logb 2 (min w.q.k X.length : ℕ) := by
    refine Real.logb_pos (by norm_num) ?_
    have : 1 < min w.q.k X.length := by omega
    exact_mod_cast this
  have hm0 : (w.q.m : ℝ) ≠ 0 := by positivity
  have hs0 : (sub : ℝ) ≠ 0 := by positivity
  have h8 : shrinks (w.q.m * sub : ℕ) st.totalBits =
      32 / Real.logb 2 (min w.q.k X.length : ℕ) * sub := by
    rw [h6, shrinks]
    push_cast
    field_simp
  have h256 : Real.logb 2 (256 : ℕ) = 8 := by
    rw [Real.logb_eq_iff_rpow_eq (by norm_num) (by norm_num) (by norm_num)]
    norm_num
  refine ⟨w', st, _, ht, hs, h7, h8, ?_, ?_⟩
  · rw [h8]
    constructor
    · intro h
      have h' : (sub : ℝ) = 1 := by
        have h9 : 32 / Real.logb 2 (min w.q.k X.length : ℕ) ≠ 0 := by positivity
        exact (mul_right_cancel₀ (a := (sub : ℝ)) h9 (by rw [one_mul, mul_comm]; exact h.symm))
      exact_mod_cast h'
    · rintro rfl
      simp
  · intro ha hb
    refine ⟨?_, fun hc => ⟨?_, ?_⟩⟩
    · rw [div_le_iff₀ hl]
      have : Real.logb 2 (256 : ℕ) ≤ Real.logb 2 (min w.q.k X.length : ℕ) := by
        refine Real.logb_le_logb_of_le (by norm_num) (by norm_num) ?_
        have : 256 ≤ min w.q.k X.length := by omega
        exact_mod_cast this
      rw [h256] at this
      linarith
    · have : min w.q.k X.length = 256 := by omega
      rw [this, h256]
      norm_num
    · have : ProductQ.codeBits 256 = 8 := by decide
      rw [this, shrinks]
      push_cast
      field_simp
      norm_num

/-- The hypotheses hold for two subspaces of two coordinates and two vectors. -/
example : (ProductQ.new ℝ 2 256).init.inited = true ∧ 1 ≤ (ProductQ.new ℝ 2 256).init.m ∧
    2 ≤ (ProductQ.new ℝ 2 256).init.k ∧ Rect (2 * 2) ([[1, 2, 3, 4], [5, 6, 7, 8]] : List (List ℝ)) := by
  refine ⟨rfl, by decide, by decide, ?_⟩
  intro r hr
  simp only [List.mem_cons, List.not_mem_nil, or_false] at hr
  rcases hr with rfl | rfl <;> rfl

/-! ## C161: SAQ -/

section
variable {F S D : Type} [Field F] [LinearOrder F] [IsStrictOrderedRing F] [LinearOrder D]

/-- **C161 (partial), SAQ.** The ratio reported is that of codes of `total_bits` bits, which is what the
segments are given together. -/
theorem C161_saq_partial (env : SaqEnv F S D)
    (hw : ∀ t p b w, env.want t p b = .ok w → w.length = b.length) (w w' : SaqW F S) (dim : Nat)
    (X : List (List F)) (hn : 1 ≤ w.q.nSegments) (hd : 1 ≤ dim) (hX : X ≠ [])
    (h : w.train env (.mat dim X) = (.ok (), w')) :
    ∃ bits ratio, w'.q.bits = some bits ∧ w'.getStats = .ok (some ratio) ∧ 0 < bits.sum ∧
      ((ratio : ℚ) : ℝ) = shrinks dim ((bits.sum : Int) : ℝ) := by
  unfold SaqW.train at h
  rcases hr : w.q.train env (.mat dim X) with ⟨r, q'⟩
  rw [hr] at h
  cases r with
  | error e => simp at h
  | ok u =>
    simp only at h
    split_ifs at h with h0
    · simp at h
    · simp only [Prod.mk.injEq, true_and] at h
      subst h
      have hbits := C54_bits env hw w.q q' dim X hn hd hr
      obtain ⟨sc, proj, want, -, -, ⟨-, books, -, rfl⟩, hi⟩ := Saq.train_inv env w.q q' dim X hr
      obtain ⟨bits, h1, h2, h3, -⟩ := hbits
      simp only [mul_eq_zero, not_or] at h0
      refine ⟨bits, ((X.length * dim * 32 : ℕ) / (X.length * w.q.totalBits : ℕ) : ℚ), h1, ?_, ?_, ?_⟩
      · simp only at h1
        unfold SaqW.getStats
        simp only [hi, Bool.true_eq_false, if_false]
      · rw [h3]
        have := h0.2
        omega
      · rw [h3, shrinks]
        have h4 : (X.length : ℝ) ≠ 0 := by exact_mod_cast h0.1
        have h5 : (w.q.totalBits : ℝ) ≠ 0 := by exact_mod_cast h0.2
        push_cast
        field_simp

omit [IsStrictOrderedRing F] in
/-- **C161** The ratio is computed inside the `try` of training: what goes wrong there, too, is a
`QuantizationError`, and there is no ratio of no vectors. -/
theorem C161_saq_fails (env : SaqEnv F S D) (w : SaqW F S) (a : Arr F) (dim : Nat) :
    (∀ e, (w.train env a).1 = .error e → e = .quantization) ∧
    (w.train env (.mat dim [])).1 = .error .quantization := by
  have h1 : ∀ a, ∀ e, (w.train env a).1 = .error e → e = .quantization := by
    intro a e h
    unfold SaqW.train at h
    rcases hr : w.q.train env a with ⟨r, q'⟩
    rw [hr] at h
    cases r with
    | error e' =>
      obtain rfl : e' = e := by simpa using h
      exact (C137_saq_only_quantization_errors env w.q a [] [] e').1 (by rw [hr])
    | ok u =>
      cases a with
      | vec v => simp at h
      | mat d X =>
        simp only at h
        split_ifs at h
        simpa [eq_comm] using h
  refine ⟨h1 a, ?_⟩
  rcases h : (w.train env (.mat dim [])).1 with e | u
  · rw [h1 _ e h]
  · unfold SaqW.train at h
    rcases hr : w.q.train env (.mat dim []) with ⟨r, q'⟩
    rw [hr] at h
    cases r <;> simp at h

/-- **C161 (refuted), SAQ.** The codes are 32-bit integers, one for each segment, so the true ratio is
the number of coordinates per segment; the one reported differs unless the budget is 32 bits for each
segment. -/
theorem C161_saq_refuted (env : SaqEnv F S D)
    (hw : ∀ t p b w, env.want t p b = .ok w → w.length = b.length) (w w' : SaqW F S) (dim : Nat)
    (X : List (List F)) (hn : 1 ≤ w.q.nSegments) (hd : 1 ≤ dim) (hX : X ≠ [])
    (h : w.train env (.mat dim X) = (.ok (), w')) :
    ∃ bits ratio, w'.q.bits = some bits ∧ w'.getStats = .ok (some ratio) ∧
      ((ratio : ℝ) = shrinks dim (bits.length * Saq.codeBits) ↔ bits.sum = 32 * bits.length) := by
  obtain ⟨bits, ratio, h1, h2, h3, h4⟩ := C161_saq_partial env hw w w' dim X hn hd hX h
  refine ⟨bits, ratio, h1, h2, ?_⟩
  have hne : bits ≠ [] := by rintro rfl; simp at h3
  have hl : (0 : ℝ) < bits.length := by
    have := List.length_pos_iff.2 hne
    exact_mod_cast this
  have hs : (0 : ℝ) < ((bits.sum : Int) : ℝ) := by exact_mod_cast h3
  have hd' : (0 : ℝ) < dim := by exact_mod_cast hd
  rw [h4, shrinks, shrinks, div_eq_div_iff hs.ne' (by simp [Saq.codeBits]; exact hne)]
  have e : (Saq.codeBits : ℝ) = 32 := by norm_num [Saq.codeBits]
  rw [e]
  constructor
  · intro h5
    have h6 : ((bits.length : ℝ) * 32) = ((bits.sum : Int) : ℝ) :=
      mul_left_cancel₀ (by positivity) h5
    have h7 : ((bits.length : Int) * 32) = bits.sum := by exact_mod_cast h6
    omega
  · intro h5
    rw [h5]
    push_cast
    ring

end

/-- Three coordinates in two segments with eight bits: twelve is reported; the codes are 1.5 times
smaller. -/
example : (((⟨exSaq, 0⟩ : SaqW ℚ Unit).train (exSaqEnv 3) (.mat 3 exSaqData)).2.getStats) =
    .ok (some 12) := by decide +kernel

/-! ## C162: closing and starting again -/

/-- What a user does with a quantiser apart from reading codes. -/
inductive QuantCall (F : Type) where
  | setup
  | train (a : Arr F)
  | close

section
variable {F : Type} [Field F] [LinearOrder F] [FloorRing F]

/-- One call on a scalar quantiser. -/
def scalarCall (q : ScalarQ F) : QuantCall F → ScalarQ F
  | .setup => q.init
  | .train a => (q.train a).2
  | .close => q.close

/-- One call on a product quantiser. -/
def productCall (kmeans : Nat → Nat → List (List F) → Except Err (List (List F))) (q : ProductQ F) :
    QuantCall F → ProductQ F
  | .setup => q.init
  | .train a => (q.train kmeans a).2
  | .close => q.close

/-- One call on a SAQ quantiser. -/
def saqCall {S D : Type} [LinearOrder D] (env : SaqEnv F S D) (q : Saq F S) : QuantCall F → Saq F S
  | .setup => q.init
  | .train a => (q.train env a).2
  | .close => q.close

theorem scalar_bits (q : ScalarQ F) (c : QuantCall F) : (scalarCall q c).bits = q.bits := by
  cases c with
  | setup => rfl
  | close => rfl
  | train a =>
    unfold scalarCall ScalarQ.train
    simp only
    repeat' split
    all_goals rfl

theorem product_params (kmeans : Nat → Nat → List (List F) → Except Err (List (List F)))
    (q : ProductQ F) (c : QuantCall F) :
    (productCall kmeans q c).m = q.m ∧ (productCall kmeans q c).k = q.k := by
  cases c with
  | setup => exact ⟨rfl, rfl⟩
  | close => exact ⟨rfl, rfl⟩
  | train a => exact ⟨(pq_train_fixed kmeans q a).1, (pq_train_fixed kmeans q a).2.1⟩

/-- **C162** Whatever was done with a scalar or product quantiser, closing and initialising it makes it
as good as a new one. -/
theorem C162_as_new (b m k : Nat) (kmeans : Nat → Nat → List (List F) → Except Err (List (List F)))
    (calls : List (QuantCall F)) :
    (calls.foldl scalarCall (ScalarQ.new F b)).close.init = (ScalarQ.new F b).init ∧
    (calls.foldl (productCall kmeans) (ProductQ.new F m k)).close.init = (ProductQ.new F m k).init := by
  have h1 : ∀ q : ScalarQ F, (calls.foldl scalarCall q).bits = q.bits := by
    induction calls with
    | nil => exact fun _ => rfl
    | cons c cs ih => exact fun q => (ih _).trans (scalar_bits q c)
  have h2 : ∀ q : ProductQ F, (calls.foldl (productCall kmeans) q).m = q.m ∧
      (calls.foldl (productCall kmeans) q).k = q.k := by
    clear h1
    induction calls with
    | nil => exact fun _ => ⟨rfl, rfl⟩
    | cons c cs ih =>
      exact fun q => ⟨(ih _).1.trans (product_params kmeans q c).1,
        (ih _).2.trans (product_params kmeans q c).2⟩
  constructor
  · have := h1 (ScalarQ.new F b)
    simp only [ScalarQ.close, ScalarQ.init, this]
    rfl
  · obtain ⟨e1, e2⟩ := h2 (ProductQ.new F m k)
    simp only [ProductQ.close, ProductQ.init, e1, e2]
    rfl

/-- **C162** A closed quantiser refuses training, encoding and decoding, and its statistics say that it
is not initialised. -/
theorem C162_closed {S D : Type} [LinearOrder D]
    (kmeans : Nat → Nat → List (List F) → Except Err (List (List F))) (env : SaqEnv F S D)
    (q : ScalarQ F) (p : ProductQ F) (ek : Option Nat) (s : Saq F S) (r : ℚ) (a : Arr F) (c : Arr Int)
    (c' : Arr Nat) (Y : List (List F)) (cs : List (List Nat)) :
    (q.close.train a = (.error .quantization, q.close) ∧ q.close.quantize a = .error .quantization ∧
      q.close.dequantize c = .error .quantization ∧ q.close.getStats = .ok none) ∧
    (p.close.train kmeans a = (.error .quantization, p.close) ∧
      p.close.quantize a = .error .quantization ∧ p.close.dequantize c' = .error .quantization ∧
      (⟨p.close, ek⟩ : ProductW F).getStats = none) ∧
    (s.close.train env a = (.error .quantization, s.close) ∧
      s.close.quantize env Y = .error .quantization ∧
      s.close.dequantize env cs = .error .quantization ∧
      (⟨s.close, r⟩ : SaqW F S).getStats = .ok none) :=
  ⟨⟨rfl, rfl, rfl, rfl⟩, ⟨rfl, rfl, rfl, rfl⟩, ⟨rfl, rfl, rfl, rfl⟩⟩

omit [FloorRing F] in
/-- **C162 (refuted), SAQ.** Closing and initialising a SAQ quantiser does not bring back a number of
segments that training on short vectors has reduced. -/
theorem C162_saq_as_new_refuted {S D : Type} [LinearOrder D] (env : SaqEnv F S D) (q q' : Saq F S)
    (dim : Nat) (X : List (List F)) (hd : dim < q.nSegments)
    (h : q.train env (.mat dim X) = (.ok (), q')) :
    q'.close.init.nSegments = dim ∧ q'.close.init ≠ q.init := by
  obtain ⟨_, _, _, -, -, ⟨-, _, -, rfl⟩, -⟩ := Saq.train_inv env q q' dim X h
  have e : min q.nSegments dim = dim := by omega
  refine ⟨e, fun h => ?_⟩
  have := congrArg Saq.nSegments h
  simp only [Saq.close, Saq.init] at this
  omega

omit [LinearOrder F] [FloorRing F] in
/-- **C162 (partial), SAQ.** It does if all training was on vectors with at least as many coordinates
as there are segments. -/
theorem C162_saq_as_new_partial {S D : Type} [LinearOrder D] (env : SaqEnv F S D) (q : Saq F S)
    (t n i : Nat) (k : Int) (hq : Saq.new F S t n i k = .ok q) (calls : List (QuantCall F))
    (hc : ∀ dim X, QuantCall.train (.mat dim X) ∈ calls → q.nSegments ≤ dim) :
    (calls.foldl (saqCall env) q).close.init = q.init := by
  have h : ∀ (p : Saq F S), p.nSegments = q.nSegments ∧ p.totalBits = q.totalBits ∧
      p.adjustIters = q.adjustIters ∧ p.rescoreTopK = q.rescoreTopK →
      (calls.foldl (saqCall env) p).close.init = q.init := by
    have ht : q.trained = false := ((C137_saq_new (F := F) (S := S) t n i k).2.2 q hq).2.2.2.2.2.1
    clear hq
    induction calls with
    | nil =>
      cases q
      rintro ⟨⟩ ⟨rfl, rfl, rfl, rfl⟩
      simp only at ht
      subst ht
      rfl
    | cons c cs ih =>
      intro p hp
      refine ih (fun dim X hm => hc dim X (List.mem_cons_of_mem _ hm)) _ ?_
      cases c with
      | setup => exact hp
      | close => exact hp
      | train a =>
        cases a with
        | vec v =>
          unfold saqCall Saq.train
          split_ifs <;> exact hp
        | mat dim X =>
          have hle := hc dim X List.mem_cons_self
          have e : (if dim < p.nSegments then dim else p.nSegments) = p.nSegments := by
            rw [if_neg (by omega)]
          unfold saqCall Saq.train
          simp only [e]
          repeat' split
          all_goals exact hp
  exact h q ⟨rfl, rfl, rfl, rfl⟩

/-- **C162 (refuted), initialising again.** After `initialize` a trained quantiser still says it is
trained, though it can neither encode nor decode; the scalar one reports zero dimensions, the product
one none, the SAQ one raises `AttributeError` when asked for statistics. -/
theorem C162_reinit_refuted {S D : Type} [LinearOrder D] (env : SaqEnv F S D) (q : ScalarQ F)
    (p : ProductQ F) (ek : Option Nat) (s : Saq F S) (r : ℚ) (a : Arr F) (c : Arr Int) (c' : Arr Nat)
    (Y : List (List F)) (cs : List (List Nat)) :
    (q.trained = true → 1 ≤ q.bits → q.init.trained = true ∧ q.init.quantize a = .error .quantization ∧
      q.init.dequantize c = .error .quantization ∧
      q.init.getStats = .ok (some (some ⟨0, none, none, 32 / (q.bits : F)⟩))) ∧
    (p.trained = true → p.init.trained = true ∧ p.init.quantize a = .error .quantization ∧
      p.init.dequantize c' = .error .quantization ∧
      ∃ st, (⟨p.init, ek⟩ : ProductW F).getStats = some (some st) ∧ st.dimensions = none ∧
        st.subDimensions = none ∧ st.ratio = none) ∧
    (s.trained = true → s.init.trained = true ∧ s.init.quantize env Y = .error .quantization ∧
      s.init.dequantize env cs = .error .quantization ∧
      (⟨s.init, r⟩ : SaqW F S).getStats = .error .attribute) := by
  refine ⟨fun h hb => ⟨h, ?_, ?_, ?_⟩, fun h => ⟨h, ?_, ?_, ?_⟩, fun h => ⟨h, ?_, ?_, ?_⟩⟩
  · unfold ScalarQ.quantize ScalarQ.init
    cases a <;> simp [h]
  · simp [ScalarQ.dequantize, ScalarQ.init, h]
  · have : q.bits ≠ 0 := by omega
    simp [ScalarQ.getStats, ScalarQ.init, h, rangeOpt, this]
  · unfold ProductQ.quantize ProductQ.init
    cases a <;> simp [h]
  · unfold ProductQ.dequantize ProductQ.init
    cases c' <;> simp [h]
  · simp [ProductW.getStats, ProductQ.init, h]
  · unfold Saq.quantize Saq.init
    simp [h]
  · unfold Saq.dequantize Saq.init
    simp [h]
  · simp [SaqW.getStats, Saq.init, h]

end

/-- **C162, SAQ searches.** After `close`, and after `initialize` without training, a search with
rescoring raises `QuantizationError` for every query, even with no codes to search. -/
theorem C162_saq_search {S D : Type} [LinearOrder D] (argsort : List ℝ → List Nat)
    (env : SaqEnv ℝ S D) (q : Saq ℝ S) (query : List ℝ) (codes : List (List Nat)) (k : Int) :
    q.close.search argsort env query codes k = .error .quantization ∧
    q.init.search argsort env query codes k = .error .quantization := ⟨rfl, rfl⟩

/-- Four segments, trained on two coordinates: two are left after closing. -/
example : ((Saq.train (exSaqEnv 4) ⟨8, 4, 0, 1, true, false, none, none, none, none, none, []⟩
    (.mat 2 [[1, 2], [3, 5]])).1 = .ok ()) ∧
    (Saq.train (exSaqEnv 4) ⟨8, 4, 0, 1, true, false, none, none, none, none, none, []⟩
      (.mat 2 [[1, 2], [3, 5]])).2.close.init.nSegments = 2 := by decide +kernel

/-- A trained quantiser exists, and closing it makes it new again. -/
example : (scalarCall (scalarCall (ScalarQ.new ℚ 8) .setup) (.train (.mat 1 [[1], [3]]))).trained = true ∧
    (scalarCall (scalarCall (ScalarQ.new ℚ 8) .setup) (.train (.mat 1 [[1], [3]]))).close.init =
      (ScalarQ.new ℚ 8).init := by decide +kernel

end Valori.Props
