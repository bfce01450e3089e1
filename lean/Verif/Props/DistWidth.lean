import Verif.Props.DecodeWidth

/-!
# C253: distances and decoding refuse the same codes
-/

namespace Valori.Props
open Valori
open Valori.Spec (Rect sqDist fit)

section
variable {F : Type} [Field F]

theorem distCells_congr (sub : Nat) (v : List F) (code code' : List Nat) (bs : List (List (List F))) :
    ∀ (i : Nat) (acc : F), (∀ j, j < i + bs.length → code[j]? = code'[j]?) →
      ProductQ.distCells sub v code i bs acc = ProductQ.distCells sub v code' i bs acc := by
  induction bs with
  | nil => intro i acc _; rfl
  | cons b bs ih =>
    intro i acc h
    have hi : code[i]? = code'[i]? := h i (by simp)
    have hr : ∀ acc', ProductQ.distCells sub v code (i + 1) bs acc' = ProductQ.distCells sub v code' (i + 1) bs acc' :=
      fun acc' => ih (i + 1) acc' fun j hj => h j (by simp; omega)
    simp only [ProductQ.distCells, hi, hr]

theorem distCells_error (sub : Nat) (v : List F) (code : List Nat) (bs : List (List (List F))) :
    ∀ (i : Nat) (acc : F) (j : Nat) (hj : j < bs.length),
      (∀ c, code[i + j]? = some c → bs[j].length ≤ c) → ∃ e, ProductQ.distCells sub v code i bs acc = .error e := by
  induction bs with
  | nil => intro i acc j hj; cases hj
  | cons b bs ih =>
    intro i acc j hj h
    unfold ProductQ.distCells
    cases hc : code[i]? with
    | none => exact ⟨_, rfl⟩
    | some c =>
      dsimp only
      cases hb : b[c]? with
      | none => exact ⟨_, rfl⟩
      | some cent =>
        dsimp only
        cases hr : ProductQ.cellDist (slice v (i * sub) ((i + 1) * sub)) cent with
        | error e => exact ⟨_, rfl⟩
        | ok x =>
          dsimp only
          cases j with
          | zero =>
            have := h c hc
            have h2 := (List.getElem?_eq_some_iff.1 hb).1
            simp at this
            omega
          | succ j =>
            exact ih (i + 1) (acc + x) j (Nat.lt_of_succ_lt_succ hj) (by
              intro c hc
              exact h c (by rw [show i + (j + 1) = i + 1 + j by omega]; exact hc))

end

/-- **C253**, product: for every code, of any length, either decoding and `compute_distance` both raise QuantizationError, or both answer
and the distance is the Euclidean distance of the fitted query to the decoded vector. -/
theorem C253_product {q : ProductQ ℝ} {m k sub : Nat} {books : List (List (List ℝ))}
    (hq : ProductQ.Ready q m k sub books) (query : List ℝ) (code : List Nat) :
    (q.dequantize (.mat code.length [code]) = .error .quantization ∧ q.computeDistance query code = .error .quantization) ∨
    ∃ z, q.dequantize (.mat code.length [code]) = .ok [z] ∧
      q.computeDistance query code = .ok (Real.sqrt (sqDist (fit (m * sub) query) z)) := by
  by_cases hall : ∀ j, j < m → ∃ c, code[j]? = some c ∧ c < k
  · right
    have hlen : m ≤ code.length := by
      have hm := hq.pos
      obtain ⟨c, hc, -⟩ := hall (m - 1) (by omega)
      have := (List.getElem?_eq_some_iff.1 hc).1
      omega
    have hl : (code.take m).length = m := by simp [hlen]
    have hc : ∀ c ∈ code.take m, c < k := by
      intro c hc
      obtain ⟨j, hj, rfl⟩ := List.getElem_of_mem hc
      obtain ⟨c', h1, h2⟩ := hall j (by omega)
      rw [List.getElem_take]
      rw [List.getElem?_eq_some_iff] at h1
      obtain ⟨h3, rfl⟩ := h1
      exact h2
    have hag : ∀ j, j < 0 + books.length → code[j]? = (code.take m)[j]? := fun j hj => by
      rw [List.getElem?_take_of_lt (by rw [hq.shape.1] at hj; omega)]
    obtain ⟨z, hz, -, hd⟩ := C52_pq_distance q m k sub books hq query (code.take m) hl hc
    refine ⟨z, ?_, ?_⟩
    · rw [← hz]
      simp only [ProductQ.dequantize, hq.hdim, hq.hsub, hq.hbooks, mapE,
        dequantizeCells_congr sub code (code.take m) books 0 _ hag]
    · rw [← hd]
      simp only [ProductQ.computeDistance, ProductQ.sqDistance, hq.hdim, hq.hsub, hq.hbooks,
        distCells_congr sub _ code (code.take m) books 0 _ hag]
  · left
    simp only [not_forall] at hall
    obtain ⟨j, hj, hno⟩ := hall
    have hbad : ∀ c, code[j]? = some c → k ≤ c := fun c hc => Nat.le_of_not_lt fun h => hno ⟨c, hc, h⟩
    refine ⟨C252_product_partial hq _ [code] code (by simp) j hj hbad, ?_⟩
    have hjb : j < books.length := by rw [hq.shape.1]; exact hj
    obtain ⟨e, he⟩ := distCells_error sub (fitTo (m * sub) query) code books 0 0 j hjb (by
      intro c hc
      rw [(hq.shape.2 _ (List.getElem_mem hjb)).1]
      exact hbad c (by rw [Nat.zero_add] at hc; exact hc))
    simp only [ProductQ.computeDistance, ProductQ.sqDistance, hq.inited, hq.trained, hq.hdim, hq.hsub, hq.hbooks, he,
      Bool.true_eq_false, if_false]

/-- **C253**, scalar: a quantiser trained on more or less than one dimension computes a distance for exactly the codes it decodes, and raises
QuantizationError for the others.  Missing: one dimension, see `C253_scalar_refuted`. -/
theorem C253_scalar_partial (q : ScalarQ ℝ) (hi : q.inited = true) (d : Nat) (hd : d ≠ 1) (X : List (List ℝ)) (hne : X ≠ [])
    (hX : Rect d X) (query : List ℝ) (code : List Int) :
    ((q.train (.mat d X)).2.dequantize (.mat code.length [code]) = .error .quantization ∧
      (q.train (.mat d X)).2.computeDistance query code = .error .quantization) ∨
    ((∃ z, (q.train (.mat d X)).2.dequantize (.mat code.length [code]) = .ok [z]) ∧
      ∃ r, (q.train (.mat d X)).2.computeDistance query code = .ok r) := by
  have hrect : Rect code.length [code] := by intro r hr; rw [List.mem_singleton.1 hr]
  -- the answer of `compute_distance` follows from that of `dequantize`
  have hdim : (q.train (.mat d X)).2.dim = some d ∧ (q.train (.mat d X)).2.inited = true ∧
      (q.train (.mat d X)).2.trained = true := by
    obtain ⟨lo, hiL, ht, -, -, -, -⟩ := ScalarQ.train_spec q hi d X hne hX
    rw [ht]; exact ⟨rfl, hi, rfl⟩
  have key : ∀ z : List ℝ, z.length = d → (q.train (.mat d X)).2.dequantize (.mat code.length [code]) = .ok [z] →
      ∃ r, (q.train (.mat d X)).2.computeDistance query code = .ok r := by
    intro z hz h
    unfold ScalarQ.computeDistance
    rw [hdim.1, hdim.2.1, hdim.2.2]
    simp only [Bool.true_eq_false, if_false, h]
    have hdot : dotE (fitTo d query) z = .ok (List.zipWith (· * ·) (fitTo d query) z).sum := by
      unfold dotE
      rw [if_pos (by rw [ProductQ.fitTo_eq, hz]; simp [fit])]
    rw [hdot]
    dsimp only
    split <;> exact ⟨_, rfl⟩
  have same : ∀ c : List Int, c.length = d → ∃ z, z.length = d ∧
      (q.train (.mat d X)).2.dequantize (.mat d [c]) = .ok [z] := by
    intro c hc
    obtain ⟨V, hV, hl, hr⟩ := (C252_scalar_partial q hi d X hne hX d [c]
      (by intro r hr; rw [List.mem_singleton.1 hr]; exact hc) (by simp)).1 rfl
    obtain ⟨z, rfl⟩ := List.length_eq_one_iff.1 (hl.trans rfl)
    exact ⟨z, hr z (by simp), hV⟩
  by_cases h1 : code.length = d
  · right
    obtain ⟨z, hz, h⟩ := same code h1
    rw [← h1] at h
    rw [← h1] at key ⊢
    exact ⟨⟨z, h⟩, key z (hz.trans h1.symm) h⟩
  by_cases h2 : code.length = 1
  · right
    obtain ⟨c, rfl⟩ := List.length_eq_one_iff.1 h2
    obtain ⟨z, hz, h⟩ := same (List.replicate d c) (by simp)
    rw [← (C252_scalar_single_refuted q hi d X hne hX c).1] at h
    exact ⟨⟨z, h⟩, key z hz h⟩
  · left
    have h := (C252_scalar_partial q hi d X hne hX code.length [code] hrect (by simp)).2 h1 h2 hd
    refine ⟨h, ?_⟩
    unfold ScalarQ.computeDistance
    rw [hdim.1, hdim.2.1, hdim.2.2]
    simp only [Bool.true_eq_false, if_false, h]

/-- **C253 (refuted)**, scalar: trained on vectors of one entry, it decodes codes of every other length but refuses their distance. -/
theorem C253_scalar_refuted (q : ScalarQ ℝ) (hi : q.inited = true) (X : List (List ℝ)) (hne : X ≠ [])
    (hX : Rect 1 X) (query : List ℝ) (code : List Int) (hc : code.length ≠ 1) :
    (∃ z, (q.train (.mat 1 X)).2.dequantize (.mat code.length [code]) = .ok [z]) ∧
    (q.train (.mat 1 X)).2.computeDistance query code = .error .quantization := by
  obtain ⟨V, hV, hl, hr⟩ := C252_scalar_one_refuted q hi X hne hX code.length [code]
    (by intro r hr; rw [List.mem_singleton.1 hr])
  obtain ⟨z, rfl⟩ := List.length_eq_one_iff.1 (hl.trans rfl)
  refine ⟨⟨z, hV⟩, ?_⟩
  have hdim : (q.train (.mat 1 X)).2.dim = some 1 ∧ (q.train (.mat 1 X)).2.inited = true ∧
      (q.train (.mat 1 X)).2.trained = true := by
    obtain ⟨lo, hiL, ht, -, -, -, -⟩ := ScalarQ.train_spec q hi 1 X hne hX
    rw [ht]; exact ⟨rfl, hi, rfl⟩
  unfold ScalarQ.computeDistance
  rw [hdim.1, hdim.2.1, hdim.2.2]
  simp only [Bool.true_eq_false, if_false, hV]
  have hdot : dotE (fitTo 1 query) z = .error .value := by
    unfold dotE
    rw [if_neg]
    rw [ProductQ.fitTo_eq, hr z (by simp)]
    simp only [fit, List.length_map, List.length_range]
    exact fun h => hc h.symm
  rw [hdot]

/-- Non-vacuity: a product quantiser over the reals that is ready, with codes it refuses and codes it accepts; and data of one and of two
dimensions for the scalar one. -/
example : ∃ (q : ProductQ ℝ) (books : List (List (List ℝ))), ProductQ.Ready q 2 1 1 books ∧
    q.dequantize (.mat 1 [[0]]) = .error .quantization ∧ q.dequantize (.mat 3 [[0, 0, 9]]) = .ok [[4, 5]] ∧
    Rect 1 ([[0], [6]] : List (List ℝ)) ∧ Rect 2 ([[0, 5], [3, 5]] : List (List ℝ)) := by
  refine ⟨⟨2, 1, true, true, some 2, some 1, some [[[4]], [[5]]]⟩, [[[4]], [[5]]],
    ⟨rfl, rfl, rfl, rfl, rfl, by constructor <;> simp, by decide⟩, ?_, ?_, ?_, ?_⟩
  · simp [ProductQ.dequantize, mapE, ProductQ.dequantizeCells, setSlice, slice]
  · simp [ProductQ.dequantize, mapE, ProductQ.dequantizeCells, setSlice, slice]
  · intro r hr; simp at hr; rcases hr with rfl | rfl <;> rfl
  · intro r hr; simp at hr; rcases hr with rfl | rfl <;> rfl

end Valori.Props
