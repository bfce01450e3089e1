import Verif.Lemmas.Product
import Mathlib.Algebra.Order.Archimedean.Basic
import Mathlib.Data.Rat.Floor

/-!
# Product quantiser: C51, C52; failed training of both quantisers: C88

Exact arithmetic over any ordered field; the square root is taken over the reals.
-/

namespace Valori.Props
open Valori.Spec (Rect sqDist Decodable BookShape fit)
open ProductQ (Ready KmeansOk)

variable {F : Type} [Field F] [LinearOrder F] [IsStrictOrderedRing F]

/-- **C51, training.**  Training an initialised quantiser on vectors of a width divisible by `m`
gives a codebook of `m` books, whatever centres KMeans returns. -/
theorem C51_pq_train
    {kmeans : Nat → Nat → List (List F) → Except Err (List (List F))} (hkm : KmeansOk kmeans)
    (q : ProductQ F) (hi : q.inited = true) (hm : 1 ≤ q.m) (hk : 1 ≤ q.k) (sub : Nat)
    (X : List (List F)) (hX : Rect (q.m * sub) X) :
    ∃ q' books, ProductQ.train kmeans q (.mat (q.m * sub) X) = (.ok (), q') ∧
      Ready q' q.m (min q.k (max 1 X.length)) sub books :=
  ProductQ.train_ready hkm q hi hm hk sub X hX

/-- **C51.**  For every codebook and every table of vectors of its width: encoding succeeds, the
codes are centroid numbers, and decoding gives, row by row, a vector at least as near as any other
vector the codebook can decode to. -/
theorem C51_pq_nearest (q : ProductQ F) (m k sub : Nat) (books : List (List (List F)))
    (h : Ready q m k sub books) (hk : 1 ≤ k) (hk' : k ≤ 65536) (Y : List (List F))
    (hY : Rect (m * sub) Y) :
    ∃ codes Z, q.quantize (.mat (m * sub) Y) = .ok codes ∧ q.dequantize (.mat m codes) = .ok Z ∧
      codes.length = Y.length ∧ Rect m codes ∧ (∀ r ∈ codes, ∀ c ∈ r, c < k) ∧
      Z.length = Y.length ∧
      ∀ (i : Nat) y z, Y[i]? = some y → Z[i]? = some z →
        Decodable books z ∧ ∀ z', Decodable books z' → sqDist y z ≤ sqDist y z' := by
  obtain ⟨g, h1, h2⟩ := h.quantize hk hk' (m * sub) Y hY
  have r1 : Rect m (Y.map g) := by
    intro r hr
    obtain ⟨y, hy, rfl⟩ := List.mem_map.1 hr
    exact (h2 y hy).1
  have r2 : ∀ r ∈ Y.map g, ∀ c ∈ r, c < k := by
    intro r hr
    obtain ⟨y, hy, rfl⟩ := List.mem_map.1 hr
    exact (h2 y hy).2.1
  refine ⟨_, _, h1, h.dequantize m _ r1 r2, by simp, r1, r2, by simp, ?_⟩
  intro i y z hy hz
  have hm := List.mem_of_getElem? hy
  rw [List.getElem?_map, List.getElem?_map, hy] at hz
  obtain rfl := Option.some.inj hz
  refine ⟨⟨_, ProductQ.picks_mem _ _ k (by rw [(h2 y hm).1, h.shape.1])
    (fun b hb => (h.shape.2 b hb).1) (h2 y hm).2.1, rfl⟩, ?_⟩
  rintro z' ⟨parts, hp, rfl⟩
  exact (h2 y hm).2.2 parts hp

/-- **C51, in Euclidean distance.** -/
theorem C51_pq_nearest_euclid (q : ProductQ ℝ) (m k sub : Nat) (books : List (List (List ℝ)))
    (h : Ready q m k sub books) (hk : 1 ≤ k) (hk' : k ≤ 65536) (y : List ℝ)
    (hy : y.length = m * sub) :
    ∃ code z, q.quantize (.mat (m * sub) [y]) = .ok [code] ∧ q.dequantize (.mat m [code]) = .ok [z] ∧
      Decodable books z ∧
      ∀ z', Decodable books z' → Real.sqrt (sqDist y z) ≤ Real.sqrt (sqDist y z') := by
  obtain ⟨codes, Z, h1, h2, h3, -, -, h4, h5⟩ := C51_pq_nearest q m k sub books h hk hk' [y]
    (fun r hr => by rw [List.mem_singleton.1 hr]; exact hy)
  obtain ⟨code, rfl⟩ := List.length_eq_one_iff.1 h3
  obtain ⟨z, rfl⟩ := List.length_eq_one_iff.1 h4
  obtain ⟨h6, h7⟩ := h5 0 y z rfl rfl
  exact ⟨code, z, h1, h2, h6, fun z' hz' => Real.sqrt_le_sqrt (h7 z' hz')⟩

/-- **C51, idempotence.**  Decoding any table of legal codes, encoding the result and decoding
again gives the same vectors. -/
theorem C51_pq_idempotent (q : ProductQ F) (m k sub : Nat) (books : List (List (List F)))
    (h : Ready q m k sub books) (hk : 1 ≤ k) (hk' : k ≤ 65536) (C : List (List Nat))
    (hC : Rect m C) (hc : ∀ r ∈ C, ∀ c ∈ r, c < k) :
    ∃ Z C', q.dequantize (.mat m C) = .ok Z ∧ q.quantize (.mat (m * sub) Z) = .ok C' ∧
      q.dequantize (.mat m C') = .ok Z := by
  have hlen : ∀ code : List Nat, code.length = m → (∀ c ∈ code, c < k) →
      (ProductQ.picks code books).flatten.length = m * sub := fun code h1 h2 => by
    rw [ProductQ.picks_length k sub code books (by rw [h1, h.shape.1]) h.shape.2 h2, h.shape.1]
  have hZ : Rect (m * sub) (C.map fun code => (ProductQ.picks code books).flatten) := by
    intro r hr
    obtain ⟨x, hx, rfl⟩ := List.mem_map.1 hr
    exact hlen x (hC x hx) (hc x hx)
  obtain ⟨g, h1, h2⟩ := h.quantize hk hk' (m * sub) _ hZ
  refine ⟨_, _, h.dequantize m C hC hc, h1, ?_⟩
  rw [h.dequantize m _ (by
    intro r hr
    obtain ⟨y, hy, rfl⟩ := List.mem_map.1 hr
    exact (h2 y hy).1) (by
    intro r hr
    obtain ⟨y, hy, rfl⟩ := List.mem_map.1 hr
    exact (h2 y hy).2.1), List.map_map]
  congr 1
  conv_rhs => rw [← List.map_id (C.map _)]
  apply List.map_congr_left
  intro z hz
  obtain ⟨g1, g2, g3⟩ := h2 z hz
  obtain ⟨code, hcode, rfl⟩ := List.mem_map.1 hz
  have := g3 _ (ProductQ.picks_mem code books k (by rw [hC code hcode, h.shape.1])
    (fun b hb => (h.shape.2 b hb).1) (hc code hcode))
  rw [ProductQ.sqDist_self] at this
  refine (ProductQ.sqDist_zero _ _ ?_ this).symm
  rw [hlen _ g1 g2, hlen code (hC code hcode) (hc code hcode)]

/-- **C52.**  The distance computed from a legal code is the Euclidean distance between the query,
cut or zero-padded to the trained width, and the decoded vector. -/
theorem C52_pq_distance (q : ProductQ ℝ) (m k sub : Nat) (books : List (List (List ℝ)))
    (h : Ready q m k sub books) (query : List ℝ) (code : List Nat) (hl : code.length = m)
    (hc : ∀ c ∈ code, c < k) :
    ∃ z, q.dequantize (.mat m [code]) = .ok [z] ∧ z.length = m * sub ∧
      q.computeDistance query code = .ok (Real.sqrt (sqDist (fit (m * sub) query) z)) := by
  refine ⟨_, h.dequantize m [code] (fun r hr => by rw [List.mem_singleton.1 hr]; exact hl)
    (fun r hr => by rw [List.mem_singleton.1 hr]; exact hc), ?_, ?_⟩
  · rw [ProductQ.picks_length k sub code books (by rw [hl, h.shape.1]) h.shape.2 hc, h.shape.1]
  · simp [ProductQ.computeDistance, h.sqDistance query code hl hc]

/-! Two subspaces of one number, two centroids each. -/

/-- The codebook of the examples. -/
def exPqBooks : List (List (List ℚ)) := [[[0], [10]], [[5], [7]]]

/-- A quantiser holding it. -/
def exPq : ProductQ ℚ := ⟨2, 2, true, true, some 2, some 1, some exPqBooks⟩

theorem exPq_ready : Ready exPq 2 2 1 exPqBooks := by
  refine ⟨rfl, rfl, rfl, rfl, rfl, ⟨rfl, ?_⟩, by decide⟩
  decide

example : exPq.quantize (.mat 2 [[4, 9], [6, 6]]) = .ok [[0, 1], [1, 0]] ∧
    exPq.dequantize (.mat 2 [[0, 1], [1, 0]]) = .ok [[0, 7], [10, 5]] ∧
    exPq.sqDistance [3] [1, 0] = .ok (7 ^ 2 + 5 ^ 2) := by decide +kernel

/- A fit that returns its first rows, so that training reaches a codebook of data points. -/
example : KmeansOk (fun _ ek (rows : List (List ℚ)) => .ok (rows.take ek)) := by
  intro i ek w rows h
  exact ⟨_, rfl, by simp, fun r hr => h r (List.mem_of_mem_take hr)⟩
example : (ProductQ.train (fun _ ek rows => .ok (rows.take ek)) (ProductQ.new ℚ 2 2).init
    (.mat 2 [[0, 5], [10, 7], [3, 3]])) = (.ok (), exPq) := by decide +kernel

/-! ## Failed training -/

/-- **C88, refuted for the scalar quantiser.**  A trained quantiser encodes `[0, 2]`; a training
call on an array without rows raises; after it the same vector can no longer be encoded. -/
theorem C88_scalar_failed_train_refuted :
    ∃ (q q' : ScalarQ ℚ) (bad : Arr ℚ) (v : List ℚ) (code : List Int),
      (ScalarQ.train ((ScalarQ.new ℚ 8).init) (.mat 2 [[0, 0], [4, 4]])) = (.ok (), q) ∧
      q.quantize (.mat 2 [v]) = .ok [code] ∧
      q.train bad = (.error .quantization, q') ∧
      q'.quantize (.mat 2 [v]) = .error .quantization := by
  let q := (ScalarQ.train ((ScalarQ.new ℚ 8).init) (.mat 2 [[0, 0], [4, 4]])).2
  refine ⟨q, { q with dim := some 3 }, .mat 3 [], [0, 4], [0, 255], ?_, ?_, rfl, ?_⟩ <;>
    decide +kernel

/-- **C88, what is left for the scalar quantiser.**  A failed training call never changes what
codes decode to; it changes nothing at all if the array was one-dimensional or had the trained
width.  Missing: encoding after a failed call with another width (see the refutation). -/
theorem C88_scalar_failed_train_partial [FloorRing F] (q q' : ScalarQ F) (vectors : Arr F) (e : Err)
    (hd : q.dim ≠ none) (h : q.train vectors = (.error e, q')) :
    (∀ codes, q'.dequantize codes = q.dequantize codes) ∧
    ((∀ cols rows, vectors = .mat cols rows → q.dim = some cols) → q' = q) := by
  obtain ⟨d, hd⟩ := Option.ne_none_iff_exists'.1 hd
  unfold ScalarQ.train at h
  split_ifs at h with h0
  · obtain ⟨-, rfl⟩ := Prod.mk.inj h
    exact ⟨fun _ => rfl, fun _ => rfl⟩
  · cases vectors with
    | vec v =>
      obtain ⟨-, rfl⟩ := Prod.mk.inj h
      exact ⟨fun _ => rfl, fun _ => rfl⟩
    | mat cols rows =>
      cases rows with
      | cons r rs => simp [reduceRows] at h
      | nil =>
        simp only [reduceRows] at h
        obtain ⟨-, rfl⟩ := Prod.mk.inj h
        constructor
        · intro codes
          cases h1 : q.minV <;> cases h2 : q.scale <;> simp [ScalarQ.dequantize, hd, h1, h2]
        · intro hc
          rw [← hc cols [] rfl]

example : ∃ q : ScalarQ ℚ, q.dim ≠ none ∧ ∃ q', q.train (.mat 3 []) = (.error .quantization, q') :=
  ⟨(ScalarQ.train ((ScalarQ.new ℚ 8).init) (.mat 2 [[0, 0], [4, 4]])).2, by decide +kernel,
    _, rfl⟩

/-- **C88, refuted for the product quantiser.**  A training call on vectors whose width is not
divisible raises, and afterwards the same code decodes to a vector of another width. -/
theorem C88_pq_failed_train_refuted :
    ∃ (kmeans : Nat → Nat → List (List ℚ) → Except Err (List (List ℚ))) (q' : ProductQ ℚ)
      (bad : Arr ℚ),
      Ready exPq 2 2 1 exPqBooks ∧
      ProductQ.train kmeans exPq bad = (.error .quantization, q') ∧
      exPq.dequantize (.mat 2 [[0, 1]]) = .ok [[0, 7]] ∧
      q'.dequantize (.mat 2 [[0, 1]]) = .ok [[0, 7, 0]] := by
  refine ⟨fun _ _ _ => .ok [], { exPq with dim := some 3 }, .mat 3 [[1, 2, 3]], exPq_ready, ?_⟩
  decide +kernel

end Valori.Props
