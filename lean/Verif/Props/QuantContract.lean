import Verif.Props.Product
import Verif.Props.Saq

/-!
# Product quantiser: codebook contents (C135); failures of the product quantiser and SAQ (C136, C137)
-/

namespace Valori.Props
open Valori.Spec (Rect sqDist Decodable BookShape fit)
open ProductQ (Ready KmeansOk)

section
variable {F : Type} [Field F] [LinearOrder F] [IsStrictOrderedRing F]

omit [LinearOrder F] [IsStrictOrderedRing F] in
theorem sumRows_eq (w : Nat) (rows : List (List F)) (hr : Rect w rows) (acc : List F)
    (ha : acc.length = w) :
    rows.foldl (List.zipWith (· + ·)) acc
      = (List.range w).map fun j => acc.getD j 0 + (rows.map fun r => r.getD j 0).sum := by
  induction rows generalizing acc with
  | nil =>
    apply List.ext_getElem
    · simp [ha]
    · intro n h1 h2
      simp at h1
      simp [h1]
  | cons r rows ih =>
    have hrl : r.length = w := hr r (by simp)
    rw [List.foldl_cons, ih (fun x hx => hr x (by simp [hx])) _ (by simp [ha, hrl])]
    apply List.map_congr_left
    intro j hj
    have hj := List.mem_range.1 hj
    simp only [List.map_cons, List.sum_cons, ← add_assoc]
    congr 1
    simp [List.getD_eq_getElem?_getD, ha ▸ hj, hrl ▸ hj]

omit [LinearOrder F] [IsStrictOrderedRing F] in
/-- The mean row has the mean of every column. -/
theorem meanRow_eq (w : Nat) (rows : List (List F)) (hr : Rect w rows) :
    ProductQ.meanRow w rows
      = (List.range w).map fun j => (rows.map fun r => r.getD j 0).sum / (rows.length : F) := by
  unfold ProductQ.meanRow
  rw [sumRows_eq w rows hr _ (by simp), List.map_map]
  apply List.map_congr_left
  intro j hj
  have := List.mem_range.1 hj
  simp [List.getD_eq_getElem?_getD, this]

omit [LinearOrder F] [IsStrictOrderedRing F] in
theorem trainBooks_get {kmeans : Nat → Nat → List (List F) → Except Err (List (List F))}
    (ek sub : Nat) (rows : List (List F)) (is : List Nat) (hnd : is.Nodup)
    (books books' : List (List (List F))) (his : ∀ i ∈ is, i < books.length)
    (h : ProductQ.trainBooks kmeans ek sub rows is books = (.ok (), books')) :
    books'.length = books.length ∧ (∀ i, i ∉ is → books'[i]? = books[i]?) ∧
      ∀ i ∈ is, ∃ b, ProductQ.trainBook kmeans ek sub i rows = .ok b ∧ books'[i]? = some b := by
  induction is generalizing books with
  | nil =>
    simp only [ProductQ.trainBooks] at h
    obtain rfl := (Prod.mk.inj h).2
    exact ⟨rfl, fun _ _ => rfl, by simp⟩
  | cons i is ih =>
    simp only [ProductQ.trainBooks] at h
    rcases hb : ProductQ.trainBook kmeans ek sub i rows with e | b <;> rw [hb] at h
    · simp at h
    · simp only at h
      obtain ⟨hni, hnd⟩ := List.nodup_cons.1 hnd
      obtain ⟨h1, h2, h3⟩ := ih hnd _ (fun x hx => by simpa using his x (by simp [hx])) h
      refine ⟨by simpa using h1, ?_, ?_⟩
      · intro x hx
        simp at hx
        rw [h2 x hx.2, List.getElem?_set_ne (Ne.symm hx.1)]
      · intro x hx
        rcases List.mem_cons.1 hx with rfl | hx
        · refine ⟨b, hb, ?_⟩
          rw [h2 x hni, List.getElem?_set_self (his x (by simp))]
        · exact h3 x hx

theorem slice_block (w : Nat) (r : List F) (hr : r.length = w) (i sub : Nat)
    (hw : (i + 1) * sub ≤ w) :
    slice r (i * sub) ((i + 1) * sub) = (List.range sub).map fun j => r.getD (i * sub + j) 0 := by
  rw [ProductQ.slice_eq]
  rw [Nat.add_mul, Nat.one_mul] at hw
  apply List.ext_getElem
  · simp; omega
  · intro n h1 h2
    simp at h2
    simp [List.getElem?_eq_getElem (show i * sub + n < r.length by omega)]

/-- **C135.**  What training puts into the codebook.  With one centroid per subspace (`k = 1` or a
single training vector) it is the mean of the training data, coordinate by coordinate; otherwise the
centres KMeans returned for the `i`-th block of the training data, padded with zero vectors. -/
theorem C135_pq_codebook
    {kmeans : Nat → Nat → List (List F) → Except Err (List (List F))} (hkm : KmeansOk kmeans)
    (q : ProductQ F) (hi : q.inited = true) (hm : 1 ≤ q.m) (hk : 1 ≤ q.k) (sub : Nat)
    (X : List (List F)) (hX : Rect (q.m * sub) X) :
    ∃ q' books, ProductQ.train kmeans q (.mat (q.m * sub) X) = (.ok (), q') ∧
      q'.books = some books ∧ books.length = q.m ∧ ∀ i < q.m,
        (q.k = 1 ∨ X.length ≤ 1 → books[i]? = some [(List.range sub).map fun j =>
          (X.map fun r => r.getD (i * sub + j) 0).sum / (X.length : F)]) ∧
        (2 ≤ q.k → 2 ≤ X.length → ∃ cs,
          kmeans i (min q.k X.length)
            (X.map fun r => (List.range sub).map fun j => r.getD (i * sub + j) 0) = .ok cs ∧
          books[i]? = some (cs ++
            List.replicate (min q.k X.length - cs.length) (List.replicate sub 0))) := by
  obtain ⟨q', books, ht, hrd⟩ := ProductQ.train_ready hkm q hi hm hk sub X hX
  have hsub : q.m * sub / q.m = sub := Nat.mul_div_cancel_left _ (by omega)
  have hbooks : ∃ books', ProductQ.trainBooks kmeans (min q.k (max 1 X.length)) sub X
      (List.range q.m) (List.replicate q.m (List.replicate (min q.k (max 1 X.length))
        (List.replicate sub 0))) = (.ok (), books') ∧ q'.books = some books' := by
    unfold ProductQ.train at ht
    rw [if_neg (by simp [hi])] at ht
    simp only at ht
    rw [if_neg (by omega), if_neg (by simp), hsub] at ht
    rcases hb : ProductQ.trainBooks kmeans (min q.k (max 1 X.length)) sub X
      (List.range q.m) (List.replicate q.m (List.replicate (min q.k (max 1 X.length))
        (List.replicate sub 0))) with ⟨r, bs⟩
    rw [hb] at ht
    cases r with
    | error e => simp at ht
    | ok u =>
      simp only at ht
      exact ⟨bs, rfl, by rw [← (Prod.mk.inj ht).2]⟩
  obtain ⟨bs, hb1, hb2⟩ := hbooks
  obtain ⟨g1, -, g3⟩ := trainBooks_get _ _ _ _ List.nodup_range _ _ (by simp) hb1
  refine ⟨q', bs, ht, hb2, by simpa using g1, fun i him => ?_⟩
  obtain ⟨b, e1, e2⟩ := g3 i (List.mem_range.2 him)
  have hw : (i + 1) * sub ≤ q.m * sub := Nat.mul_le_mul_right _ (by omega)
  have hsl : (X.map fun r => slice r (i * sub) ((i + 1) * sub))
      = X.map fun r => (List.range sub).map fun j => r.getD (i * sub + j) 0 :=
    List.map_congr_left fun r hr => slice_block _ r (hX r hr) i sub hw
  unfold ProductQ.trainBook at e1
  simp only [hsl] at e1
  constructor
  · intro h1
    rw [if_pos (by omega), if_neg (by omega)] at e1
    rw [e2, ← Except.ok.inj e1, meanRow_eq sub _ (by
      intro r hr
      obtain ⟨x, -, rfl⟩ := List.mem_map.1 hr
      simp)]
    congr 2
    apply List.map_congr_left
    intro j hj
    have hj := List.mem_range.1 hj
    simp only [List.map_map, List.length_map]
    congr 2
    apply List.map_congr_left
    intro r _
    simp [List.getD_eq_getElem?_getD, hj]
  · intro h1 h2
    have hmx : max 1 X.length = X.length := by omega
    rw [hmx] at e1
    rw [if_neg (by omega)] at e1
    rcases hc : kmeans i (min q.k X.length)
        (X.map fun r => (List.range sub).map fun j => r.getD (i * sub + j) 0) with e | cs
    · rw [hc] at e1; simp at e1
    · rw [hc] at e1
      simp only at e1
      split_ifs at e1 with hl
      refine ⟨cs, hc, ?_⟩
      rw [e2, ← Except.ok.inj e1]

/-- KMeans that returns the first vectors. -/
def exFirstKm (_ ek : Nat) (rows : List (List ℚ)) : Except Err (List (List ℚ)) :=
  .ok (rows.take (min ek 1))

example : KmeansOk exFirstKm := by
  intro i ek w rows hr
  exact ⟨_, rfl, by simp, fun r h => hr r (List.mem_of_mem_take h)⟩

example : ((ProductQ.train exFirstKm ((ProductQ.new ℚ 2 1).init)
    (.mat 4 [[0, 2, 4, 6], [2, 4, 6, 9]])).2.books
      = some [[[1, 3]], [[5, 15 / 2]]]) ∧
    ((ProductQ.train exFirstKm ((ProductQ.new ℚ 2 2).init)
    (.mat 4 [[0, 2, 4, 6], [2, 4, 6, 9]])).2.books
      = some [[[0, 2], [0, 0]], [[4, 6], [0, 0]]]) := by
  constructor <;> decide +kernel

/-! ### C136 -/

omit [IsStrictOrderedRing F] in
/-- **C136.**  Whatever fails in the product quantiser is a `QuantizationError`. -/
theorem C136_pq_only_quantization_errors
    (kmeans : Nat → Nat → List (List F) → Except Err (List (List F))) (q : ProductQ F) (a : Arr F)
    (c : Arr Nat) (e : Err) :
    ((q.train kmeans a).1 = .error e → e = .quantization) ∧
    (q.quantize a = .error e → e = .quantization) ∧
    (q.dequantize c = .error e → e = .quantization) := by
  refine ⟨?_, ?_, ?_⟩
  · unfold ProductQ.train
    intro h
    simp only at h
    repeat' split at h
    all_goals first
      | (simp at h; done)
      | simpa [eq_comm] using h
  · unfold ProductQ.quantize
    intro h
    split_ifs at h
    · simpa [eq_comm] using h
    · simpa [eq_comm] using h
    · split at h
      · split at h
        · simpa [eq_comm] using h
        · simp at h
      · simpa [eq_comm] using h
  · unfold ProductQ.dequantize
    intro h
    split_ifs at h
    · simpa [eq_comm] using h
    · simpa [eq_comm] using h
    · split at h
      · split at h
        · simpa [eq_comm] using h
        · simp at h
      · simpa [eq_comm] using h

/-- **C136.**  The same for distances. -/
theorem C136_pq_distance_errors (q : ProductQ ℝ) (v : List ℝ) (c : List Nat) (e : Err)
    (h : q.computeDistance v c = .error e) : e = .quantization := by
  unfold ProductQ.computeDistance ProductQ.sqDistance at h
  split_ifs at h
  · simpa [eq_comm] using h
  · simpa [eq_comm] using h
  · split at h
    · rename_i h2
      split at h2
      · split at h2
        · simp at h2 h; rw [← h, h2]
        · simp at h2
      · simp at h2 h; rw [← h, h2]
    · simp at h

omit [IsStrictOrderedRing F] in
/-- **C136.**  A new quantiser refuses everything and stays as it is; an initialised one refuses to
encode and decode until it is trained, whatever it was trained on before. -/
theorem C136_pq_needs_training
    (kmeans : Nat → Nat → List (List F) → Except Err (List (List F))) (m k : Nat) (q : ProductQ F)
    (a : Arr F) (c : Arr Nat) :
    (ProductQ.new F m k).train kmeans a = (.error .quantization, ProductQ.new F m k) ∧
    (ProductQ.new F m k).quantize a = .error .quantization ∧
    (ProductQ.new F m k).dequantize c = .error .quantization ∧
    q.init.quantize a = .error .quantization ∧ q.init.dequantize c = .error .quantization ∧
    (q.trained = false → q.quantize a = .error .quantization ∧
      q.dequantize c = .error .quantization) ∧
    (q.inited = false → q.train kmeans a = (.error .quantization, q) ∧
      q.quantize a = .error .quantization ∧ q.dequantize c = .error .quantization) := by
  refine ⟨rfl, rfl, rfl, ?_, ?_, ?_, ?_⟩
  · unfold ProductQ.quantize ProductQ.init
    cases h : q.trained <;> cases a <;> simp
  · unfold ProductQ.dequantize ProductQ.init
    cases h : q.trained <;> cases c <;> simp
  · intro h
    unfold ProductQ.quantize ProductQ.dequantize
    simp [h]
  · intro h
    unfold ProductQ.train ProductQ.quantize ProductQ.dequantize
    simp [h]

omit [IsStrictOrderedRing F] in
/-- **C136.**  Training is refused exactly for one-dimensional arrays, for widths the number of
subspaces does not divide, and for a quantiser that is not initialised (given that KMeans works and
`k` is positive). -/
theorem C136_pq_train_refuses [IsStrictOrderedRing F]
    {kmeans : Nat → Nat → List (List F) → Except Err (List (List F))} (hkm : KmeansOk kmeans)
    (q : ProductQ F) (hk : 1 ≤ q.k) (v : List F) (cols : Nat) (rows : List (List F))
    (hr : Rect cols rows) :
    (q.train kmeans (.vec v)).1 = .error .quantization ∧ (q.train kmeans (.vec v)).2 = q ∧
    ((q.train kmeans (.mat cols rows)).1 = .ok () ↔ q.inited = true ∧ 1 ≤ q.m ∧ q.m ∣ cols) := by
  refine ⟨?_, ?_, ?_⟩
  · unfold ProductQ.train
    cases q.inited <;> rfl
  · unfold ProductQ.train
    cases q.inited <;> rfl
  · constructor
    · intro h
      unfold ProductQ.train at h
      split_ifs at h with hi
      simp only at h
      split_ifs at h with h1
      refine ⟨by simpa using hi, by omega, Nat.dvd_of_mod_eq_zero (by omega)⟩
    · rintro ⟨hi, h1, s, rfl⟩
      obtain ⟨q', b, h, -⟩ := ProductQ.train_ready hkm q hi h1 hk s rows hr
      rw [h]

example : (ProductQ.train exFirstKm ((ProductQ.new ℚ 2 1).init) (.mat 3 [[0, 2, 4]])).1
    = .error .quantization := by decide +kernel

end

/-! ### C137 -/

section
variable {F S D : Type}

/-- **C137.**  The SAQ constructor accepts exactly positive budgets and segment counts. -/
theorem C137_saq_new (t n a : Nat) (r : Int) :
    (∀ e, Saq.new F S t n a r = .error e → e = .value) ∧
    ((∃ q, Saq.new F S t n a r = .ok q) ↔ 1 ≤ t ∧ 1 ≤ n) ∧
    ∀ q, Saq.new F S t n a r = .ok q → q.totalBits = t ∧ q.nSegments = n ∧ q.adjustIters = a ∧
      q.rescoreTopK = r ∧ q.inited = false ∧ q.trained = false ∧ q.full = none := by
  unfold Saq.new
  refine ⟨?_, ?_, ?_⟩
  · intro e h
    split_ifs at h <;> simpa [eq_comm] using h
  · split_ifs with h1 h2
    · simp; omega
    · simp; omega
    · simp; omega
  · intro q h
    split_ifs at h
    obtain rfl := Except.ok.inj h
    exact ⟨rfl, rfl, rfl, rfl, rfl, rfl, rfl⟩

variable [Field F] [LinearOrder F] [LinearOrder D]

/-- **C137.**  Whatever fails in training, encoding and decoding is a `QuantizationError`. -/
theorem C137_saq_only_quantization_errors (env : SaqEnv F S D) (q : Saq F S) (a : Arr F)
    (Y : List (List F)) (c : List (List Nat)) (e : Err) :
    ((q.train env a).1 = .error e → e = .quantization) ∧
    (q.quantize env Y = .error e → e = .quantization) ∧
    (q.dequantize env c = .error e → e = .quantization) := by
  refine ⟨?_, ?_, ?_⟩
  · unfold Saq.train
    intro h
    split_ifs at h
    · simpa [eq_comm] using h
    · cases a with
      | vec v => simpa [eq_comm] using h
      | mat cols rows =>
        simp only at h
        repeat' split at h
        all_goals first
          | (simp at h; done)
          | simpa [eq_comm] using h
  · unfold Saq.quantize
    intro h
    repeat' split at h
    all_goals first
      | (simp at h; done)
      | simpa [eq_comm] using h
  · unfold Saq.dequantize
    intro h
    simp only at h
    repeat' split at h
    all_goals first
      | (simp at h; done)
      | simpa [eq_comm] using h

/-- **C137.**  A quantiser that is not initialised or not trained refuses; so does a freshly
initialised one, whatever it was trained on before. -/
theorem C137_saq_needs_training (env : SaqEnv F S D) (q : Saq F S) (a : Arr F)
    (Y : List (List F)) (c : List (List Nat)) :
    (q.inited = false → q.train env a = (.error .quantization, q)) ∧
    (q.inited = false ∨ q.trained = false → q.quantize env Y = .error .quantization ∧
      q.dequantize env c = .error .quantization) ∧
    q.init.quantize env Y = .error .quantization ∧ q.init.dequantize env c = .error .quantization ∧
    (∀ v, q.train env (.vec v) = (.error .quantization, q)) := by
  refine ⟨?_, ?_, ?_, ?_, ?_⟩
  · intro h
    unfold Saq.train; simp [h]
  · intro h
    unfold Saq.quantize Saq.dequantize
    rw [if_pos h, if_pos h]
    exact ⟨rfl, rfl⟩
  · unfold Saq.quantize Saq.init
    cases h : q.trained <;> simp
  · unfold Saq.dequantize Saq.init
    cases h : q.trained <;> simp
  · intro v
    unfold Saq.train
    cases q.inited <;> rfl

example : (∃ q, Saq.new ℚ Unit 8 2 0 1 = .ok q) ∧ Saq.new ℚ Unit 8 0 0 1 = .error .value := by
  exact ⟨⟨_, rfl⟩, rfl⟩

end
end Valori.Props
