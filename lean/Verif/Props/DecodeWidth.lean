import Verif.Props.QuantWidth

/-!
# C252: codes of another width given to the scalar and the product quantiser
-/

namespace Valori.Props
open Valori
open Valori.Spec (Rect)

section
variable {F : Type} [Field F] [LinearOrder F] [IsStrictOrderedRing F] [FloorRing F]

omit [LinearOrder F] [IsStrictOrderedRing F] [FloorRing F] in
theorem dequantizeRow_same (lo sc : List F) (d : Nat) (hl : lo.length = d) (hs : sc.length = d) (c : List Int)
    (hc : c.length = d) : ∃ v, ScalarQ.dequantizeRow lo sc c = .ok v ∧ v.length = d := by
  unfold ScalarQ.dequantizeRow
  rw [bzip_same _ (by omega)]
  dsimp only
  rw [bzip_same _ (by simp; omega)]
  exact ⟨_, rfl, by simp; omega⟩

omit [LinearOrder F] [IsStrictOrderedRing F] [FloorRing F] in
theorem dequantizeRow_single (lo sc : List F) (d : Nat) (hs : sc.length = d) (c : Int) :
    ScalarQ.dequantizeRow lo sc [c] = ScalarQ.dequantizeRow lo sc (List.replicate d c) := by
  unfold ScalarQ.dequantizeRow
  rw [bzip_single, bzip_same _ (by simp [hs]), ← hs, zipWith_replicate_left]

theorem mapE_all_with {α β : Type} (f : α → Except Err β) (P : β → Prop) (l : List α) (h : ∀ x ∈ l, ∃ y, f x = .ok y ∧ P y) :
    ∃ ys, mapE f l = .ok ys ∧ ys.length = l.length ∧ ∀ y ∈ ys, P y := by
  induction l with
  | nil => exact ⟨[], rfl, rfl, by simp⟩
  | cons y l ih =>
    obtain ⟨z, hz, pz⟩ := h y List.mem_cons_self
    obtain ⟨zs, hzs, hl, pzs⟩ := ih fun x hx => h x (List.mem_cons_of_mem _ hx)
    refine ⟨z :: zs, by simp only [mapE, hz, hzs], by simp [hl], ?_⟩
    intro w hw
    rcases List.mem_cons.1 hw with rfl | hw
    · exact pz
    · exact pzs w hw

/-- **C252**, scalar: a quantiser trained on `d ≠ 1` dimensions refuses codes of every width but `d` and 1, and decodes codes of width
`d` to vectors of width `d`.  Missing: width 1 and `d = 1`, see the two refutations. -/
theorem C252_scalar_partial (q : ScalarQ F) (hi : q.inited = true) (d : Nat) (X : List (List F)) (hne : X ≠ [])
    (hX : Rect d X) (n : Nat) (C : List (List Int)) (hC : Rect n C) (hCne : C ≠ []) :
    (n = d → ∃ V, (q.train (.mat d X)).2.dequantize (.mat n C) = .ok V ∧ V.length = C.length ∧ Rect d V) ∧
    (n ≠ d → n ≠ 1 → d ≠ 1 → (q.train (.mat d X)).2.dequantize (.mat n C) = .error .quantization) := by
  obtain ⟨lo, hiL, ht, l1, l2, -, -⟩ := ScalarQ.train_spec q hi d X hne hX
  rw [ht]
  have hs : (List.zipWith q.scaleOf lo hiL).length = d := by simp [l1, l2]
  simp only [ScalarQ.dequantize, hi, Bool.true_eq_false, if_false]
  refine ⟨?_, ?_⟩
  · rintro rfl
    obtain ⟨V, hV, hV'⟩ := mapE_all_with (ScalarQ.dequantizeRow lo (List.zipWith q.scaleOf lo hiL)) (·.length = n) C
      fun c hc => dequantizeRow_same lo _ n l1 hs c (hC c hc)
    rw [hV]
    exact ⟨_, rfl, hV'⟩
  · intro h1 h2 h3
    obtain ⟨c, hc⟩ := List.exists_mem_of_ne_nil C hCne
    obtain ⟨e, he⟩ := mapE_error (ScalarQ.dequantizeRow lo (List.zipWith q.scaleOf lo hiL)) C c hc
      ⟨.value, by
        unfold ScalarQ.dequantizeRow
        rw [bzip_wrong _ (by rw [hC c hc, hs]; exact h1) (by rw [hC c hc]; exact h2) (by rw [hs]; exact h3)]⟩
    rw [he]

/-- **C252 (refuted)**, scalar: a code of one entry is decoded like the code that has this entry in every dimension. -/
theorem C252_scalar_single_refuted (q : ScalarQ F) (hi : q.inited = true) (d : Nat) (X : List (List F)) (hne : X ≠ [])
    (hX : Rect d X) (c : Int) :
    (q.train (.mat d X)).2.dequantize (.mat 1 [[c]]) = (q.train (.mat d X)).2.dequantize (.mat d [List.replicate d c]) ∧
    ∃ V, (q.train (.mat d X)).2.dequantize (.mat 1 [[c]]) = .ok V := by
  have e : (q.train (.mat d X)).2.dequantize (.mat 1 [[c]]) =
      (q.train (.mat d X)).2.dequantize (.mat d [List.replicate d c]) := by
    obtain ⟨lo, hiL, ht, l1, l2, -, -⟩ := ScalarQ.train_spec q hi d X hne hX
    rw [ht]
    simp only [ScalarQ.dequantize, mapE, dequantizeRow_single lo _ d (show (List.zipWith q.scaleOf lo hiL).length = d by simp [l1, l2])]
  refine ⟨e, ?_⟩
  rw [e]
  obtain ⟨V, hV, -⟩ :=
    (C252_scalar_partial q hi d X hne hX d [List.replicate d c] (by intro r hr; simp at hr; simp [hr]) (by simp)).1 rfl
  exact ⟨V, hV⟩

/-- **C252 (refuted)**, scalar: trained on vectors of one entry, it decodes codes of every width, to vectors of that width. -/
theorem C252_scalar_one_refuted (q : ScalarQ F) (hi : q.inited = true) (X : List (List F)) (hne : X ≠ [])
    (hX : Rect 1 X) (n : Nat) (C : List (List Int)) (hC : Rect n C) :
    ∃ V, (q.train (.mat 1 X)).2.dequantize (.mat n C) = .ok V ∧ V.length = C.length ∧ Rect n V := by
  obtain ⟨lo, hiL, ht, l1, l2, -, -⟩ := ScalarQ.train_spec q hi 1 X hne hX
  rw [ht]
  have hs : (List.zipWith q.scaleOf lo hiL).length = 1 := by simp [l1, l2]
  obtain ⟨m, rfl⟩ := List.length_eq_one_iff.1 l1
  obtain ⟨s, hs⟩ := List.length_eq_one_iff.1 hs
  simp only [ScalarQ.dequantize, hi, Bool.true_eq_false, if_false, hs]
  have := mapE_ok (ScalarQ.dequantizeRow [m] [s]) (fun c => c.map fun x : Int => (x : F) * s + m) C fun c _ => by
    unfold ScalarQ.dequantizeRow
    rw [bzip_right]
    dsimp only
    rw [bzip_right, List.map_map]
    rfl
  rw [this]
  refine ⟨_, rfl, by simp, ?_⟩
  intro r hr
  obtain ⟨c, hc, rfl⟩ := List.mem_map.1 hr
  simp [hC c hc]

end

section
variable {F : Type} [Field F] [LinearOrder F] [IsStrictOrderedRing F]

omit [LinearOrder F] [IsStrictOrderedRing F] in
theorem dequantizeCells_error (sub : Nat) (code : List Nat) (bs : List (List (List F))) :
    ∀ (i : Nat) (row : List F) (j : Nat) (hj : j < bs.length),
      (∀ c, code[i + j]? = some c → bs[j].length ≤ c) → ∃ e, ProductQ.dequantizeCells sub code i bs row = .error e := by
  induction bs with
  | nil => intro i row j hj; cases hj
  | cons b bs ih =>
    intro i row j hj h
    unfold ProductQ.dequantizeCells
    cases hc : code[i]? with
    | none => exact ⟨_, rfl⟩
    | some c =>
      dsimp only
      cases hb : b[c]? with
      | none => exact ⟨_, rfl⟩
      | some cent =>
        dsimp only
        cases hr : setSlice row (i * sub) ((i + 1) * sub) cent with
        | error e => exact ⟨_, rfl⟩
        | ok row' =>
          dsimp only
          cases j with
          | zero =>
            have := h c hc
            have h2 := (List.getElem?_eq_some_iff.1 hb).1
            simp at this
            omega
          | succ j =>
            exact ih (i + 1) row' j (Nat.lt_of_succ_lt_succ hj) (by
              intro c hc
              exact h c (by rw [show i + (j + 1) = i + 1 + j by omega]; exact hc))

omit [LinearOrder F] [IsStrictOrderedRing F] in
theorem dequantizeCells_congr (sub : Nat) (code code' : List Nat) (bs : List (List (List F))) :
    ∀ (i : Nat) (row : List F), (∀ j, j < i + bs.length → code[j]? = code'[j]?) →
      ProductQ.dequantizeCells sub code i bs row = ProductQ.dequantizeCells sub code' i bs row := by
  induction bs with
  | nil => intro i row _; rfl
  | cons b bs ih =>
    intro i row h
    have hi : code[i]? = code'[i]? := h i (by simp)
    have hr : ∀ row', ProductQ.dequantizeCells sub code (i + 1) bs row' = ProductQ.dequantizeCells sub code' (i + 1) bs row' :=
      fun row' => ih (i + 1) row' fun j hj => h j (by simp; omega)
    simp only [ProductQ.dequantizeCells, hi, hr]

/-- **C252**, product: an array with a row that lacks one of the `m` entries, or whose entry for a part names no centroid, is refused.
Missing: rows that are too long, see `C252_product_refuted`. -/
theorem C252_product_partial {q : ProductQ F} {m k sub : Nat} {books : List (List (List F))}
    (hq : ProductQ.Ready q m k sub books) (n : Nat) (C : List (List Nat)) (code : List Nat) (hc : code ∈ C)
    (j : Nat) (hj : j < m) (hbad : ∀ c, code[j]? = some c → k ≤ c) :
    q.dequantize (.mat n C) = .error .quantization := by
  have hjb : j < books.length := by rw [hq.shape.1]; exact hj
  obtain ⟨e, he⟩ := mapE_error
    (fun code => ProductQ.dequantizeCells sub code 0 books (List.replicate (m * sub) 0)) C code hc
    (dequantizeCells_error sub code books 0 _ j hjb (by
      intro c hc
      rw [(hq.shape.2 _ (List.getElem_mem hjb)).1]
      exact hbad c (by rw [Nat.zero_add] at hc; exact hc)))
  simp only [ProductQ.dequantize, hq.inited, hq.trained, hq.hdim, hq.hsub, hq.hbooks, he, Bool.true_eq_false, if_false]

/-- **C252 (refuted)**, product: entries beyond the `m`-th are ignored, also if they name no centroid. -/
theorem C252_product_refuted {q : ProductQ F} {m k sub : Nat} {books : List (List (List F))}
    (hq : ProductQ.Ready q m k sub books) (n : Nat) (hn : m < n) (C : List (List Nat)) (hC : Rect n C)
    (hc : ∀ r ∈ C, ∀ c ∈ r.take m, c < k) :
    q.dequantize (.mat n C) = q.dequantize (.mat m (C.map (List.take m))) ∧
    ∃ V, q.dequantize (.mat n C) = .ok V := by
  have hm : ∀ C : List (List Nat),
      mapE (fun code => ProductQ.dequantizeCells sub code 0 books (List.replicate (m * sub) 0)) C =
      mapE (fun code => ProductQ.dequantizeCells sub code 0 books (List.replicate (m * sub) 0)) (C.map (List.take m)) := by
    intro C
    induction C with
    | nil => rfl
    | cons c C ih =>
      have : ProductQ.dequantizeCells sub c 0 books (List.replicate (m * sub) 0) =
          ProductQ.dequantizeCells sub (c.take m) 0 books (List.replicate (m * sub) 0) :=
        dequantizeCells_congr sub c (c.take m) books 0 _ fun j hj => by
          rw [List.getElem?_take_of_lt (by rw [hq.shape.1] at hj; omega)]
      simp only [List.map_cons, mapE, this, ih]
  have e : q.dequantize (.mat n C) = q.dequantize (.mat m (C.map (List.take m))) := by
    simp only [ProductQ.dequantize, hq.hdim, hq.hsub, hq.hbooks, hm C]
  refine ⟨e, ?_⟩
  rw [e]
  exact ⟨_, hq.dequantize m (C.map (List.take m)) (by
    intro r hr
    obtain ⟨y, hy, rfl⟩ := List.mem_map.1 hr
    rw [List.length_take, hC y hy]; omega) (by
    intro r hr
    obtain ⟨y, hy, rfl⟩ := List.mem_map.1 hr
    exact hc y hy)⟩

end

/-- Non-vacuity, scalar: two dimensions; three entries are refused, one is spread. -/
example : exScTrained.dequantize (.mat 3 [[1, 2, 3]]) = .error .quantization ∧
    exScTrained.dequantize (.mat 1 [[3]]) = exScTrained.dequantize (.mat 2 [[3, 3]]) ∧
    ((exScq.train (.mat 1 [[0], [6]])).2.dequantize (.mat 3 [[0, 3, 3]])) = .ok [[0, 6, 6]] := by decide +kernel

/-- Non-vacuity, product: two parts. -/
example : exWidePq.dequantize (.mat 1 [[0]]) = .error .quantization ∧
    exWidePq.dequantize (.mat 2 [[0, 2]]) = .error .quantization ∧
    exWidePq.dequantize (.mat 3 [[0, 1, 99]]) = .ok [[0, 0, 7, 9]] := by decide +kernel

end Valori.Props
