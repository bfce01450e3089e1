import Verif.Props.QuantContract
import Verif.Props.ScalarContract

/-!
# C251: vectors of another width given to the scalar and the product quantiser
-/

namespace Valori.Props
open Valori
open Valori.Spec (Rect)

section
variable {F : Type} [Field F] [LinearOrder F] [IsStrictOrderedRing F] [FloorRing F]

omit [Field F] [LinearOrder F] [IsStrictOrderedRing F] [FloorRing F] in
theorem bzip_single {α β γ : Type} (f : α → β → γ) (x : α) (b : List β) :
    bzip f [x] b = .ok (b.map (f x)) := by
  unfold bzip
  split
  · next h =>
    obtain ⟨y, rfl⟩ := List.length_eq_one_iff.1 h.symm
    rfl
  · rfl

theorem bzip_same {α β γ : Type} (f : α → β → γ) {a : List α} {b : List β} (h : a.length = b.length) :
    bzip f a b = .ok (List.zipWith f a b) := by
  unfold bzip; rw [if_pos h]

theorem bzip_wrong {α β γ : Type} (f : α → β → γ) {a : List α} {b : List β} (h : a.length ≠ b.length)
    (h1 : a.length ≠ 1) (h2 : b.length ≠ 1) : bzip f a b = .error .value := by
  unfold bzip
  rw [if_neg h]
  split
  · simp at h1
  · simp at h2
  · rfl

theorem bzip_right {α β γ : Type} (f : α → β → γ) (a : List α) (y : β) :
    bzip f a [y] = .ok (a.map fun x => f x y) := by
  unfold bzip
  split
  · next h =>
    obtain ⟨x, rfl⟩ := List.length_eq_one_iff.1 h
    rfl
  · next h =>
    split
    · next x b heq => simp at h
    · next heq => cases heq; rfl
    · next h1 h2 => exact absurd rfl (h2 y)

theorem zipWith_replicate_left {α β γ : Type} (f : α → β → γ) (x : α) (b : List β) :
    List.zipWith f (List.replicate b.length x) b = b.map (f x) := by
  induction b with
  | nil => rfl
  | cons y b ih => simp [List.replicate_succ, ih]

omit [IsStrictOrderedRing F] in
theorem quantizeRow_single (q : ScalarQ F) (d : Nat) (lo sc : List F) (hl : lo.length = d) (x : F) :
    q.quantizeRow d lo sc [x] = q.quantizeRow d lo sc (List.replicate d x) := by
  unfold ScalarQ.quantizeRow
  rw [bzip_single, bzip_same _ (by simp [hl]), ← hl, zipWith_replicate_left]

omit [IsStrictOrderedRing F] in
theorem quantizeRow_same (q : ScalarQ F) (d : Nat) (lo sc : List F) (hl : lo.length = d) (hs : sc.length = d) (row : List F)
    (hr : row.length = d) : ∃ c, q.quantizeRow d lo sc row = .ok c := by
  unfold ScalarQ.quantizeRow
  rw [bzip_same _ (by omega)]
  dsimp only
  rw [bzip_same _ (by simp; omega)]
  dsimp only
  unfold setSlice
  rw [if_pos (by simp [slice]; omega)]
  exact ⟨_, rfl⟩

omit [IsStrictOrderedRing F] in
theorem quantizeRow_wrong (q : ScalarQ F) (d : Nat) (lo sc : List F) (hl : lo.length = d) (hs : sc.length = d) (row : List F)
    (hr : row.length ≠ d) (h1 : row.length ≠ 1) : ∃ e, q.quantizeRow d lo sc row = .error e := by
  unfold ScalarQ.quantizeRow
  by_cases hd : d = 1
  · obtain ⟨m, rfl⟩ := List.length_eq_one_iff.1 (hl.trans hd)
    obtain ⟨s, rfl⟩ := List.length_eq_one_iff.1 (hs.trans hd)
    rw [bzip_right]
    dsimp only
    rw [bzip_right]
    dsimp only
    unfold setSlice
    rw [if_neg (by simp [slice, hd]; exact h1)]
    split
    · next x hx =>
      have := congrArg List.length hx
      simp at this
      exact absurd this h1
    · exact ⟨_, rfl⟩
  · rw [bzip_wrong _ (by omega) h1 (by omega)]
    exact ⟨_, rfl⟩

theorem mapE_error {α β : Type} (f : α → Except Err β) (l : List α) (x : α) (hx : x ∈ l) (h : ∃ e, f x = .error e) :
    ∃ e, mapE f l = .error e := by
  induction l with
  | nil => cases hx
  | cons y l ih =>
    rcases List.mem_cons.1 hx with rfl | hx
    · obtain ⟨e, he⟩ := h
      exact ⟨e, by simp only [mapE, he]⟩
    · obtain ⟨e, he⟩ := ih hx
      cases hy : f y with
      | error e' => exact ⟨e', by simp only [mapE, hy]⟩
      | ok z => exact ⟨e, by simp only [mapE, hy, he]⟩

theorem mapE_all_ok {α β : Type} (f : α → Except Err β) (l : List α) (h : ∀ x ∈ l, ∃ y, f x = .ok y) :
    ∃ ys, mapE f l = .ok ys := by
  induction l with
  | nil => exact ⟨[], rfl⟩
  | cons y l ih =>
    obtain ⟨z, hz⟩ := h y List.mem_cons_self
    obtain ⟨zs, hzs⟩ := ih fun x hx => h x (List.mem_cons_of_mem _ hx)
    exact ⟨z :: zs, by simp only [mapE, hz, hzs]⟩

/-- **C251**, scalar: a quantiser trained on vectors of width `d` encodes arrays of width `d` and of width 1 and refuses all
others.  Missing: width 1, see `C251_scalar_refuted`. -/
theorem C251_scalar_partial (q : ScalarQ F) (hi : q.inited = true) (d : Nat) (X : List (List F)) (hne : X ≠ [])
    (hX : Rect d X) (n : Nat) (Y : List (List F)) (hY : Rect n Y) (hYne : Y ≠ []) :
    (n = d ∨ n = 1 → ∃ codes, (q.train (.mat d X)).2.quantize (.mat n Y) = .ok codes) ∧
    (n ≠ d → n ≠ 1 → (q.train (.mat d X)).2.quantize (.mat n Y) = .error .quantization) := by
  obtain ⟨lo, hiL, ht, l1, l2, -, -⟩ := ScalarQ.train_spec q hi d X hne hX
  rw [ht]
  have hs : (List.zipWith q.scaleOf lo hiL).length = d := by simp [l1, l2]
  simp only [ScalarQ.quantize, hi, Bool.true_eq_false, if_false]
  refine ⟨?_, ?_⟩
  · intro h
    obtain ⟨ys, hys⟩ := mapE_all_ok
      (ScalarQ.quantizeRow { q with dim := some d, minV := some lo, maxV := some hiL
                                    scale := some (List.zipWith q.scaleOf lo hiL), trained := true } d lo
        (List.zipWith q.scaleOf lo hiL)) Y (by
      intro y hy
      rcases h with rfl | rfl
      · exact quantizeRow_same _ _ _ _ l1 hs y (hY y hy)
      · obtain ⟨x, rfl⟩ := List.length_eq_one_iff.1 (hY y hy)
        rw [quantizeRow_single _ _ _ _ l1]
        exact quantizeRow_same _ _ _ _ l1 hs _ (by simp))
    simp only [hi] at hys
    rw [hys]
    exact ⟨_, rfl⟩
  · intro h h'
    obtain ⟨y, hy⟩ := List.exists_mem_of_ne_nil Y hYne
    obtain ⟨e, he⟩ := mapE_error
      (ScalarQ.quantizeRow { q with dim := some d, minV := some lo, maxV := some hiL
                                    scale := some (List.zipWith q.scaleOf lo hiL), trained := true } d lo
        (List.zipWith q.scaleOf lo hiL)) Y y hy
      (quantizeRow_wrong _ _ _ _ l1 hs y (by rw [hY y hy]; exact h) (by rw [hY y hy]; exact h'))
    simp only [hi] at he
    rw [he]

/-- **C251 (refuted)**, scalar: a vector with a single entry is encoded like the one that has this entry everywhere. -/
theorem C251_scalar_refuted (q : ScalarQ F) (hi : q.inited = true) (d : Nat) (X : List (List F)) (hne : X ≠ [])
    (hX : Rect d X) (x : F) :
    (q.train (.mat d X)).2.quantize (.mat 1 [[x]]) = (q.train (.mat d X)).2.quantize (.mat d [List.replicate d x]) ∧
    ∃ codes, (q.train (.mat d X)).2.quantize (.mat 1 [[x]]) = .ok codes := by
  refine ⟨?_, (C251_scalar_partial q hi d X hne hX 1 [[x]] (by intro r hr; simp at hr; simp [hr]) (by simp)).1 (.inr rfl)⟩
  obtain ⟨lo, hiL, ht, l1, l2, -, -⟩ := ScalarQ.train_spec q hi d X hne hX
  rw [ht]
  simp only [ScalarQ.quantize, mapE, quantizeRow_single _ _ _ _ l1]

end

section
variable {F : Type} [Field F] [LinearOrder F] [IsStrictOrderedRing F]

omit [IsStrictOrderedRing F] in
theorem quantizeCells_congr (ek sub : Nat) (r r' : List F) (bs : List (List (List F))) :
    ∀ i, (∀ j, ∀ h : j < bs.length, ProductQ.quantizeCell ek sub r (i + j) bs[j] = ProductQ.quantizeCell ek sub r' (i + j) bs[j]) →
      ProductQ.quantizeCells ek sub r i bs = ProductQ.quantizeCells ek sub r' i bs := by
  induction bs with
  | nil => intro i _; rfl
  | cons b bs ih =>
    intro i h
    have h0 : ProductQ.quantizeCell ek sub r i b = ProductQ.quantizeCell ek sub r' i b := h 0 (Nat.zero_lt_succ _)
    have h1 := ih (i + 1) fun j hj => by
      have := h (j + 1) (Nat.succ_lt_succ hj)
      rw [show i + (j + 1) = i + 1 + j by omega] at this
      exact this
    simp only [ProductQ.quantizeCells, h0, h1]

omit [IsStrictOrderedRing F] in
theorem quantizeCells_error (ek sub : Nat) (r : List F) (bs : List (List (List F))) :
    ∀ i j, ∀ h : j < bs.length, (∃ e, ProductQ.quantizeCell ek sub r (i + j) bs[j] = .error e) →
      ∃ e, ProductQ.quantizeCells ek sub r i bs = .error e := by
  induction bs with
  | nil => intro i j h; cases h
  | cons b bs ih =>
    intro i j h he
    cases j with
    | zero =>
      obtain ⟨e, he⟩ := he
      have he' : ProductQ.quantizeCell ek sub r i b = .error e := he
      exact ⟨e, by simp only [ProductQ.quantizeCells, he']⟩
    | succ j =>
      obtain ⟨e, h1⟩ := ih (i + 1) j (Nat.lt_of_succ_lt_succ h) (by
        rw [show i + 1 + j = i + (j + 1) by omega]; exact he)
      cases hb : ProductQ.quantizeCell ek sub r i b with
      | error e' => exact ⟨e', by simp only [ProductQ.quantizeCells, hb]⟩
      | ok c => exact ⟨e, by simp only [ProductQ.quantizeCells, hb, h1]⟩

theorem quantize_congr {q : ProductQ F} {m k sub : Nat} {books : List (List (List F))}
    (hq : ProductQ.Ready q m k sub books) (n n' : Nat) (Y : List (List F)) (g : List F → List F)
    (h : ∀ y ∈ Y, ProductQ.quantizeCells (ProductQ.effK books) sub y 0 books =
      ProductQ.quantizeCells (ProductQ.effK books) sub (g y) 0 books) :
    q.quantize (.mat n Y) = q.quantize (.mat n' (Y.map g)) := by
  have hm : ∀ Y : List (List F), (∀ y ∈ Y, ProductQ.quantizeCells (ProductQ.effK books) sub y 0 books =
      ProductQ.quantizeCells (ProductQ.effK books) sub (g y) 0 books) →
      mapE (fun row => ProductQ.quantizeCells (ProductQ.effK books) sub row 0 books) Y =
      mapE (fun row => ProductQ.quantizeCells (ProductQ.effK books) sub row 0 books) (Y.map g) := by
    intro Y
    induction Y with
    | nil => intro _; rfl
    | cons y Y ih =>
      intro h
      simp only [List.map_cons, mapE, h y List.mem_cons_self, ih fun y hy => h y (List.mem_cons_of_mem _ hy)]
  simp only [ProductQ.quantize, hq.hsub, hq.hbooks, hm Y h]

/-- **C251 (refuted)**, product: entries beyond the trained width are ignored. -/
theorem C251_product_long_refuted {q : ProductQ F} {m k sub : Nat} {books : List (List (List F))}
    (hq : ProductQ.Ready q m k sub books) (hk : 1 ≤ k) (hk' : k ≤ 65536) (n : Nat) (Y : List (List F))
    (hn : m * sub < n) (hY : Rect n Y) :
    q.quantize (.mat n Y) = q.quantize (.mat (m * sub) (Y.map (List.take (m * sub)))) ∧
    ∃ codes, q.quantize (.mat n Y) = .ok codes := by
  have e : q.quantize (.mat n Y) = q.quantize (.mat (m * sub) (Y.map (List.take (m * sub)))) := by
    apply quantize_congr hq
    intro y _
    apply quantizeCells_congr
    intro j hj
    rw [hq.shape.1] at hj
    unfold ProductQ.quantizeCell
    have h1 : (j + 1) * sub ≤ m * sub := Nat.mul_le_mul_right _ hj
    have : slice (y.take (m * sub)) ((0 + j) * sub) ((0 + j + 1) * sub) = slice y ((0 + j) * sub) ((0 + j + 1) * sub) := by
      unfold slice
      rw [List.take_take, Nat.min_eq_left (by simpa using h1)]
    rw [this]
  refine ⟨e, ?_⟩
  rw [e]
  obtain ⟨g, hg, -⟩ := hq.quantize hk hk' (m * sub) (Y.map (List.take (m * sub))) (by
    intro r hr
    obtain ⟨y, hy, rfl⟩ := List.mem_map.1 hr
    rw [List.length_take, hY y hy]; omega)
  exact ⟨_, hg⟩

/-- **C251 (refuted)**, product: a vector that has one entry of its last part is encoded as if this entry filled the part. -/
theorem C251_product_short_refuted {q : ProductQ F} {m k sub : Nat} {books : List (List (List F))}
    (hq : ProductQ.Ready q m k sub books) (hk : 1 ≤ k) (hk' : k ≤ 65536) (hs : 1 ≤ sub) (y : List F)
    (hy : y.length = (m - 1) * sub) (x : F) :
    q.quantize (.mat ((m - 1) * sub + 1) [y ++ [x]]) = q.quantize (.mat (m * sub) [y ++ List.replicate sub x]) ∧
    ∃ codes, q.quantize (.mat ((m - 1) * sub + 1) [y ++ [x]]) = .ok codes := by
  have hm := hq.pos
  have hms : m * sub = (m - 1) * sub + sub := by
    obtain ⟨m', rfl⟩ : ∃ m', m = m' + 1 := ⟨m - 1, by omega⟩
    rw [Nat.add_sub_cancel, Nat.add_mul, Nat.one_mul]
  have e := quantize_congr hq ((m - 1) * sub + 1) (m * sub) [y ++ [x]] (fun _ => y ++ List.replicate sub x) (by
    intro z hz
    obtain rfl : z = y ++ [x] := by simpa using hz
    apply quantizeCells_congr
    intro j hj
    have hj' := hj
    rw [hq.shape.1] at hj'
    rw [Nat.zero_add]
    unfold ProductQ.quantizeCell
    by_cases hl : j = m - 1
    · subst hl
      have e2 : (m - 1 + 1) * sub = (m - 1) * sub + sub := by rw [Nat.add_mul, Nat.one_mul]
      have s1 : slice (y ++ [x]) ((m - 1) * sub) ((m - 1 + 1) * sub) = [x] := by
        unfold slice
        rw [List.take_of_length_le (by simp [hy, e2]; omega), List.drop_left' hy]
      have s2 : slice (y ++ List.replicate sub x) ((m - 1) * sub) ((m - 1 + 1) * sub) = List.replicate sub x := by
        unfold slice
        rw [List.take_of_length_le (by simp [hy, e2]), List.drop_left' hy]
      rw [s1, s2]
      have : mapE (ProductQ.cellDist [x]) books[m - 1] = mapE (ProductQ.cellDist (List.replicate sub x)) books[m - 1] := by
        have hb := (hq.shape.2 books[m - 1] (List.getElem_mem _)).2
        generalize books[m - 1] = b at hb
        induction b with
        | nil => rfl
        | cons c b ih =>
          have hc := hb c List.mem_cons_self
          have : ProductQ.cellDist [x] c = ProductQ.cellDist (List.replicate sub x) c := by
            unfold ProductQ.cellDist
            rw [bzip_single, bzip_same _ (by simp [hc]), ← hc, zipWith_replicate_left]
          simp only [mapE, this, ih fun c hc => hb c (List.mem_cons_of_mem _ hc)]
      rw [this]
    · have h1 : (j + 1) * sub ≤ (m - 1) * sub := Nat.mul_le_mul_right _ (by omega)
      have : ∀ t : List F, slice (y ++ t) (j * sub) ((j + 1) * sub) = slice y (j * sub) ((j + 1) * sub) := by
        intro t
        unfold slice
        rw [List.take_append_of_le_length (by omega)]
      rw [this, this])
  refine ⟨e, ?_⟩
  rw [e]
  obtain ⟨g, hg, -⟩ := hq.quantize hk hk' (m * sub) [y ++ List.replicate sub x] (by
    intro r hr
    obtain rfl : r = y ++ List.replicate sub x := by simpa using hr
    simp [hy, hms])
  exact ⟨_, hg⟩

/-- **C251**, product: with parts of two or more entries, every other width below the trained one is refused. -/
theorem C251_product_partial {q : ProductQ F} {m k sub : Nat} {books : List (List (List F))}
    (hq : ProductQ.Ready q m k sub books) (hk : 1 ≤ k) (hs : 2 ≤ sub) (n : Nat) (Y : List (List F)) (hY : Rect n Y)
    (hne : Y ≠ []) (hn : n < m * sub) (hn' : n ≠ (m - 1) * sub + 1) :
    q.quantize (.mat n Y) = .error .quantization := by
  obtain ⟨y, hy⟩ := List.exists_mem_of_ne_nil Y hne
  have hyl := hY y hy
  -- the first part that is neither complete nor of one entry
  have hj : ∃ j, j < m ∧ (slice y (j * sub) ((j + 1) * sub)).length ≠ sub ∧
      (slice y (j * sub) ((j + 1) * sub)).length ≠ 1 := by
    have hl : ∀ j, (slice y (j * sub) ((j + 1) * sub)).length = min (j * sub + sub) n - j * sub := by
      intro j
      unfold slice
      rw [List.length_drop, List.length_take, hyl, Nat.add_mul, Nat.one_mul]
    have hdm := Nat.div_add_mod n sub
    have hmod := Nat.mod_lt n (show 0 < sub by omega)
    have hlt : n / sub < m := by
      rw [Nat.div_lt_iff_lt_mul (by omega)]; exact hn
    rw [Nat.mul_comm] at hdm
    generalize n / sub = a at hdm hlt
    generalize n % sub = r at hdm hmod
    by_cases h1 : r = 1
    · -- one entry in part `a`, nothing in the next
      have hlast : a ≠ m - 1 := by
        intro h; rw [h] at hdm; omega
      have hlt' : a + 1 < m := by clear hdm hn hn' hl; omega
      refine ⟨a + 1, hlt', ?_, ?_⟩ <;> rw [hl, Nat.add_mul, Nat.one_mul] <;> omega
    · refine ⟨a, hlt, ?_, ?_⟩ <;> rw [hl] <;> omega
  obtain ⟨j, hjm, hj1, hj2⟩ := hj
  have hjb : j < books.length := by rw [hq.shape.1]; exact hjm
  have hb := hq.shape.2 books[j] (List.getElem_mem _)
  obtain ⟨c, hc⟩ : ∃ c, c ∈ books[j] := List.exists_mem_of_length_pos (by rw [hb.1]; omega)
  have hcell : ∃ e, ProductQ.quantizeCell (ProductQ.effK books) sub y (0 + j) books[j] = .error e := by
    obtain ⟨e, he⟩ := mapE_error (ProductQ.cellDist (slice y (j * sub) ((j + 1) * sub))) books[j] c hc
      ⟨.value, by unfold ProductQ.cellDist; rw [bzip_wrong _ (by rw [hb.2 c hc]; exact hj1) hj2 (by rw [hb.2 c hc]; omega)]⟩
    exact ⟨e, by unfold ProductQ.quantizeCell; rw [Nat.zero_add, he]⟩
  obtain ⟨e, he⟩ := mapE_error (fun row => ProductQ.quantizeCells (ProductQ.effK books) sub row 0 books) Y y hy
    (quantizeCells_error _ sub y books 0 j hjb hcell)
  simp only [ProductQ.quantize, hq.inited, hq.trained, hq.hsub, hq.hbooks, he, Bool.true_eq_false, if_false]

omit [IsStrictOrderedRing F] in
theorem argminFrom_zeros (bi i n : Nat) : argminFrom (0 : F) bi i (List.replicate n 0) = bi := by
  induction n generalizing i with
  | zero => rfl
  | succ n ih => simp only [List.replicate_succ, argminFrom, lt_irrefl, if_false]; exact ih (i + 1)

omit [IsStrictOrderedRing F] in
theorem quantizeCell_one (ek : Nat) (row : List F) (i : Nat) (b : List (List F)) (hne : b ≠ []) (hb : ∀ c ∈ b, c.length = 1) :
    ∃ c, ProductQ.quantizeCell ek 1 row i b = .ok c ∧ (row.length ≤ i → c = 0) := by
  have hd : ∀ v : List F, ∃ ds, mapE (ProductQ.cellDist v) b = .ok ds ∧ ds.length = b.length ∧
      (v = [] → ds = List.replicate b.length 0) := by
    intro v
    clear hne
    induction b with
    | nil => exact ⟨[], rfl, rfl, fun _ => rfl⟩
    | cons c b ih =>
      obtain ⟨ds, h1, h2, h3⟩ := ih fun c hc => hb c (List.mem_cons_of_mem _ hc)
      obtain ⟨y, rfl⟩ := List.length_eq_one_iff.1 (hb c List.mem_cons_self)
      refine ⟨(v.map fun x => (x - y) ^ 2).sum :: ds, by simp only [mapE, ProductQ.cellDist, bzip_right, h1], by simp [h2], ?_⟩
      intro hv
      simp [hv, h3 hv, List.replicate_succ]
  obtain ⟨ds, h1, h2, h3⟩ := hd (slice row (i * 1) ((i + 1) * 1))
  unfold ProductQ.quantizeCell
  rw [h1]
  dsimp only
  have hb1 : 0 < b.length := List.length_pos_iff.2 hne
  cases ds with
  | nil => simp at h2; omega
  | cons x ds =>
    refine ⟨_, rfl, ?_⟩
    intro hi
    have hv : slice row (i * 1) ((i + 1) * 1) = [] := by
      unfold slice
      rw [List.drop_eq_nil_iff, List.length_take]
      omega
    obtain ⟨n, hn⟩ : ∃ n, b.length = n + 1 := ⟨b.length - 1, by omega⟩
    have h4 := h3 hv
    rw [hn, List.replicate_succ] at h4
    cases h4
    rw [argminFrom_zeros, Nat.zero_mod]

omit [IsStrictOrderedRing F] in
theorem quantizeCells_one (ek : Nat) (row : List F) (bs : List (List (List F)))
    (hb : ∀ b ∈ bs, b ≠ [] ∧ ∀ c ∈ b, c.length = 1) :
    ∀ i, ∃ cs, ProductQ.quantizeCells ek 1 row i bs = .ok cs ∧ cs.length = bs.length ∧
      ∀ j, j < bs.length → row.length ≤ i + j → cs[j]? = some 0 := by
  induction bs with
  | nil => intro i; exact ⟨[], rfl, rfl, fun j hj => by cases hj⟩
  | cons b bs ih =>
    intro i
    obtain ⟨c, h1, h2⟩ := quantizeCell_one ek row i b (hb b List.mem_cons_self).1 (hb b List.mem_cons_self).2
    obtain ⟨cs, h3, h4, h5⟩ := ih (fun b hm => hb b (List.mem_cons_of_mem _ hm)) (i + 1)
    refine ⟨c :: cs, by simp only [ProductQ.quantizeCells, h1, h3], by simp [h4], ?_⟩
    intro j hj hl
    cases j with
    | zero => simp [h2 hl]
    | succ j =>
      rw [List.getElem?_cons_succ]
      exact h5 j (Nat.lt_of_succ_lt_succ hj) (by omega)

/-- **C251 (refuted)**, product with parts of one entry: no vector is too short; every part that is missing gets the code 0, whatever its
centroids are. -/
theorem C251_product_one_refuted {q : ProductQ F} {m k : Nat} {books : List (List (List F))}
    (hq : ProductQ.Ready q m k 1 books) (hk : 1 ≤ k) (n : Nat) (y : List F) (hy : y.length = n) :
    ∃ code, q.quantize (.mat n [y]) = .ok [code] ∧ code.length = m ∧ ∀ j, n ≤ j → j < m → code[j]? = some 0 := by
  obtain ⟨cs, h1, h2, h3⟩ := quantizeCells_one (ProductQ.effK books) y books (fun b hb => by
    obtain ⟨e1, e2⟩ := hq.shape.2 b hb
    exact ⟨fun h => by rw [h] at e1; simp at e1; omega, e2⟩) 0
  refine ⟨cs, ?_, h2.trans hq.shape.1, ?_⟩
  · simp only [ProductQ.quantize, hq.inited, hq.trained, hq.hsub, hq.hbooks, mapE, h1, Bool.true_eq_false, if_false]
  · intro j hj hm
    exact h3 j (by rw [hq.shape.1]; exact hm) (by omega)

end

/-- Non-vacuity, scalar: trained on vectors of two entries; one of three is refused, one of one entry is encoded. -/
example : exScq.inited = true ∧ Rect 2 ([[0, 5], [3, 5], [6, 5]] : List (List ℚ)) ∧
    exScTrained.quantize (.mat 3 [[1, 2, 3]]) = .error .quantization ∧
    exScTrained.quantize (.mat 1 [[6]]) = exScTrained.quantize (.mat 2 [[6, 6]]) :=
  ⟨by decide, by unfold Rect; decide, by decide +kernel, by decide +kernel⟩

/-- A product quantiser with two parts of two entries and two centroids each. -/
def exWideBooks : List (List (List ℚ)) := [[[0, 0], [10, 10]], [[5, 5], [7, 9]]]

/-- Its state. -/
def exWidePq : ProductQ ℚ := ⟨2, 2, true, true, some 4, some 2, some exWideBooks⟩

theorem exWidePq_ready : ProductQ.Ready exWidePq 2 2 2 exWideBooks := by
  refine ⟨rfl, rfl, rfl, rfl, rfl, ?_, by decide⟩
  unfold Spec.BookShape; decide

/-- Non-vacuity, product: of the widths around 4 it refuses 1 and 2, and encodes 3 and 5. -/
example : exWidePq.quantize (.mat 1 [[4]]) = .error .quantization ∧
    exWidePq.quantize (.mat 2 [[4, 4]]) = .error .quantization ∧
    exWidePq.quantize (.mat 3 [[9, 9, 8]]) = .ok [[1, 1]] ∧
    exWidePq.quantize (.mat 4 [[9, 9, 8, 8]]) = .ok [[1, 1]] ∧
    exWidePq.quantize (.mat 5 [[9, 9, 8, 8, 100]]) = .ok [[1, 1]] := by decide +kernel

/-- With parts of one entry no width is refused: a part that is missing gets the code 0. -/
example : ProductQ.Ready exPq 2 2 1 exPqBooks ∧ exPq.quantize (.mat 1 [[9]]) = .ok [[1, 0]] ∧ exPq.quantize (.mat 0 [[]]) = .ok [[0, 0]] :=
  ⟨exPq_ready, by decide +kernel, by decide +kernel⟩

end Valori.Props
