import Verif.Model.Product
import Verif.Lemmas.Scalar

namespace Valori
open Spec (Rect at2 sqDist Decodable BookShape fit)

section
variable {F : Type}

theorem argminFrom_spec [LinearOrder F] (l : List F) (best : F) (bi i : Nat) (all : List F)
    (hb : all[bi]? = some best) (hlt : bi < i) (hd : all.drop i = l)
    (hmin : ∀ j y, j < i → all[j]? = some y → best ≤ y) :
    ∃ v, all[argminFrom best bi i l]? = some v ∧ ∀ y ∈ all, v ≤ y := by
  induction l generalizing best bi i with
  | nil =>
    refine ⟨best, hb, fun y hy => ?_⟩
    obtain ⟨j, hj, rfl⟩ := List.getElem_of_mem hy
    exact hmin j _ (by have := List.drop_eq_nil_iff.1 hd; omega) (List.getElem?_eq_getElem hj)
  | cons x xs ih =>
    have hx : all[i]? = some x := by
      have := congrArg (·[0]?) hd
      simpa using this
    have hd' : all.drop (i + 1) = xs := by
      have := congrArg List.tail hd
      simpa using this
    unfold argminFrom
    split_ifs with h
    · refine ih x i (i + 1) hx (by omega) hd' ?_
      intro j y hj hy
      rcases Nat.lt_succ_iff_lt_or_eq.1 hj with hj | rfl
      · exact h.le.trans (hmin j y hj hy)
      · rw [hx] at hy; exact (Option.some.inj hy).le
    · refine ih best bi (i + 1) hb (by omega) hd' ?_
      intro j y hj hy
      rcases Nat.lt_succ_iff_lt_or_eq.1 hj with hj | rfl
      · exact hmin j y hj hy
      · rw [hx] at hy; rw [← Option.some.inj hy]; exact not_lt.1 h

theorem argmin_spec [LinearOrder F] (l : List F) (h : l ≠ []) :
    ∃ j v, argmin l = .ok j ∧ l[j]? = some v ∧ ∀ y ∈ l, v ≤ y := by
  obtain ⟨x, xs, rfl⟩ := List.exists_cons_of_ne_nil h
  obtain ⟨v, h1, h2⟩ := argminFrom_spec xs x 0 1 (x :: xs) rfl (by omega) rfl (by
    intro j y hj hy
    obtain rfl : j = 0 := by omega
    exact (Option.some.inj hy).le)
  exact ⟨_, v, rfl, h1, h2⟩

end

namespace ProductQ
variable {F : Type} [Field F] [LinearOrder F] [IsStrictOrderedRing F]

theorem slice_eq (row : List F) (i sub : Nat) :
    slice row (i * sub) ((i + 1) * sub) = (row.drop (i * sub)).take sub := by
  unfold slice
  rw [List.drop_take]
  congr 1
  rw [Nat.add_mul]; omega

omit [LinearOrder F] [IsStrictOrderedRing F] in
theorem sqDist_append (a p rest : List F) :
    sqDist a (p ++ rest) = sqDist (a.take p.length) p + sqDist (a.drop p.length) rest := by
  induction p generalizing a with
  | nil => simp [sqDist]
  | cons x p ih =>
    cases a with
    | nil => simp [sqDist]
    | cons y a =>
      have := ih a
      simp only [sqDist, List.cons_append, List.zipWith_cons_cons, List.sum_cons,
        List.length_cons, List.take_succ_cons, List.drop_succ_cons] at this ⊢
      rw [this]; ring

theorem sqDist_nonneg (a b : List F) : 0 ≤ sqDist a b := by
  induction a generalizing b with
  | nil => simp [sqDist]
  | cons x a ih =>
    cases b with
    | nil => simp [sqDist]
    | cons y b =>
      have := ih b
      simp only [sqDist, List.zipWith_cons_cons, List.sum_cons] at this ⊢
      positivity

theorem sqDist_zero (a b : List F) (hl : a.length = b.length) (h : sqDist a b ≤ 0) : a = b := by
  induction a generalizing b with
  | nil => exact (List.length_eq_zero_iff.1 (by simpa using hl.symm)).symm
  | cons x a ih =>
    cases b with
    | nil => simp at hl
    | cons y b =>
      have h1 := sqDist_nonneg a b
      simp only [sqDist, List.zipWith_cons_cons, List.sum_cons] at h h1
      have h2 := sq_nonneg (x - y)
      have h3 : (x - y) ^ 2 = 0 := by linarith
      have h4 : x - y = 0 := by simpa using h3
      have := ih b (by simpa using hl) (by unfold sqDist; linarith)
      rw [this, sub_eq_zero.1 h4]

omit [LinearOrder F] [IsStrictOrderedRing F] in
theorem sqDist_self (a : List F) : sqDist a a = 0 := by
  induction a with
  | nil => simp [sqDist]
  | cons x a ih =>
    simp only [sqDist, List.zipWith_cons_cons, List.sum_cons] at ih ⊢
    rw [ih]; ring

/-- The codewords a code names. -/
def picks (code : List Nat) (books : List (List (List F))) : List (List F) :=
  List.zipWith (fun c b => b.getD c []) code books

theorem cellDist_eq (v c : List F) (h : v.length = c.length) : cellDist v c = .ok (sqDist v c) := by
  simp [cellDist, bzip_eq _ v c h, sqDist]

theorem quantizeCell_spec (k sub : Nat) (row : List F) (i : Nat) (b : List (List F))
    (hk : 1 ≤ k) (hk' : k ≤ 65536) (hb : b.length = k) (hc : ∀ c ∈ b, c.length = sub)
    (hr : (i + 1) * sub ≤ row.length) :
    ∃ c, quantizeCell k sub row i b = .ok c ∧ c < k ∧
      ∀ p ∈ b, sqDist ((row.drop (i * sub)).take sub) (b.getD c []) ≤
        sqDist ((row.drop (i * sub)).take sub) p := by
  unfold quantizeCell
  rw [slice_eq]
  have hlen : ((row.drop (i * sub)).take sub).length = sub := by
    rw [Nat.add_mul] at hr; simp; omega
  rw [mapE_ok _ (sqDist ((row.drop (i * sub)).take sub)) b
    fun c h => cellDist_eq _ _ (by rw [hlen, hc c h])]
  simp only
  obtain ⟨j, v, h1, h2, h3⟩ := argmin_spec
    (b.map (sqDist ((row.drop (i * sub)).take sub))) (by
      intro h
      have := congrArg List.length h
      simp [hb] at this; omega)
  rw [h1]
  simp only
  have hj : j < b.length := by
    obtain ⟨h, _⟩ := List.getElem?_eq_some_iff.1 h2
    simpa using h
  have hmod : j % codeSize k = j := by
    apply Nat.mod_eq_of_lt
    unfold codeSize
    split_ifs <;> omega
  refine ⟨j, by rw [hmod], by omega, ?_⟩
  intro p hp
  have : v = sqDist ((row.drop (i * sub)).take sub) (b.getD j []) := by
    rw [List.getElem?_map, List.getElem?_eq_getElem hj] at h2
    simp only [Option.map_some] at h2
    simp [List.getElem?_eq_getElem hj, ← Option.some.inj h2]
  rw [← this]
  exact h3 _ (List.mem_map.2 ⟨p, hp, rfl⟩)

theorem quantizeCells_spec (k sub : Nat) (row : List F) (hk : 1 ≤ k) (hk' : k ≤ 65536)
    (books : List (List (List F))) (i : Nat) (hs : ∀ b ∈ books, b.length = k ∧ ∀ c ∈ b, c.length = sub)
    (hr : row.length = (i + books.length) * sub) :
    ∃ code, quantizeCells k sub row i books = .ok code ∧ code.length = books.length ∧
      (∀ c ∈ code, c < k) ∧
      ∀ parts, List.Forall₂ (fun p b => p ∈ b) parts books →
        sqDist (row.drop (i * sub)) (picks code books).flatten ≤
          sqDist (row.drop (i * sub)) parts.flatten := by
  induction books generalizing i with
  | nil =>
    refine ⟨[], rfl, rfl, by simp, ?_⟩
    intro parts hp
    cases hp
    simp [picks]
  | cons b bs ih =>
    obtain ⟨hb, hc⟩ := hs b (by simp)
    simp only [List.length_cons] at hr
    have hr1 : (i + 1) * sub ≤ row.length := by
      rw [hr]; exact Nat.mul_le_mul_right _ (by omega)
    obtain ⟨c, h1, h2, h3⟩ := quantizeCell_spec k sub row i b hk hk' hb hc hr1
    obtain ⟨code, g1, g2, g3, g4⟩ := ih (i + 1) (fun x hx => hs x (by simp [hx]))
      (by rw [hr]; congr 1; omega)
    refine ⟨c :: code, by simp [quantizeCells, h1, g1], by simp [g2], ?_, ?_⟩
    · intro x hx
      rcases List.mem_cons.1 hx with rfl | hx
      · exact h2
      · exact g3 x hx
    · intro parts hp
      cases hp with
      | cons hpb hps =>
        rename_i p ps
        have e1 : (b.getD c []).length = sub := by
          have : c < b.length := by omega
          have h := hc _ (List.getElem_mem this)
          simpa [List.getElem?_eq_getElem this] using h
        have e2 := hc p hpb
        have e3 : (row.drop (i * sub)).drop sub = row.drop ((i + 1) * sub) := by
          rw [List.drop_drop]; congr 1; rw [Nat.add_mul]; omega
        simp only [picks, List.zipWith_cons_cons, List.flatten_cons]
        rw [sqDist_append, sqDist_append, e1, e2, e3]
        exact add_le_add (h3 p hpb) (g4 ps hps)

theorem picks_mem (code : List Nat) (books : List (List (List F))) (k : Nat)
    (hl : code.length = books.length) (hb : ∀ b ∈ books, b.length = k) (hc : ∀ c ∈ code, c < k) :
    List.Forall₂ (fun p b => p ∈ b) (picks code books) books := by
  induction code generalizing books with
  | nil =>
    cases books with
    | nil => exact List.Forall₂.nil
    | cons => simp at hl
  | cons c code ih =>
    cases books with
    | nil => simp at hl
    | cons b bs =>
      refine List.Forall₂.cons ?_ (ih bs (by simpa using hl) (fun x hx => hb x (by simp [hx]))
        fun x hx => hc x (by simp [hx]))
      have : c < b.length := by rw [hb b (by simp)]; exact hc c (by simp)
      simp [List.getElem?_eq_getElem this]

theorem setSlice_block (row cent : List F) (i sub : Nat) (hc : cent.length = sub)
    (hr : (i + 1) * sub ≤ row.length) :
    setSlice row (i * sub) ((i + 1) * sub) cent =
      .ok (row.take (i * sub) ++ cent ++ row.drop ((i + 1) * sub)) := by
  have : cent.length = (slice row (i * sub) ((i + 1) * sub)).length := by
    rw [slice_eq]
    rw [Nat.add_mul] at hr; simp; omega
  unfold setSlice
  rw [if_pos this]

theorem dequantizeCells_spec (k sub : Nat) (code : List Nat) (books : List (List (List F)))
    (i : Nat) (row : List F) (hs : ∀ b ∈ books, b.length = k ∧ ∀ c ∈ b, c.length = sub)
    (hcode : code.length = i + books.length) (hc : ∀ c ∈ code, c < k)
    (hr : row.length = (i + books.length) * sub) :
    dequantizeCells sub code i books row =
      .ok (row.take (i * sub) ++ (picks (code.drop i) books).flatten) := by
  induction books generalizing i row with
  | nil =>
    simp only [List.length_nil, Nat.add_zero] at hr
    simp [dequantizeCells, picks, ← hr]
  | cons b bs ih =>
    simp only [List.length_cons] at hr hcode
    obtain ⟨hb, hcb⟩ := hs b (by simp)
    have hi : i < code.length := by omega
    have hci : code[i] < b.length := by rw [hb]; exact hc _ (List.getElem_mem hi)
    have hr1 : (i + 1) * sub ≤ row.length := by
      rw [hr]; exact Nat.mul_le_mul_right _ (by omega)
    have hcent := hcb _ (List.getElem_mem hci)
    unfold dequantizeCells
    simp only [List.getElem?_eq_getElem hi, List.getElem?_eq_getElem hci,
      setSlice_block row _ i sub hcent hr1]
    have hr1' : i * sub + sub ≤ row.length := by rw [Nat.add_mul] at hr1; omega
    have hlen : (row.take (i * sub) ++ b[code[i]] ++ row.drop ((i + 1) * sub)).length
        = (i + 1 + bs.length) * sub := by
      have e : (i + 1 + bs.length) * sub = row.length := by rw [hr]; congr 1; omega
      have : (i + 1) * sub = i * sub + sub := by rw [Nat.add_mul]; omega
      rw [e]; simp [hcent]; omega
    rw [ih (i + 1) _ (fun x hx => hs x (by simp [hx])) (by omega) hlen]
    congr 1
    have e1 : (row.take (i * sub) ++ b[code[i]] ++ row.drop ((i + 1) * sub)).take ((i + 1) * sub)
        = row.take (i * sub) ++ b[code[i]] := by
      apply List.take_left'
      have : (i + 1) * sub = i * sub + sub := by rw [Nat.add_mul]; omega
      simp [hcent]; omega
    rw [e1, List.drop_eq_getElem_cons hi]
    simp only [picks, List.zipWith_cons_cons, List.flatten_cons, List.getD_eq_getElem?_getD,
      List.getElem?_eq_getElem hci, Option.getD_some, List.append_assoc]

theorem distCells_spec (k sub : Nat) (code : List Nat) (books : List (List (List F)))
    (i : Nat) (query : List F) (acc : F)
    (hs : ∀ b ∈ books, b.length = k ∧ ∀ c ∈ b, c.length = sub)
    (hcode : code.length = i + books.length) (hc : ∀ c ∈ code, c < k)
    (hr : query.length = (i + books.length) * sub) :
    distCells sub query code i books acc =
      .ok (acc + sqDist (query.drop (i * sub)) (picks (code.drop i) books).flatten) := by
  induction books generalizing i acc with
  | nil => simp [distCells, picks, sqDist]
  | cons b bs ih =>
    simp only [List.length_cons] at hr hcode
    obtain ⟨hb, hcb⟩ := hs b (by simp)
    have hi : i < code.length := by omega
    have hci : code[i] < b.length := by rw [hb]; exact hc _ (List.getElem_mem hi)
    have hr1 : (i + 1) * sub ≤ query.length := by
      rw [hr]; exact Nat.mul_le_mul_right _ (by omega)
    have hcent := hcb _ (List.getElem_mem hci)
    have hlen : ((query.drop (i * sub)).take sub).length = sub := by
      rw [Nat.add_mul] at hr1; simp; omega
    unfold distCells
    simp only [List.getElem?_eq_getElem hi, List.getElem?_eq_getElem hci, slice_eq,
      cellDist_eq _ _ (hlen.trans hcent.symm)]
    rw [ih (i + 1) _ (fun x hx => hs x (by simp [hx])) (by omega) (by rw [hr]; congr 1; omega)]
    congr 1
    have e3 : (query.drop (i * sub)).drop sub = query.drop ((i + 1) * sub) := by
      rw [List.drop_drop]; congr 1; rw [Nat.add_mul]; omega
    rw [List.drop_eq_getElem_cons hi]
    simp only [picks, List.zipWith_cons_cons, List.flatten_cons, List.getD_eq_getElem?_getD,
      List.getElem?_eq_getElem hci, Option.getD_some]
    rw [sqDist_append, hcent, e3]
    ring

theorem fitTo_eq (d : Nat) (v : List F) : fitTo d v = fit d v := by
  apply List.ext_getElem?
  intro i
  unfold fitTo fit
  by_cases hi : i < d
  · rw [List.getElem?_map, List.getElem?_range hi]
    simp only [Option.map_some, List.getD_eq_getElem?_getD]
    split_ifs with h1 h2
    · rw [List.getElem?_take_of_lt hi, List.getElem?_eq_getElem (by omega)]; simp
    · by_cases hv : i < v.length
      · rw [List.getElem?_append_left hv, List.getElem?_eq_getElem hv]; simp
      · rw [List.getElem?_append_right (by omega), List.getElem?_replicate,
          if_pos (by omega), List.getElem?_eq_none (by omega)]
        simp
    · rw [List.getElem?_eq_getElem (by omega)]; simp
  · rw [List.getElem?_eq_none, List.getElem?_eq_none]
    · simp; omega
    · split_ifs <;> first | omega | (simp; omega)

/-- A quantiser whose fields describe the given codebook. -/
structure Ready (q : ProductQ F) (m k sub : Nat) (books : List (List (List F))) : Prop where
  inited : q.inited = true
  trained : q.trained = true
  hdim : q.dim = some (m * sub)
  hsub : q.sub = some sub
  hbooks : q.books = some books
  shape : BookShape m k sub books
  pos : 1 ≤ m

theorem Ready.quantize {q : ProductQ F} {m k sub : Nat} {books : List (List (List F))}
    (h : Ready q m k sub books) (hk : 1 ≤ k) (hk' : k ≤ 65536) (n : Nat) (Y : List (List F))
    (hY : Rect (m * sub) Y) :
    ∃ g : List F → List Nat, q.quantize (.mat n Y) = .ok (Y.map g) ∧
      ∀ y ∈ Y, (g y).length = m ∧ (∀ c ∈ g y, c < k) ∧
        ∀ parts, List.Forall₂ (fun p b => p ∈ b) parts books →
          sqDist y (picks (g y) books).flatten ≤ sqDist y parts.flatten := by
  obtain ⟨s1, s2⟩ := h.shape
  have hek : effK books = k := by
    unfold effK
    obtain ⟨b, bs, rfl⟩ := List.exists_cons_of_ne_nil (l := books) (by
      rintro rfl; have := h.pos; simp at s1; omega)
    exact (s2 b (by simp)).1
  have key : ∀ y ∈ Y, ∃ code, quantizeCells (effK books) sub y 0 books = .ok code ∧
      code.length = m ∧ (∀ c ∈ code, c < k) ∧
      ∀ parts, List.Forall₂ (fun p b => p ∈ b) parts books →
        sqDist y (picks code books).flatten ≤ sqDist y parts.flatten := by
    intro y hy
    obtain ⟨code, h1, h2, h3, h4⟩ := quantizeCells_spec k sub y hk hk' books 0 s2
      (by rw [hY y hy, s1]; simp)
    exact ⟨code, by rw [hek]; exact h1, by omega, h3, by simpa using h4⟩
  classical
  let g : List F → List Nat := fun y =>
    if hy : y ∈ Y then Classical.choose (key y hy) else []
  have hg : ∀ y (hy : y ∈ Y), g y = Classical.choose (key y hy) := fun y hy => by simp [g, hy]
  refine ⟨g, ?_, ?_⟩
  · have := mapE_ok (fun row => quantizeCells (effK books) sub row 0 books) g Y
      fun y hy => by rw [hg y hy]; exact (Classical.choose_spec (key y hy)).1
    simp only [ProductQ.quantize, h.inited, h.trained, h.hsub, h.hbooks, this, Bool.true_eq_false,
      if_false]
  · intro y hy
    rw [hg y hy]
    exact (Classical.choose_spec (key y hy)).2

theorem Ready.dequantize {q : ProductQ F} {m k sub : Nat} {books : List (List (List F))}
    (h : Ready q m k sub books) (n : Nat) (C : List (List Nat)) (hC : Rect m C)
    (hc : ∀ r ∈ C, ∀ c ∈ r, c < k) :
    q.dequantize (.mat n C) = .ok (C.map fun code => (picks code books).flatten) := by
  obtain ⟨s1, s2⟩ := h.shape
  have := mapE_ok (fun code => dequantizeCells sub code 0 books (List.replicate (m * sub) 0))
    (fun code => (picks code books).flatten) C fun code hcode => by
      rw [dequantizeCells_spec k sub code books 0 _ s2 (by rw [hC code hcode, s1]; simp)
        (hc code hcode) (by simp [s1])]
      simp
  simp only [ProductQ.dequantize, h.inited, h.trained, h.hsub, h.hbooks, h.hdim, this,
    Bool.true_eq_false, if_false]

theorem Ready.sqDistance {q : ProductQ F} {m k sub : Nat} {books : List (List (List F))}
    (h : Ready q m k sub books) (query : List F) (code : List Nat) (hl : code.length = m)
    (hc : ∀ c ∈ code, c < k) :
    q.sqDistance query code = .ok (sqDist (fit (m * sub) query) (picks code books).flatten) := by
  obtain ⟨s1, s2⟩ := h.shape
  have := distCells_spec k sub code books 0 (fitTo (m * sub) query) 0 s2 (by omega) hc
    (by rw [fitTo_eq]; simp [fit, s1])
  simp only [ProductQ.sqDistance, h.inited, h.trained, h.hsub, h.hbooks, h.hdim, this,
    Bool.true_eq_false, if_false]
  simp [fitTo_eq]

theorem picks_length (k sub : Nat) (code : List Nat) (books : List (List (List F)))
    (hl : code.length = books.length)
    (hs : ∀ b ∈ books, b.length = k ∧ ∀ c ∈ b, c.length = sub) (hc : ∀ c ∈ code, c < k) :
    (picks code books).flatten.length = books.length * sub := by
  induction code generalizing books with
  | nil => cases books with
    | nil => simp [picks]
    | cons => simp at hl
  | cons c code ih =>
    cases books with
    | nil => simp at hl
    | cons b bs =>
      have h1 := ih bs (by simpa using hl) (fun x hx => hs x (by simp [hx]))
        fun x hx => hc x (by simp [hx])
      obtain ⟨hb, hcb⟩ := hs b (by simp)
      have : c < b.length := by rw [hb]; exact hc c (by simp)
      have h2 := hcb _ (List.getElem_mem this)
      simp only [picks, List.zipWith_cons_cons, List.flatten_cons, List.length_append] at h1 ⊢
      rw [h1]
      simp [List.getElem?_eq_getElem this, h2, Nat.add_mul]
      omega

/-- What scikit-learn's KMeans is taken to do: it returns at most as many centres as asked for, of
the width of its input. -/
def KmeansOk (kmeans : Nat → Nat → List (List F) → Except Err (List (List F))) : Prop :=
  ∀ i ek w rows, Rect w rows → ∃ cs, kmeans i ek rows = .ok cs ∧ cs.length ≤ ek ∧ Rect w cs

theorem trainBook_spec {kmeans : Nat → Nat → List (List F) → Except Err (List (List F))}
    (hkm : KmeansOk kmeans) (ek sub i : Nat) (rows : List (List F)) (hek : 1 ≤ ek)
    (hr : ∀ r ∈ rows, (i + 1) * sub ≤ r.length) :
    ∃ b, trainBook kmeans ek sub i rows = .ok b ∧ b.length = ek ∧ ∀ c ∈ b, c.length = sub := by
  have hw : Rect sub (rows.map fun r => slice r (i * sub) ((i + 1) * sub)) := by
    intro r hr'
    obtain ⟨x, hx, rfl⟩ := List.mem_map.1 hr'
    have := hr x hx
    rw [slice_eq]
    rw [Nat.add_mul] at this
    simp; omega
  unfold trainBook
  simp only
  by_cases h1 : ek ≤ 1
  · obtain rfl : ek = 1 := by omega
    rw [if_pos h1, if_neg (by omega)]
    refine ⟨_, rfl, rfl, ?_⟩
    intro c hc
    obtain rfl := List.mem_singleton.1 hc
    unfold meanRow
    rw [List.length_map]
    exact foldl_zipWith_length _ sub _ _ (by simp) hw
  · rw [if_neg h1]
    obtain ⟨cs, e1, e2, e3⟩ := hkm i ek sub _ hw
    rw [e1]
    simp only
    rw [if_pos e2]
    refine ⟨_, rfl, by simp; omega, ?_⟩
    intro c hc
    rcases List.mem_append.1 hc with hc | hc
    · exact e3 c hc
    · rw [List.eq_of_mem_replicate hc]; simp

theorem trainBooks_spec {kmeans : Nat → Nat → List (List F) → Except Err (List (List F))}
    (hkm : KmeansOk kmeans) (ek sub m : Nat) (rows : List (List F)) (hek : 1 ≤ ek)
    (hr : Rect (m * sub) rows) (is : List Nat) (his : ∀ i ∈ is, i < m)
    (books : List (List (List F))) (hb : BookShape m ek sub books) :
    ∃ books', trainBooks kmeans ek sub rows is books = (.ok (), books') ∧
      BookShape m ek sub books' := by
  induction is generalizing books with
  | nil => exact ⟨books, rfl, hb⟩
  | cons i is ih =>
    have hi := his i (by simp)
    obtain ⟨b, h1, h2, h3⟩ := trainBook_spec hkm ek sub i rows hek (by
      intro r hr'
      rw [hr r hr']
      exact Nat.mul_le_mul_right _ (by omega))
    simp only [trainBooks, h1]
    refine ih (fun x hx => his x (by simp [hx])) _ ⟨by simp [hb.1], ?_⟩
    intro c hc
    rcases List.mem_or_eq_of_mem_set hc with hc | rfl
    · exact hb.2 c hc
    · exact ⟨h2, h3⟩

theorem train_ready {kmeans : Nat → Nat → List (List F) → Except Err (List (List F))}
    (hkm : KmeansOk kmeans) (q : ProductQ F) (hi : q.inited = true) (hm : 1 ≤ q.m) (hk : 1 ≤ q.k)
    (sub : Nat) (X : List (List F)) (hX : Rect (q.m * sub) X) :
    ∃ q' books, train kmeans q (.mat (q.m * sub) X) = (.ok (), q') ∧
      Ready q' q.m (min q.k (max 1 X.length)) sub books := by
  have hsub : q.m * sub / q.m = sub := Nat.mul_div_cancel_left _ (by omega)
  obtain ⟨books, h1, h2⟩ := trainBooks_spec hkm (min q.k (max 1 X.length)) sub q.m X (by omega) hX
    (List.range q.m) (fun i hi => List.mem_range.1 hi)
    (List.replicate q.m (List.replicate (min q.k (max 1 X.length)) (List.replicate sub 0)))
    ⟨by simp, fun b hb => by
      rw [List.eq_of_mem_replicate hb]
      exact ⟨by simp, fun c hc => by rw [List.eq_of_mem_replicate hc]; simp⟩⟩
  refine ⟨{ q with dim := some (q.m * sub), sub := some sub, books := some books, trained := true },
    books, ?_, ⟨hi, rfl, rfl, rfl, rfl, h2, hm⟩⟩
  unfold train
  rw [if_neg (by simp [hi])]
  simp only
  rw [if_neg (by omega), if_neg (by simp)]
  simp only [hsub, h1]

end ProductQ
end Valori
