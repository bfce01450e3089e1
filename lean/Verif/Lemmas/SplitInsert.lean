import Verif.Lemmas.Batch
import Verif.Lemmas.Dict
import Verif.Model.Hnsw
import Verif.Model.Ivf
import Verif.Model.Lsh
import Verif.Model.Annoy

/-!
# Lemmas on cutting an insert into pieces
-/

namespace Valori
open Spec

variable {σ V M I Q R : Type}

/-- Rows of all batches together. -/
theorem insertLoop_good (E : BatchEnv σ V M I Q R) (hP : ∀ a b, E.progress a b = .ok ()) (v : List V)
    (m : List M) (is : List Nat) (s s' : σ) (st : BStats) (ids : List I) (news : List (List I))
    (hc : Calls (fun s p => E.insert s p.1 p.2) s
        (is.map fun i => (batchAt v i E.batchSize, batchAt m i E.batchSize)) (news.map .ok) s') :
    insertLoop E v m is (s, st, ids) = (.ok (ids ++ news.flatten), s',
      ⟨st.total, st.processed + ((is.map fun i => batchAt v i E.batchSize).flatten).length,
        st.failed⟩) := by
  induction is generalizing s st ids news with
  | nil =>
    cases news with
    | nil => cases hc; simp [insertLoop]
    | cons _ _ => cases hc
  | cons i is ih =>
    cases news with
    | nil => cases hc
    | cons new news =>
      simp only [List.map_cons] at hc
      cases hc with
      | cons h t =>
        simp only at h
        unfold insertLoop
        simp only [h, hP]
        rw [ih _ _ _ _ t]
        simp [List.append_assoc, Nat.add_assoc]

/-- If an insert of all rows succeeds and can be cut in two, it can be cut into batches. -/
theorem batchInsert_same (E : BatchEnv σ V M I Q R) (hb : 0 < E.batchSize)
    (hP : ∀ a b, E.progress a b = .ok ()) (P : σ → List V → Prop)
    (hcut : ∀ s a b m l s', a ≠ [] → b ≠ [] → P s (a ++ b) → E.insert s (a ++ b) m = (.ok l, s') →
      ∃ l1 s1 l2, E.insert s a (m.take a.length) = (.ok l1, s1) ∧
        E.insert s1 b (m.drop a.length) = (.ok l2, s') ∧ l = l1 ++ l2 ∧ P s1 b)
    (hpad : ∀ s v m l s' n, v.length ≤ n → P s v → E.insert s v m = (.ok l, s') →
      E.insert s v (m.take n) = (.ok l, s'))
    (v : List V) (hv : v ≠ []) (m : List M) (s s' : σ) (l : List I) (hp : P s v)
    (h : E.insert s v m = (.ok l, s')) (st : BStats) :
    batchInsert E v m s st = (.ok l, s', ⟨v.length, st.processed + v.length, st.failed⟩) := by
  have key : ∀ n, ∀ v : List V, v.length = n → v ≠ [] → ∀ m s l, P s v →
      E.insert s v m = (.ok l, s') →
      ∃ news : List (List I), Calls (fun s p => E.insert s p.1 p.2) s (mkBatches E.batchSize v m)
        (news.map .ok) s' ∧ news.flatten = l := by
    intro n
    induction n using Nat.strong_induction_on with
    | _ n ih =>
      intro v hn hv m s l hp h
      rw [mkBatches_step _ hb v m hv]
      by_cases hd : v.drop E.batchSize = []
      · have hle : v.length ≤ E.batchSize := List.drop_eq_nil_iff.1 hd
        rw [hd, mkBatches_nil _ hb, List.take_of_length_le hle]
        exact ⟨[l], Calls.cons (hpad s v m l s' _ hle hp h) (Calls.nil _), by simp⟩
      · have hlt : E.batchSize < v.length := by
          by_contra hc
          exact hd (List.drop_eq_nil_iff.2 (by omega))
        have ht : (v.take E.batchSize).length = E.batchSize := by rw [List.length_take]; omega
        have hne : v.take E.batchSize ≠ [] := by
          intro h0; rw [h0] at ht; simp at ht; omega
        have hsp := List.take_append_drop E.batchSize v
        rw [← hsp] at hp h
        obtain ⟨l1, s1, l2, h1, h2, rfl, hp2⟩ := hcut s _ _ m l s' hne hd hp h
        rw [ht] at h1 h2
        obtain ⟨news, hc, rfl⟩ := ih (v.drop E.batchSize).length
          (by rw [List.length_drop]; omega) _ rfl hd _ s1 l2 hp2 h2
        exact ⟨l1 :: news, Calls.cons h1 hc, by simp⟩
  obtain ⟨news, hc, rfl⟩ := key _ v rfl hv m s l hp h
  unfold batchInsert
  rw [insertLoop_good E hP v m _ s s' _ _ news hc]
  have : ((starts v.length E.batchSize).map fun i => batchAt v i E.batchSize).flatten = v :=
    slices_flatten _ hb v
  rw [this]
  simp

/-! ## Metadata of rows -/

theorem rowMeta_some (m : List (Option M)) (i : Nat) : rowMeta (some m) i = (m[i]?).join := by
  unfold rowMeta
  cases m with
  | nil => simp
  | cons x m => simp only [List.isEmpty_cons]; cases (x :: m)[i]? <;> simp

/-! ## Flat -/

namespace Flat
variable {B : Backend σ V M}

theorem insertLoop_md (mds mds' : Option (List (Option M))) (rows : List (Id × V)) (i i' : Nat)
    (h : ∀ j, j < rows.length → rowMeta mds (i + j) = rowMeta mds' (i' + j)) (f : Flat V) (s : σ) :
    insertLoop B mds i rows f s = insertLoop B mds' i' rows f s := by
  induction rows generalizing i i' f s with
  | nil => rfl
  | cons r rows ih =>
    obtain ⟨id, v⟩ := r
    have h0 := h 0 (by simp)
    simp only [Nat.add_zero] at h0
    unfold insertLoop
    rw [h0]
    have hr : ∀ f s, insertLoop B mds (i + 1) rows f s = insertLoop B mds' (i' + 1) rows f s :=
      fun f s => ih (i + 1) (i' + 1) (fun j hj => by
        have := h (j + 1) (by simpa using hj)
        rw [show i + 1 + j = i + (j + 1) by omega, show i' + 1 + j = i' + (j + 1) by omega]
        exact this) f s
    simp only [hr]

theorem insertLoop_append (mds : Option (List (Option M))) (a b : List (Id × V)) (i : Nat)
    (f f' : Flat V) (s s' : σ) (l : List Id)
    (h : insertLoop B mds i (a ++ b) f s = (.ok l, f', s')) :
    ∃ l1 f1 s1 l2, insertLoop B mds i a f s = (.ok l1, f1, s1) ∧
      insertLoop B mds (i + a.length) b f1 s1 = (.ok l2, f', s') ∧ l = l1 ++ l2 := by
  induction a generalizing i f s l with
  | nil => exact ⟨[], f, s, l, rfl, by simpa using h, rfl⟩
  | cons r a ih =>
    obtain ⟨id, v⟩ := r
    simp only [List.cons_append] at h
    unfold insertLoop at h
    rcases hs : B.store s id v (rowMeta mds i) with ⟨r, s0⟩
    cases r with
    | error e => simp [hs] at h
    | ok u =>
      simp only [hs] at h
      rcases hl : insertLoop B mds (i + 1) (a ++ b)
        { f with ids := f.ids ++ [id], cache := f.cache.set id v } s0 with ⟨r, t⟩
      cases r with
      | error e => simp [hl] at h
      | ok l' =>
        obtain ⟨t1, t2⟩ := t
        simp only [hl, Prod.mk.injEq, Except.ok.injEq] at h
        obtain ⟨rfl, rfl, rfl⟩ := h
        obtain ⟨l1, f1, s1, l2, h1, h2, rfl⟩ := ih _ _ _ _ hl
        refine ⟨id :: l1, f1, s1, l2, ?_, ?_, rfl⟩
        · rw [insertLoop]; simp only [hs, h1]
        · rw [List.length_cons, show i + (a.length + 1) = i + 1 + a.length by omega]; exact h2

/-- The row loop does not look at the reported count. -/
theorem insertLoop_count (mds : Option (List (Option M))) (rows : List (Id × V)) (i n : Nat)
    (f : Flat V) (s : σ) :
    insertLoop B mds i rows { f with count := n } s =
      ((insertLoop B mds i rows f s).1,
        { (insertLoop B mds i rows f s).2.1 with count := n }, (insertLoop B mds i rows f s).2.2) := by
  induction rows generalizing i f s with
  | nil => rfl
  | cons r rows ih =>
    obtain ⟨id, v⟩ := r
    unfold insertLoop
    rcases hs : B.store s id v (rowMeta mds i) with ⟨r, s0⟩
    cases r with
    | error e => simp [hs]
    | ok u =>
      simp only
      have := ih (i + 1) { f with ids := f.ids ++ [id], cache := f.cache.set id v } s0
      simp only at this
      rw [this]
      rcases insertLoop B mds (i + 1) rows
        { f with ids := f.ids ++ [id], cache := f.cache.set id v } s0 with ⟨r, t1, t2⟩
      cases r <;> rfl

theorem insertLoop_inited (mds : Option (List (Option M))) (rows : List (Id × V)) (i : Nat)
    (f : Flat V) (s : σ) : (insertLoop B mds i rows f s).2.1.inited = f.inited := by
  induction rows generalizing i f s with
  | nil => rfl
  | cons r rows ih =>
    obtain ⟨id, v⟩ := r
    unfold insertLoop
    rcases hs : B.store s id v (rowMeta mds i) with ⟨r, s0⟩
    cases r with
    | error e => rfl
    | ok u =>
      simp only
      have := ih (i + 1) { f with ids := f.ids ++ [id], cache := f.cache.set id v } s0
      rcases hq : insertLoop B mds (i + 1) rows
        { f with ids := f.ids ++ [id], cache := f.cache.set id v } s0 with ⟨r, t1, t2⟩
      rw [hq] at this
      cases r <;> exact this

theorem insert_ok {nd : Nat} {rows : List (Id × V)} {mds : Option (List (Option M))} {f f' : Flat V}
    {s s' : σ} {l : List Id} (h : insert B nd rows mds f s = (.ok l, f', s')) :
    f.inited = true ∧ nd = 2 ∧ ∃ f1, insertLoop B mds 0 rows f s = (.ok l, f1, s') ∧
      f' = { f1 with count := f1.ids.length } := by
  unfold insert at h
  by_cases hi : f.inited = true
  · by_cases hn : nd = 2
    · simp only [hi, hn, Bool.not_true, Bool.false_eq_true, if_false, ne_eq, not_true_eq_false] at h
      rcases hl : insertLoop B mds 0 rows f s with ⟨r, f1, s1⟩
      cases r with
      | error e => simp [hl] at h
      | ok l' =>
        simp only [hl, Prod.mk.injEq, Except.ok.injEq] at h
        obtain ⟨rfl, rfl, rfl⟩ := h
        exact ⟨hi, hn, f1, rfl, rfl⟩
    · simp [hi, hn] at h
  · simp [hi] at h

theorem insert_of_loop {rows : List (Id × V)} {mds : Option (List (Option M))} {f f1 : Flat V}
    {s s' : σ} {l : List Id} (hi : f.inited = true)
    (h : insertLoop B mds 0 rows f s = (.ok l, f1, s')) :
    insert B 2 rows mds f s = (.ok l, { f1 with count := f1.ids.length }, s') := by
  unfold insert
  simp [hi, h]

theorem insert_cut (a b : List (Id × V)) (m : List (Option M)) (f f' : Flat V) (s s' : σ)
    (l : List Id) (h : insert B 2 (a ++ b) (some m) f s = (.ok l, f', s')) :
    ∃ l1 t1 l2, insert B 2 a (some (m.take a.length)) f s = (.ok l1, t1) ∧
      insert B 2 b (some (m.drop a.length)) t1.1 t1.2 = (.ok l2, f', s') ∧ l = l1 ++ l2 := by
  obtain ⟨hi, -, f1, hl, rfl⟩ := insert_ok h
  obtain ⟨l1, g1, s1, l2, h1, h2, rfl⟩ := insertLoop_append _ a b 0 f f1 s s' l hl
  have e1 : insertLoop B (some m) 0 a f s = insertLoop B (some (m.take a.length)) 0 a f s :=
    insertLoop_md _ _ a 0 0 (fun j hj => by
      rw [rowMeta_some, rowMeta_some, List.getElem?_take, if_pos (by omega)]) f s
  have e2 : ∀ g s, insertLoop B (some m) (0 + a.length) b g s =
      insertLoop B (some (m.drop a.length)) 0 b g s := fun g s =>
    insertLoop_md _ _ b _ 0 (fun j hj => by
      rw [rowMeta_some, rowMeta_some, List.getElem?_drop, Nat.zero_add, Nat.zero_add]) g s
  rw [e1] at h1
  rw [e2] at h2
  have hg : g1.inited = true := by
    have := insertLoop_inited (B := B) (some (m.take a.length)) a 0 f s
    rw [h1] at this
    exact this.trans hi
  refine ⟨l1, _, l2, insert_of_loop hi h1, ?_, rfl⟩
  have := insertLoop_count (B := B) (some (m.drop a.length)) b 0 g1.ids.length g1 s1
  rw [h2] at this
  simpa using insert_of_loop (f := { g1 with count := g1.ids.length })
    (f1 := { f1 with count := g1.ids.length }) hg this

theorem insert_pad (v : List (Id × V)) (m : List (Option M)) (n : Nat) (hn : v.length ≤ n) (f : Flat V)
    (s : σ) : insert B 2 v (some (m.take n)) f s = insert B 2 v (some m) f s := by
  unfold insert
  have e1 : insertLoop B (some m) 0 v f s = insertLoop B (some (m.take n)) 0 v f s :=
    insertLoop_md _ _ v 0 0 (fun j hj => by
      rw [rowMeta_some, rowMeta_some, List.getElem?_take, if_pos (by omega)]) f s
  rw [e1]

end Flat

/-! ## HNSW -/

namespace Hnsw
variable {D : Type} {env : HnswEnv V D} {B : Backend σ V M}

theorem insertLoop_md (mds mds' : Option (List (Option M))) (rows : List (Id × V)) (i i' : Nat)
    (h : ∀ j, j < rows.length → rowMeta mds (i + j) = rowMeta mds' (i' + j)) (f : Hnsw V) (s : σ) :
    insertLoop env B mds i rows f s = insertLoop env B mds' i' rows f s := by
  induction rows generalizing i i' f s with
  | nil => rfl
  | cons r rows ih =>
    obtain ⟨id, v⟩ := r
    have h0 := h 0 (by simp)
    simp only [Nat.add_zero] at h0
    unfold insertLoop
    rw [h0]
    have hr : ∀ f s, insertLoop env B mds (i + 1) rows f s = insertLoop env B mds' (i' + 1) rows f s :=
      fun f s => ih (i + 1) (i' + 1) (fun j hj => by
        have := h (j + 1) (by simpa using hj)
        rw [show i + 1 + j = i + (j + 1) by omega, show i' + 1 + j = i' + (j + 1) by omega]
        exact this) f s
    simp only [hr]

theorem insertLoop_append (mds : Option (List (Option M))) (a b : List (Id × V)) (i : Nat)
    (f f' : Hnsw V) (s s' : σ) (l : List Id)
    (h : insertLoop env B mds i (a ++ b) f s = (.ok l, f', s')) :
    ∃ l1 f1 s1 l2, insertLoop env B mds i a f s = (.ok l1, f1, s1) ∧
      insertLoop env B mds (i + a.length) b f1 s1 = (.ok l2, f', s') ∧ l = l1 ++ l2 ∧
      f1.inited = f.inited := by
  induction a generalizing i f s l with
  | nil => exact ⟨[], f, s, l, rfl, by simpa using h, rfl, rfl⟩
  | cons r a ih =>
    obtain ⟨id, v⟩ := r
    simp only [List.cons_append] at h
    unfold insertLoop at h
    rcases hs : B.store s id v (rowMeta mds i) with ⟨r, s0⟩
    cases r with
    | error e => simp [hs] at h
    | ok u =>
      simp only [hs] at h
      rcases hl : insertLoop env B mds (i + 1) (a ++ b) (insertInternal env id v f) s0 with ⟨r, t⟩
      cases r with
      | error e => simp [hl] at h
      | ok l' =>
        obtain ⟨t1, t2⟩ := t
        simp only [hl, Prod.mk.injEq, Except.ok.injEq] at h
        obtain ⟨rfl, rfl, rfl⟩ := h
        obtain ⟨l1, f1, s1, l2, h1, h2, rfl, hi⟩ := ih _ _ _ _ hl
        refine ⟨id :: l1, f1, s1, l2, ?_, ?_, rfl, hi⟩
        · rw [insertLoop]; simp only [hs, h1]
        · rw [List.length_cons, show i + (a.length + 1) = i + 1 + a.length by omega]; exact h2

theorem insert_ok {nd : Nat} {rows : List (Id × V)} {mds : Option (List (Option M))} {f f' : Hnsw V}
    {s s' : σ} {l : List Id} (h : insert env B nd rows mds f s = (.ok l, f', s')) :
    f.inited = true ∧ nd = 2 ∧ insertLoop env B mds 0 rows f s = (.ok l, f', s') := by
  unfold insert at h
  by_cases hi : f.inited = true
  · by_cases hn : nd = 2
    · simp only [hi, hn, Bool.not_true, Bool.false_eq_true, if_false, ne_eq, not_true_eq_false] at h
      rcases hl : insertLoop env B mds 0 rows f s with ⟨r, f1, s1⟩
      cases r with
      | error e => simp [hl] at h
      | ok l' =>
        simp only [hl] at h
        exact ⟨hi, hn, h⟩
    · simp [hi, hn] at h
  · simp [hi] at h

theorem insert_of_loop {rows : List (Id × V)} {mds : Option (List (Option M))} {f f1 : Hnsw V}
    {s s' : σ} {l : List Id} (hi : f.inited = true)
    (h : insertLoop env B mds 0 rows f s = (.ok l, f1, s')) :
    insert env B 2 rows mds f s = (.ok l, f1, s') := by
  unfold insert
  simp [hi, h]

theorem insert_cut (a b : List (Id × V)) (m : List (Option M)) (f f' : Hnsw V) (s s' : σ)
    (l : List Id) (h : insert env B 2 (a ++ b) (some m) f s = (.ok l, f', s')) :
    ∃ l1 t1 l2, insert env B 2 a (some (m.take a.length)) f s = (.ok l1, t1) ∧
      insert env B 2 b (some (m.drop a.length)) t1.1 t1.2 = (.ok l2, f', s') ∧ l = l1 ++ l2 := by
  obtain ⟨hi, -, hl⟩ := insert_ok h
  obtain ⟨l1, g1, s1, l2, h1, h2, rfl, hg⟩ := insertLoop_append _ a b 0 f f' s s' l hl
  have e1 : insertLoop env B (some m) 0 a f s = insertLoop env B (some (m.take a.length)) 0 a f s :=
    insertLoop_md _ _ a 0 0 (fun j hj => by
      rw [rowMeta_some, rowMeta_some, List.getElem?_take, if_pos (by omega)]) f s
  have e2 : ∀ g s, insertLoop env B (some m) (0 + a.length) b g s =
      insertLoop env B (some (m.drop a.length)) 0 b g s := fun g s =>
    insertLoop_md _ _ b _ 0 (fun j hj => by
      rw [rowMeta_some, rowMeta_some, List.getElem?_drop, Nat.zero_add, Nat.zero_add]) g s
  rw [e1] at h1
  rw [e2] at h2
  exact ⟨l1, _, l2, insert_of_loop hi h1, insert_of_loop (hg.trans hi) h2, rfl⟩

theorem insert_pad (v : List (Id × V)) (m : List (Option M)) (n : Nat) (hn : v.length ≤ n) (f : Hnsw V)
    (s : σ) : insert env B 2 v (some (m.take n)) f s = insert env B 2 v (some m) f s := by
  unfold insert
  have e1 : insertLoop env B (some m) 0 v f s = insertLoop env B (some (m.take n)) 0 v f s :=
    insertLoop_md _ _ v 0 0 (fun j hj => by
      rw [rowMeta_some, rowMeta_some, List.getElem?_take, if_pos (by omega)]) f s
  rw [e1]

end Hnsw

/-! ## IVF -/

namespace Ivf
variable {D : Type} [LinearOrder D] {env : IvfEnv V D} {B : Backend σ V M}

omit [LinearOrder D] in
theorem insertLoop_md (mds mds' : Option (List (Option M))) (rows : List (Id × V)) (i i' : Nat)
    (h : ∀ j, j < rows.length → rowMeta mds (i + j) = rowMeta mds' (i' + j)) (f : Ivf V) (s : σ) :
    insertLoop B mds i rows f s = insertLoop B mds' i' rows f s := by
  induction rows generalizing i i' f s with
  | nil => rfl
  | cons r rows ih =>
    obtain ⟨id, v⟩ := r
    have h0 := h 0 (by simp)
    simp only [Nat.add_zero] at h0
    unfold insertLoop
    rw [h0]
    have hr : ∀ f s, insertLoop B mds (i + 1) rows f s = insertLoop B mds' (i' + 1) rows f s :=
      fun f s => ih (i + 1) (i' + 1) (fun j hj => by
        have := h (j + 1) (by simpa using hj)
        rw [show i + 1 + j = i + (j + 1) by omega, show i' + 1 + j = i' + (j + 1) by omega]
        exact this) f s
    simp only [hr]

omit [LinearOrder D] in
theorem insertLoop_append (mds : Option (List (Option M))) (a b : List (Id × V)) (i : Nat)
    (f f' : Ivf V) (s s' : σ) (l : List Id)
    (h : insertLoop B mds i (a ++ b) f s = (.ok l, f', s')) :
    ∃ l1 f1 s1 l2, insertLoop B mds i a f s = (.ok l1, f1, s1) ∧
      insertLoop B mds (i + a.length) b f1 s1 = (.ok l2, f', s') ∧ l = l1 ++ l2 := by
  induction a generalizing i f s l with
  | nil => exact ⟨[], f, s, l, rfl, by simpa using h, rfl⟩
  | cons r a ih =>
    obtain ⟨id, v⟩ := r
    simp only [List.cons_append] at h
    unfold insertLoop at h
    rcases hs : B.store s id v (rowMeta mds i) with ⟨r, s0⟩
    cases r with
    | error e => simp [hs] at h
    | ok u =>
      simp only [hs] at h
      rcases hl : insertLoop B mds (i + 1) (a ++ b)
        { f with ids := f.ids ++ [id], cache := f.cache.set id v } s0 with ⟨r, t⟩
      cases r with
      | error e => simp [hl] at h
      | ok l' =>
        obtain ⟨t1, t2⟩ := t
        simp only [hl, Prod.mk.injEq, Except.ok.injEq] at h
        obtain ⟨rfl, rfl, rfl⟩ := h
        obtain ⟨l1, f1, s1, l2, h1, h2, rfl⟩ := ih _ _ _ _ hl
        refine ⟨id :: l1, f1, s1, l2, ?_, ?_, rfl⟩
        · rw [insertLoop]; simp only [hs, h1]
        · rw [List.length_cons, show i + (a.length + 1) = i + 1 + a.length by omega]; exact h2

omit [LinearOrder D] in
/-- The row loop touches neither the clusters nor the reported count, and does not look at them. -/
theorem insertLoop_other (mds : Option (List (Option M))) (rows : List (Id × V)) (i n : Nat)
    (cl : Dict Nat (List Id)) (f : Ivf V) (s : σ) :
    insertLoop B mds i rows { f with count := n, clusters := cl } s =
      ((insertLoop B mds i rows f s).1,
        { (insertLoop B mds i rows f s).2.1 with count := n, clusters := cl },
        (insertLoop B mds i rows f s).2.2) := by
  induction rows generalizing i f s with
  | nil => rfl
  | cons r rows ih =>
    obtain ⟨id, v⟩ := r
    unfold insertLoop
    rcases hs : B.store s id v (rowMeta mds i) with ⟨r, s0⟩
    cases r with
    | error e => simp [hs]
    | ok u =>
      simp only
      have := ih (i + 1) { f with ids := f.ids ++ [id], cache := f.cache.set id v } s0
      simp only at this
      rw [this]
      rcases insertLoop B mds (i + 1) rows
        { f with ids := f.ids ++ [id], cache := f.cache.set id v } s0 with ⟨r, t1, t2⟩
      cases r <;> rfl

omit [LinearOrder D] in
theorem insertLoop_keeps (mds : Option (List (Option M))) (rows : List (Id × V)) (i : Nat)
    (f f' : Ivf V) (s s' : σ) (l : List Id)
    (h : insertLoop B mds i rows f s = (.ok l, f', s')) :
    f'.cents = f.cents ∧ f'.clusters = f.clusters ∧ f'.trained = f.trained ∧
    f'.inited = f.inited ∧ f'.ids.length = f.ids.length + rows.length ∧ l = rows.map Prod.fst ∧
    ∀ id, id ∉ rows.map Prod.fst → f'.cache.get? id = f.cache.get? id := by
  induction rows generalizing i f s l with
  | nil =>
    simp only [insertLoop, Prod.mk.injEq, Except.ok.injEq] at h
    obtain ⟨rfl, rfl, rfl⟩ := h
    simp
  | cons r rows ih =>
    obtain ⟨id, v⟩ := r
    unfold insertLoop at h
    rcases hs : B.store s id v (rowMeta mds i) with ⟨r, s0⟩
    cases r with
    | error e => simp [hs] at h
    | ok u =>
      simp only [hs] at h
      rcases hl : insertLoop B mds (i + 1) rows
        { f with ids := f.ids ++ [id], cache := f.cache.set id v } s0 with ⟨r, t⟩
      cases r with
      | error e => simp [hl] at h
      | ok l' =>
        obtain ⟨t1, t2⟩ := t
        simp only [hl, Prod.mk.injEq, Except.ok.injEq] at h
        obtain ⟨rfl, rfl, rfl⟩ := h
        obtain ⟨h1, h2, h3, h4, h5, h6, h7⟩ := ih _ _ _ _ hl
        refine ⟨h1, h2, h3, h4, ?_, ?_, ?_⟩
        · rw [h5]; simp only [List.length_append, List.length_cons, List.length_nil]; omega
        · rw [h6]; rfl
        · intro x hx
          simp only [List.map_cons, List.mem_cons, not_or] at hx
          rw [h7 x hx.2]
          rw [Dict.get?_set, if_neg hx.1]

theorem addLoop_append (a b : List Id) (f f' : Ivf V)
    (h : addLoop env (a ++ b) f = (.ok (), f')) :
    ∃ f1, addLoop env a f = (.ok (), f1) ∧ addLoop env b f1 = (.ok (), f') := by
  induction a generalizing f with
  | nil => exact ⟨f, rfl, h⟩
  | cons id a ih =>
    simp only [List.cons_append] at h
    unfold addLoop at h
    rw [addLoop]
    cases hc : f.cache.get? id with
    | none => simp [hc] at h
    | some v =>
      simp only [hc] at h ⊢
      cases ha : addToCluster env id v f with
      | error e => simp [ha] at h
      | ok f1 =>
        simp only [ha] at h ⊢
        exact ih f1 h

theorem addToCluster_local (id : Id) (v : V) (f f1 : Ivf V) (ha : addToCluster env id v f = .ok f1) :
    f1 = { f with clusters := f1.clusters } ∧
      ∀ g : Ivf V, g.trained = f.trained → g.cents = f.cents → g.clusters = f.clusters →
        addToCluster env id v g = .ok { g with clusters := f1.clusters } := by
  obtain ⟨cents, clusters, ids, cache, count, trained, inited⟩ := f
  refine ⟨?_, ?_⟩
  · unfold addToCluster at ha
    simp only at ha
    split at ha
    · split at ha
      · cases ha
      · cases ha; rfl
    · cases ha; rfl
  · intro g h1 h2 h3
    obtain ⟨gcents, gclusters, gids, gcache, gcount, gtrained, ginited⟩ := g
    simp only at h1 h2 h3
    subst h1 h2 h3
    unfold addToCluster at ha ⊢
    simp only at ha ⊢
    split at ha
    · split at ha
      · cases ha
      · rename_i h; cases ha; simp only [h]
    · cases ha; rfl

/-- Adding to clusters changes the clusters only, and looks at the cache for the ids only. -/
theorem addLoop_local (l : List Id) (f f' : Ivf V) (h : addLoop env l f = (.ok (), f')) :
    f' = { f with clusters := f'.clusters } ∧
    ∀ g : Ivf V, g.trained = f.trained → g.cents = f.cents → g.clusters = f.clusters →
      (∀ id ∈ l, g.cache.get? id = f.cache.get? id) →
      addLoop env l g = (.ok (), { g with clusters := f'.clusters }) := by
  induction l generalizing f with
  | nil =>
    simp only [addLoop, Prod.mk.injEq, true_and] at h
    subst h
    refine ⟨rfl, ?_⟩
    intro g _ _ hc _
    rw [addLoop, ← hc]
  | cons id l ih =>
    unfold addLoop at h
    cases hc : f.cache.get? id with
    | none => simp [hc] at h
    | some v =>
      simp only [hc] at h
      cases ha : addToCluster env id v f with
      | error e => simp [ha] at h
      | ok f1 =>
        simp only [ha] at h
        have hf1 : f1 = { f with clusters := f1.clusters } ∧
            ∀ g : Ivf V, g.trained = f.trained → g.cents = f.cents → g.clusters = f.clusters →
              addToCluster env id v g = .ok { g with clusters := f1.clusters } := by
          exact addToCluster_local id v f f1 ha
        obtain ⟨e1, hg⟩ := hf1
        have hct : f1.trained = f.trained ∧ f1.cents = f.cents ∧ f1.cache = f.cache := by
          rw [e1]; exact ⟨rfl, rfl, rfl⟩
        obtain ⟨i1, i2⟩ := ih f1 h
        refine ⟨?_, ?_⟩
        · rw [i1, e1]
        · intro g h1 h2 h3 h4
          unfold addLoop
          rw [h4 id (by simp), hc]
          simp only [hg g h1 h2 h3]
          rw [i2 { g with clusters := f1.clusters } (h1.trans hct.1.symm) (h2.trans hct.2.1.symm) rfl
            (fun x hx => by rw [hct.2.2]; exact h4 x (by simp [hx]))]

/-- The insert that will not train: either trained already or too few vectors. -/
def NoTraining (env : IvfEnv V D) (f : Ivf V) (rows : List (Id × V)) : Prop :=
  f.trained = true ∨ ((f.ids.length + rows.length : Nat) : Int) < env.nClusters

theorem insert_noTraining {rows : List (Id × V)} {mds : Option (List (Option M))} {f f1 : Ivf V}
    {s s1 : σ} {l : List Id} (hi : f.inited = true) (hn : NoTraining env f rows)
    (hl : insertLoop B mds 0 rows f s = (.ok l, f1, s1)) :
    insert env B 2 rows mds f s =
      if f.trained = true then
        match addLoop env l { f1 with count := f1.ids.length } with
        | (.ok _, f3) => (.ok l, f3, s1)
        | (.error _, f3) => (.error .index, f3, s1)
      else (.ok l, { f1 with count := f1.ids.length }, s1) := by
  obtain ⟨-, -, k3, -, k5, -, -⟩ := insertLoop_keeps _ _ _ _ _ _ _ _ hl
  unfold insert
  simp only [hi, Bool.not_true, Bool.false_eq_true, if_false, ne_eq, not_true_eq_false, hl]
  rcases hn with ht | hlt
  · simp only [k3, ht, Bool.true_eq_false, and_false, if_false, if_true]
    rfl
  · have : ¬ (env.nClusters ≤ (f1.ids.length : Int)) := by rw [k5]; omega
    simp only [this, false_and, if_false, k3]
    rfl

theorem insert_cut (a b : List (Id × V)) (m : List (Option M)) (f f' : Ivf V) (s s' : σ)
    (l : List Id) (hnd : ((a ++ b).map Prod.fst).Nodup) (hn : NoTraining env f (a ++ b))
    (h : insert env B 2 (a ++ b) (some m) f s = (.ok l, f', s')) :
    ∃ l1 t1 l2, insert env B 2 a (some (m.take a.length)) f s = (.ok l1, t1) ∧
      insert env B 2 b (some (m.drop a.length)) t1.1 t1.2 = (.ok l2, f', s') ∧ l = l1 ++ l2 ∧
      NoTraining env t1.1 b := by
  have hi : f.inited = true := by
    by_contra hc
    rw [Bool.not_eq_true] at hc
    simp [insert, hc] at h
  rcases hl : insertLoop B (some m) 0 (a ++ b) f s with ⟨r, F, sF⟩
  cases r with
  | error e => simp [insert, hi, hl] at h
  | ok L =>
    rw [insert_noTraining hi hn hl] at h
    obtain ⟨l1, g1, s1, l2, h1, h2, rfl⟩ := insertLoop_append _ a b 0 f F s sF L hl
    have e1 : insertLoop B (some m) 0 a f s = insertLoop B (some (m.take a.length)) 0 a f s :=
      insertLoop_md _ _ a 0 0 (fun j hj => by
        rw [rowMeta_some, rowMeta_some, List.getElem?_take, if_pos (by omega)]) f s
    have e2 : ∀ g s, insertLoop B (some m) (0 + a.length) b g s =
        insertLoop B (some (m.drop a.length)) 0 b g s := fun g s =>
      insertLoop_md _ _ b _ 0 (fun j hj => by
        rw [rowMeta_some, rowMeta_some, List.getElem?_drop, Nat.zero_add, Nat.zero_add]) g s
    rw [e1] at h1
    rw [e2] at h2
    obtain ⟨a1, a2, a3, a4, a5, a6, -⟩ := insertLoop_keeps _ _ _ _ _ _ _ _ h1
    obtain ⟨b1, b2, b3, b4, b5, b6, b7⟩ := insertLoop_keeps _ _ _ _ _ _ _ _ h2
    have hna : NoTraining env f a := by
      rcases hn with ht | hlt
      · exact .inl ht
      · right; rw [List.length_append] at hlt; omega
    have hnb : ∀ cl n, NoTraining env { g1 with count := n, clusters := cl } b := by
      intro cl n
      rcases hn with ht | hlt
      · left; exact a3.trans ht
      · right
        simp only
        rw [a5]; rw [List.length_append] at hlt; omega
    have loop2 := fun cl n => insertLoop_other (B := B) (some (m.drop a.length)) b 0 n cl g1 s1
    simp only [h2] at loop2
    have ins1 := insert_noTraining hi hna h1
    by_cases ht : f.trained = true
    · rw [if_pos ht] at h ins1
      rcases hA : addLoop env (l1 ++ l2) { F with count := F.ids.length } with ⟨r, f3⟩
      cases r with
      | error e => simp [hA] at h
      | ok u =>
        simp only [hA, Prod.mk.injEq, Except.ok.injEq] at h
        obtain ⟨rfl, rfl, rfl⟩ := h
        obtain ⟨F1, A1, A2⟩ := addLoop_append l1 l2 _ _ hA
        obtain ⟨c1, c2⟩ := addLoop_local _ _ _ A1
        have G1 := c2 { g1 with count := g1.ids.length } b3.symm b1.symm b2.symm (fun id hid => by
          refine (b7 id ?_).symm
          rw [a6] at hid
          rw [List.map_append, List.nodup_append] at hnd
          intro hb
          exact hnd.2.2 id hid id hb rfl)
        rw [G1] at ins1
        refine ⟨l1, _, l2, ins1, ?_, rfl, hnb _ _⟩
        have ins2 := insert_noTraining (env := env)
          (f := { g1 with count := g1.ids.length, clusters := F1.clusters })
          (a4.trans hi) (hnb _ _) (loop2 F1.clusters g1.ids.length)
        rw [ins2, if_pos (a3.trans ht)]
        have : ({ F with count := F.ids.length, clusters := F1.clusters } : Ivf V) = F1 := by
          rw [c1]
        simp only [this, A2]
    · rw [if_neg ht] at h ins1
      simp only [Prod.mk.injEq, Except.ok.injEq] at h
      obtain ⟨rfl, rfl, rfl⟩ := h
      refine ⟨l1, _, l2, ins1, ?_, rfl, ?_⟩
      · have ins2 := insert_noTraining (env := env)
          (f := { g1 with count := g1.ids.length, clusters := g1.clusters })
          (a4.trans hi) (hnb _ _) (loop2 g1.clusters g1.ids.length)
        have hg : ¬ ({ g1 with count := g1.ids.length, clusters := g1.clusters } : Ivf V).trained = true := by
          simp only [a3]; exact ht
        rw [if_neg hg] at ins2
        refine ins2.trans ?_
        simp only [← b2]
      · exact hnb g1.clusters _

theorem insert_pad (v : List (Id × V)) (m : List (Option M)) (n : Nat) (hn : v.length ≤ n) (f : Ivf V)
    (s : σ) : insert env B 2 v (some (m.take n)) f s = insert env B 2 v (some m) f s := by
  unfold insert
  have e1 : insertLoop B (some m) 0 v f s = insertLoop B (some (m.take n)) 0 v f s :=
    insertLoop_md _ _ v 0 0 (fun j hj => by
      rw [rowMeta_some, rowMeta_some, List.getElem?_take, if_pos (by omega)]) f s
  rw [e1]

end Ivf

/-! ## LSH -/

namespace Lsh
variable {S : Type} {env : LshEnv V S M}

theorem addLoop_append (a b : List (V × Option M)) (f f' : Lsh V M) (l : List Nat)
    (h : addLoop env (a ++ b) f = (.ok l, f')) :
    ∃ l1 f1 l2, addLoop env a f = (.ok l1, f1) ∧ addLoop env b f1 = (.ok l2, f') ∧ l = l1 ++ l2 ∧
      f1.inited = f.inited ∧ f1.dimension = f.dimension := by
  induction a generalizing f l with
  | nil => exact ⟨[], f, l, rfl, h, rfl, rfl, rfl⟩
  | cons r a ih =>
    obtain ⟨v, md⟩ := r
    simp only [List.cons_append] at h
    unfold addLoop at h
    cases md with
    | none => simp at h
    | some md =>
      rw [addLoop]
      cases hcodes : hashVector env ⟨f.tables, f.dimension, f.vectors ++ [some v],
          f.metadata ++ [some md], f.nextId + 1, f.inited⟩ v with
      | error e => simp [hcodes] at h
      | ok codes =>
        simp only [hcodes] at h ⊢
        split at h
        · simp at h
        · rename_i ids g hl
          simp only [Prod.mk.injEq, Except.ok.injEq] at h
          obtain ⟨rfl, rfl⟩ := h
          obtain ⟨l1, f1, l2, h1, h2, rfl, hi, hd⟩ := ih _ _ hl
          exact ⟨f.nextId :: l1, f1, l2, by rw [h1], h2, rfl, hi, hd⟩

/-- The index once it knows its dimension. -/
def sized (cols : Nat) (f : Lsh V M) : Lsh V M :=
  match f.dimension with
  | none => { f with dimension := some cols }
  | some _ => f

theorem add_eq (nd cols : Nat) (rows : List V) (mds : List (Option M)) (f : Lsh V M) :
    add env nd cols rows mds f =
      if !f.inited then (.error .index, f)
      else if rows.length ≠ mds.length then (.error .index, f)
      else if nd < 2 then (.error .indexRange, f)
      else if (sized cols f).dimension ≠ some cols then (.error .index, sized cols f)
      else if !(rows.all fun v => decide (nd = 2) && valid env cols v) then
        (.error .validation, sized cols f)
      else addLoop env (rows.zip mds) (sized cols f) := rfl

/-- A successful call of `add`. -/
theorem add_ok {nd cols : Nat} {rows : List V} {mds : List (Option M)} {f f' : Lsh V M}
    {l : List Nat} (h : add env nd cols rows mds f = (.ok l, f')) :
    f.inited = true ∧ rows.length = mds.length ∧ 2 ≤ nd ∧ (sized cols f).dimension = some cols ∧
    (∀ v ∈ rows, nd = 2 ∧ valid env cols v = true) ∧
    addLoop env (rows.zip mds) (sized cols f) = (.ok l, f') := by
  rw [add_eq] at h
  split at h
  · simp at h
  split at h
  · simp at h
  split at h
  · simp at h
  split at h
  · simp at h
  split at h
  · simp at h
  rename_i h1 h2 h3 h4 h5
  refine ⟨by simpa using h1, by simpa using h2, by omega, by simpa using h4, by simpa using h5, h⟩

theorem add_of_loop {cols : Nat} {rows : List V} {mds : List (Option M)} {f f' : Lsh V M}
    {l : List Nat} (hi : f.inited = true) (hlen : rows.length = mds.length)
    (hd : (sized cols f).dimension = some cols)
    (hv : ∀ v ∈ rows, valid env cols v = true)
    (h : addLoop env (rows.zip mds) (sized cols f) = (.ok l, f')) :
    add env 2 cols rows mds f = (.ok l, f') := by
  rw [add_eq, if_neg (by simp [hi]), if_neg (by simp [hlen]), if_neg (by omega),
    if_neg (by simp [hd]), if_neg (by simpa using hv), h]

theorem insert_cut (cols : Nat) (a b : List V) (m : List (Option M)) (f f' : Lsh V M)
    (l : List String) (h : insert env 2 cols (a ++ b) (some m) f = (.ok l, f')) :
    ∃ l1 f1 l2, insert env 2 cols a (some (m.take a.length)) f = (.ok l1, f1) ∧
      insert env 2 cols b (some (m.drop a.length)) f1 = (.ok l2, f') ∧ l = l1 ++ l2 := by
  unfold insert at h
  simp only at h
  rcases ha : add env 2 cols (a ++ b) m f with ⟨r, f2⟩
  cases r with
  | error e => simp [ha] at h
  | ok ids =>
    simp only [ha, Prod.mk.injEq, Except.ok.injEq] at h
    obtain ⟨rfl, rfl⟩ := h
    obtain ⟨hi, hlen, -, hd, hv, hloop⟩ := add_ok ha
    rw [List.length_append] at hlen
    have hz : (a ++ b).zip m = a.zip (m.take a.length) ++ b.zip (m.drop a.length) := by
      conv_lhs => rw [← List.take_append_drop a.length m]
      rw [List.zip_append (by rw [List.length_take]; omega)]
    rw [hz] at hloop
    obtain ⟨l1, f1, l2, h1, h2, rfl, hi1, hd1⟩ := addLoop_append _ _ _ _ _ hloop
    have A1 := add_of_loop hi (mds := m.take a.length) (by rw [List.length_take]; omega) hd
      (fun v hv' => (hv v (by simp [hv'])).2) h1
    have hd1' : f1.dimension = some cols := hd1.trans hd
    have e1 : sized cols f1 = f1 := by unfold sized; rw [hd1']
    have hi0 : (sized cols f).inited = f.inited := by unfold sized; split <;> rfl
    have A2 := add_of_loop (env := env) (hi1.trans (hi0.trans hi)) (mds := m.drop a.length) (rows := b)
      (cols := cols) (by rw [List.length_drop]; omega) (by rw [e1]; exact hd1')
      (fun v hv' => (hv v (by simp [hv'])).2) (by rw [e1]; exact h2)
    exact ⟨l1.map toString, f1, l2.map toString, by unfold insert; simp only [A1],
      by unfold insert; simp only [A2], List.map_append⟩

theorem insert_pad (cols : Nat) (v : List V) (m : List (Option M)) (n : Nat) (hn : v.length ≤ n)
    (f f' : Lsh V M) (l : List String) (h : insert env 2 cols v (some m) f = (.ok l, f')) :
    insert env 2 cols v (some (m.take n)) f = (.ok l, f') := by
  have hlen : v.length = m.length := by
    unfold insert at h
    simp only at h
    rcases ha : add env 2 cols v m f with ⟨r, f2⟩
    cases r with
    | error e => simp [ha] at h
    | ok ids => exact (add_ok ha).2.1
  rw [List.take_of_length_le (by omega)]
  exact h

end Lsh

/-! ## Annoy -/

namespace Annoy
variable {L F : Type} {env : AnEnv L V F M}

theorem addLoop_append (a b : List (V × Option M)) (f f' : Annoy L V M) (l : List Int)
    (h : addLoop env (a ++ b) f = (.ok l, f')) :
    ∃ l1 f1 l2, addLoop env a f = (.ok l1, f1) ∧ addLoop env b f1 = (.ok l2, f') ∧ l = l1 ++ l2 ∧
      f1.inited = f.inited ∧ f1.dimension = f.dimension := by
  induction a generalizing f l with
  | nil => exact ⟨[], f, l, rfl, h, rfl, rfl, rfl⟩
  | cons r a ih =>
    obtain ⟨v, md⟩ := r
    simp only [List.cons_append] at h
    unfold addLoop at h
    cases md with
    | none => simp at h
    | some md =>
      rw [addLoop]
      cases hlib : f.lib with
      | none => simp [hlib] at h
      | some lib =>
        simp only [hlib] at h ⊢
        cases hadd : env.addItem lib f.nextId v with
        | error e => simp [hadd] at h
        | ok lib' =>
          simp only [hadd] at h ⊢
          split at h
          · simp at h
          · rename_i ids g hl
            simp only [Prod.mk.injEq, Except.ok.injEq] at h
            obtain ⟨rfl, rfl⟩ := h
            obtain ⟨l1, f1, l2, h1, h2, rfl, hi, hd⟩ := ih _ _ hl
            exact ⟨f.nextId :: l1, f1, l2, by rw [h1], h2, rfl, hi, hd⟩

/-- The index once it knows its dimension. -/
def sized (env : AnEnv L V F M) (cols : Nat) (f : Annoy L V M) : Annoy L V M :=
  match f.dimension with
  | none => { f with dimension := some cols, lib := some (env.create cols f.metric) }
  | some _ => f

theorem add_eq (nd cols : Nat) (rows : List V) (mds : List (Option M)) (f : Annoy L V M) :
    add env nd cols rows mds f =
      if !f.inited then (.error .index, f)
      else if rows.length ≠ mds.length then (.error .index, f)
      else if nd < 2 then (.error .indexRange, f)
      else if (sized env cols f).dimension ≠ some cols then (.error .index, sized env cols f)
      else if !(rows.all fun v => decide (nd = 2) && valid env cols v) then
        (.error .validation, sized env cols f)
      else addLoop env (rows.zip mds) (sized env cols f) := rfl

/-- A successful call of `add`. -/
theorem add_ok {nd cols : Nat} {rows : List V} {mds : List (Option M)} {f f' : Annoy L V M}
    {l : List Int} (h : add env nd cols rows mds f = (.ok l, f')) :
    f.inited = true ∧ rows.length = mds.length ∧ 2 ≤ nd ∧ (sized env cols f).dimension = some cols ∧
    (∀ v ∈ rows, nd = 2 ∧ valid env cols v = true) ∧
    addLoop env (rows.zip mds) (sized env cols f) = (.ok l, f') := by
  rw [add_eq] at h
  split at h
  · simp at h
  split at h
  · simp at h
  split at h
  · simp at h
  split at h
  · simp at h
  split at h
  · simp at h
  rename_i h1 h2 h3 h4 h5
  refine ⟨by simpa using h1, by simpa using h2, by omega, by simpa using h4, by simpa using h5, h⟩

theorem add_of_loop {cols : Nat} {rows : List V} {mds : List (Option M)} {f f' : Annoy L V M}
    {l : List Int} (hi : f.inited = true) (hlen : rows.length = mds.length)
    (hd : (sized env cols f).dimension = some cols)
    (hv : ∀ v ∈ rows, valid env cols v = true)
    (h : addLoop env (rows.zip mds) (sized env cols f) = (.ok l, f')) :
    add env 2 cols rows mds f = (.ok l, f') := by
  rw [add_eq, if_neg (by simp [hi]), if_neg (by simp [hlen]), if_neg (by omega),
    if_neg (by simp [hd]), if_neg (by simpa using hv), h]

theorem insert_cut (cols : Nat) (a b : List V) (m : List (Option M)) (f f' : Annoy L V M)
    (l : List String) (h : insert env 2 cols (a ++ b) (some m) f = (.ok l, f')) :
    ∃ l1 f1 l2, insert env 2 cols a (some (m.take a.length)) f = (.ok l1, f1) ∧
      insert env 2 cols b (some (m.drop a.length)) f1 = (.ok l2, f') ∧ l = l1 ++ l2 := by
  unfold insert at h
  simp only at h
  rcases ha : add env 2 cols (a ++ b) m f with ⟨r, f2⟩
  cases r with
  | error e => simp [ha] at h
  | ok ids =>
    simp only [ha, Prod.mk.injEq, Except.ok.injEq] at h
    obtain ⟨rfl, rfl⟩ := h
    obtain ⟨hi, hlen, -, hd, hv, hloop⟩ := add_ok ha
    rw [List.length_append] at hlen
    have hz : (a ++ b).zip m = a.zip (m.take a.length) ++ b.zip (m.drop a.length) := by
      conv_lhs => rw [← List.take_append_drop a.length m]
      rw [List.zip_append (by rw [List.length_take]; omega)]
    rw [hz] at hloop
    obtain ⟨l1, f1, l2, h1, h2, rfl, hi1, hd1⟩ := addLoop_append _ _ _ _ _ hloop
    have A1 := add_of_loop hi (mds := m.take a.length) (by rw [List.length_take]; omega) hd
      (fun v hv' => (hv v (by simp [hv'])).2) h1
    have hd1' : f1.dimension = some cols := hd1.trans hd
    have e1 : sized env cols f1 = f1 := by unfold sized; rw [hd1']
    have hi0 : (sized env cols f).inited = f.inited := by unfold sized; split <;> rfl
    have A2 := add_of_loop (env := env) (hi1.trans (hi0.trans hi)) (mds := m.drop a.length) (rows := b)
      (cols := cols) (by rw [List.length_drop]; omega) (by rw [e1]; exact hd1')
      (fun v hv' => (hv v (by simp [hv'])).2) (by rw [e1]; exact h2)
    exact ⟨l1.map toString, f1, l2.map toString, by unfold insert; simp only [A1],
      by unfold insert; simp only [A2], List.map_append⟩

theorem insert_pad (cols : Nat) (v : List V) (m : List (Option M)) (n : Nat) (hn : v.length ≤ n)
    (f f' : Annoy L V M) (l : List String) (h : insert env 2 cols v (some m) f = (.ok l, f')) :
    insert env 2 cols v (some (m.take n)) f = (.ok l, f') := by
  have hlen : v.length = m.length := by
    unfold insert at h
    simp only at h
    rcases ha : add env 2 cols v m f with ⟨r, f2⟩
    cases r with
    | error e => simp [ha] at h
    | ok ids => exact (add_ok ha).2.1
  rw [List.take_of_length_le (by omega)]
  exact h

end Annoy

end Valori
