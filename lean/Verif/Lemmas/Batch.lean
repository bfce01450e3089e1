import Verif.Model.Batch
import Verif.Spec.Batch
import Mathlib.Algebra.BigOperators.Group.List.Basic

/-!
# Lemmas on batches
-/

namespace Valori
open Spec

variable {σ V M I Q R : Type}

theorem starts_zero (b : Nat) (hb : 0 < b) : starts 0 b = [] := by
  unfold starts
  rw [Nat.div_eq_of_lt (by omega)]
  rfl

theorem starts_pos {n b : Nat} (hb : 0 < b) (hn : 0 < n) :
    starts n b = 0 :: (starts (n - b) b).map (· + b) := by
  unfold starts
  have : (n + b - 1) / b = (n - b + b - 1) / b + 1 := by
    by_cases h : b ≤ n
    · have : n + b - 1 = (n - b + b - 1) + b := by omega
      rw [this, Nat.add_div_right _ hb]
    · have h0 : n - b = 0 := by omega
      rw [h0, Nat.div_eq_of_lt (show 0 + b - 1 < b by omega)]
      have : n + b - 1 = (n - 1) + b := by omega
      rw [this, Nat.add_div_right _ hb, Nat.div_eq_of_lt (by omega)]
  rw [this, List.range_succ_eq_map, List.map_cons, List.map_map, List.map_map]
  simp only [Nat.zero_mul]
  congr 1
  apply List.map_congr_left
  intro i _
  simp only [Function.comp_apply]
  rw [Nat.succ_mul]

theorem batchAt_add {α : Type} (l : List α) (i b c : Nat) : batchAt l (i + c) b = batchAt (l.drop c) i b := by
  unfold batchAt
  rw [List.drop_drop, Nat.add_comm]

theorem mkBatches_nil (b : Nat) (hb : 0 < b) (m : List M) : mkBatches b ([] : List V) m = [] := by
  unfold mkBatches
  rw [List.length_nil, starts_zero b hb]
  rfl

theorem mkBatches_step (b : Nat) (hb : 0 < b) (v : List V) (m : List M) (hv : v ≠ []) :
    mkBatches b v m = (v.take b, m.take b) :: mkBatches b (v.drop b) (m.drop b) := by
  unfold mkBatches
  rw [starts_pos hb (List.length_pos_iff.2 hv), List.map_cons, List.map_map, List.length_drop]
  congr 1
  apply List.map_congr_left
  intro i _
  simp only [Function.comp_apply, batchAt_add]

theorem split_mk (b : Nat) (hb : 0 < b) (v : List V) (m : List M) :
    IsSplit b v m (mkBatches b v m) := by
  induction hn : v.length using Nat.strong_induction_on generalizing v m with
  | _ n ih =>
    by_cases hv : v = []
    · subst hv
      rw [mkBatches_nil b hb]
      exact ⟨rfl, by simp, by simp, by simp⟩
    · have hlen : 0 < v.length := List.length_pos_iff.2 hv
      obtain ⟨h1, h2, h3, h4⟩ := ih (v.drop b).length (by rw [List.length_drop]; omega) (v.drop b)
        (m.drop b) rfl
      rw [mkBatches_step b hb v m hv]
      refine ⟨?_, ?_, ?_, ?_⟩
      · rw [List.map_cons, List.flatten_cons, h1, List.take_append_drop]
      · intro p hp
        rcases List.mem_cons.1 hp with rfl | hp
        · simp only [List.length_take]
          omega
        · exact h2 p hp
      · intro p hp
        cases hbs : mkBatches b (v.drop b) (m.drop b) with
        | nil => rw [hbs] at hp; simp at hp
        | cons q qs =>
          rw [hbs, List.dropLast_cons_of_ne_nil (by simp)] at hp
          rcases List.mem_cons.1 hp with rfl | hp
          · have hd : v.drop b ≠ [] := by
              intro h
              rw [h, mkBatches_nil b hb] at hbs
              cases hbs
            have : 0 < (v.drop b).length := List.length_pos_iff.2 hd
            rw [List.length_drop] at this
            simp only [List.length_take]
            omega
          · rw [hbs] at h3
            exact h3 p hp
      · intro pre p post he j hj
        cases pre with
        | nil =>
          simp only [List.nil_append, List.cons.injEq] at he
          obtain ⟨rfl, -⟩ := he
          simp only [List.length_take] at hj
          simp only [List.map_nil, List.sum_nil, Nat.zero_add]
          rw [List.getElem?_take, if_pos (by omega)]
        | cons q pre =>
          simp only [List.cons_append, List.cons.injEq] at he
          obtain ⟨rfl, he⟩ := he
          have := h4 pre p post he j hj
          rw [this, List.getElem?_drop]
          have hfull : b ≤ v.length := by
            by_contra hlt
            rw [List.drop_eq_nil_of_le (by omega : v.length ≤ b), mkBatches_nil b hb] at he
            simp at he
          simp only [List.map_cons, List.sum_cons, List.length_take]
          rw [Nat.min_eq_left hfull]
          congr 1
          omega

theorem mkBatches_length_eq (b : Nat) (v : List V) (m : List M) :
    (mkBatches b v m).length = (starts v.length b).length := by
  unfold mkBatches; rw [List.length_map]

theorem Calls.append {σ α β : Type} {f : σ → α → Except Err β × σ} {s s' s'' : σ} {as bs : List α}
    {rs ts : List (Except Err β)} (h1 : Calls f s as rs s') (h2 : Calls f s' bs ts s'') :
    Calls f s (as ++ bs) (rs ++ ts) s'' := by
  induction h1 with
  | nil s => exact h2
  | cons h t ih => exact Calls.cons h (ih h2)

theorem Calls.length_eq {σ α β : Type} {f : σ → α → Except Err β × σ} {s s' : σ} {as : List α}
    {rs : List (Except Err β)} (h : Calls f s as rs s') : rs.length = as.length := by
  induction h with
  | nil s => rfl
  | cons h t ih => simp [ih]

theorem Calls.det {σ α β : Type} {f : σ → α → Except Err β × σ} {s s1 s2 : σ} {as : List α}
    {rs ts : List (Except Err β)} (h1 : Calls f s as rs s1) (h2 : Calls f s as ts s2) :
    rs = ts ∧ s1 = s2 := by
  induction h1 generalizing ts s2 with
  | nil s => cases h2; exact ⟨rfl, rfl⟩
  | cons h t ih =>
    cases h2 with
    | cons h' t' =>
      rw [h] at h'
      obtain ⟨rfl, rfl⟩ := Prod.mk.inj h'
      obtain ⟨rfl, rfl⟩ := ih t'
      exact ⟨rfl, rfl⟩

theorem rowsOf_cons {β : Type} (bad : Bool) (p : List V × List M) (bs : List (List V × List M))
    (r : Except Err β) (rs : List (Except Err β)) :
    rowsOf bad (p :: bs) (r :: rs) = (if isErr r = bad then p.1.length else 0) + rowsOf bad bs rs := by
  simp [rowsOf]

theorem rowsOf_sum {β : Type} (bs : List (List V × List M)) (rs : List (Except Err β))
    (h : rs.length = bs.length) :
    rowsOf false bs rs + rowsOf true bs rs = ((bs.map Prod.fst).flatten).length := by
  induction bs generalizing rs with
  | nil => simp [rowsOf]
  | cons p bs ih =>
    cases rs with
    | nil => simp at h
    | cons r rs =>
      have := ih rs (by simpa using h)
      rw [rowsOf_cons, rowsOf_cons, List.map_cons, List.flatten_cons, List.length_append, ← this]
      cases isErr r <;> simp <;> omega

/-- The insert loop with any progress callback: the ids and the client's state. -/
theorem insertLoop_any (E : BatchEnv σ V M I Q R) (hE : ∀ e, E.onError e = .ok ()) (v : List V)
    (m : List M) (is : List Nat) (s : σ) (st : BStats) (ids : List I) :
    ∃ replies s' st', Calls (fun s p => E.insert s p.1 p.2) s
        (is.map fun i => (batchAt v i E.batchSize, batchAt m i E.batchSize)) replies s' ∧
      insertLoop E v m is (s, st, ids) = (.ok (ids ++ (replies.map okPart).flatten), s', st') ∧
      st'.total = st.total ∧
      st'.processed = st.processed + rowsOf false
        (is.map fun i => (batchAt v i E.batchSize, batchAt m i E.batchSize)) replies ∧
      (st.failed + rowsOf true
        (is.map fun i => (batchAt v i E.batchSize, batchAt m i E.batchSize)) replies ≤ st'.failed) ∧
      ((∀ a b, E.progress a b = .ok ()) → st'.failed = st.failed + rowsOf true
        (is.map fun i => (batchAt v i E.batchSize, batchAt m i E.batchSize)) replies) ∧
      ((∀ a b, isErr (E.progress a b) = true) → st'.failed = st.failed +
        ((is.map fun i => batchAt v i E.batchSize).flatten).length) := by
  induction is generalizing s st ids with
  | nil =>
    refine ⟨[], s, st, Calls.nil s, by simp [insertLoop], rfl, by simp [rowsOf], by simp [rowsOf],
      by simp [rowsOf], by simp⟩
  | cons i is ih =>
    unfold insertLoop
    simp only [hE]
    rcases hr : E.insert s (batchAt v i E.batchSize) (batchAt m i E.batchSize) with ⟨r, s1⟩
    cases r with
    | error e =>
      simp only
      obtain ⟨rs, s', st', hc, hl, ht, hp, hf, hok, hbad⟩ :=
        ih s1 { st with failed := st.failed + (batchAt v i E.batchSize).length } ids
      refine ⟨.error e :: rs, s', st', Calls.cons hr hc, ?_, ht, ?_, ?_, ?_, ?_⟩
      · rw [hl]; simp [okPart]
      · rw [hp, List.map_cons, rowsOf_cons]; simp [isErr]
      · rw [List.map_cons, rowsOf_cons]; simp only [isErr, if_true]; simp only at hf; omega
      · intro h
        rw [hok h, List.map_cons, rowsOf_cons]; simp only [isErr, if_true]; omega
      · intro h
        rw [hbad h, List.map_cons, List.flatten_cons, List.length_append]; simp only; omega
    | ok new =>
      simp only
      rcases hpr : E.progress (st.processed + (batchAt v i E.batchSize).length) st.total with e | u
      · simp only
        obtain ⟨rs, s', st', hc, hl, ht, hp, hf, hok, hbad⟩ :=
          ih s1 ⟨st.total, st.processed + (batchAt v i E.batchSize).length,
            st.failed + (batchAt v i E.batchSize).length⟩ (ids ++ new)
        refine ⟨.ok new :: rs, s', st', Calls.cons hr hc, ?_, ht, ?_, ?_, ?_, ?_⟩
        · rw [hl]; simp [okPart]
        · rw [hp, List.map_cons, rowsOf_cons]; simp only [isErr, if_true]; omega
        · rw [List.map_cons, rowsOf_cons]; simp only [isErr, Bool.false_eq_true, if_false]
          simp only at hf; omega
        · intro h
          rw [h] at hpr
          cases hpr
        · intro h
          rw [hbad h, List.map_cons, List.flatten_cons, List.length_append]; simp only; omega
      · simp only
        obtain ⟨rs, s', st', hc, hl, ht, hp, hf, hok, hbad⟩ :=
          ih s1 { st with processed := st.processed + (batchAt v i E.batchSize).length } (ids ++ new)
        refine ⟨.ok new :: rs, s', st', Calls.cons hr hc, ?_, ht, ?_, ?_, ?_, ?_⟩
        · rw [hl]; simp [okPart]
        · rw [hp, List.map_cons, rowsOf_cons]; simp only [isErr, if_true]; omega
        · rw [List.map_cons, rowsOf_cons]; simp only [isErr, Bool.false_eq_true, if_false]
          simp only at hf; omega
        · intro h
          rw [hok h, List.map_cons, rowsOf_cons]; simp [isErr]
        · intro h
          have := h (st.processed + (batchAt v i E.batchSize).length) st.total
          rw [hpr] at this
          cases this

theorem searchEach_run (E : BatchEnv σ V M I Q R) (hE : ∀ e, E.onError e = .ok ()) (qs : List Q)
    (s : σ) (st : BStats) (out : List (List R)) :
    ∃ replies s', Calls E.search s qs replies s' ∧
      searchEach E qs (s, st, out) = (.ok (out ++ replies.map okPart), s',
        { st with failed := st.failed + replies.countP isErr }) := by
  induction qs generalizing s st out with
  | nil => exact ⟨[], s, Calls.nil s, by simp [searchEach]⟩
  | cons q qs ih =>
    unfold searchEach
    simp only [hE]
    rcases hr : E.search s q with ⟨r, s1⟩
    cases r with
    | ok r =>
      simp only
      obtain ⟨rs, s', hc, hl⟩ := ih s1 st (out ++ [r])
      refine ⟨.ok r :: rs, s', Calls.cons hr hc, ?_⟩
      rw [hl]
      simp [okPart, isErr, List.countP_cons]
    | error e =>
      simp only
      obtain ⟨rs, s', hc, hl⟩ := ih s1 { st with failed := st.failed + 1 } (out ++ [[]])
      refine ⟨.error e :: rs, s', Calls.cons hr hc, ?_⟩
      rw [hl]
      simp [okPart, isErr, List.countP_cons]
      omega

theorem searchLoop_run (E : BatchEnv σ V M I Q R) (hE : ∀ e, E.onError e = .ok ())
    (hP : ∀ a b, E.progress a b = .ok ()) (queries : List Q) (is : List Nat) (s : σ) (st : BStats)
    (out : List (List R)) :
    ∃ replies s', Calls E.search s ((is.map fun i => batchAt queries i E.batchSize).flatten) replies s' ∧
      searchLoop E queries is (s, st, out) = (.ok (out ++ replies.map okPart), s',
        { st with
          processed := st.processed + ((is.map fun i => batchAt queries i E.batchSize).flatten).length
          failed := st.failed + replies.countP isErr }) := by
  induction is generalizing s st out with
  | nil => exact ⟨[], s, Calls.nil s, by simp [searchLoop]⟩
  | cons i is ih =>
    obtain ⟨rs, s1, hc, hl⟩ := searchEach_run E hE (batchAt queries i E.batchSize) s st []
    unfold searchLoop
    simp only [hl, hP]
    obtain ⟨ts, s', hc', hl'⟩ := ih s1 ⟨st.total, st.processed + (batchAt queries i E.batchSize).length,
      st.failed + rs.countP isErr⟩ (out ++ ([] ++ rs.map okPart))
    refine ⟨rs ++ ts, s', Calls.append hc hc', ?_⟩
    rw [hl']
    simp [List.countP_append]
    omega

theorem slices_flatten (b : Nat) (hb : 0 < b) (queries : List Q) :
    ((starts queries.length b).map fun i => batchAt queries i b).flatten = queries := by
  have := (split_mk b hb queries ([] : List Unit)).all
  unfold mkBatches at this
  rw [List.map_map] at this
  exact this

theorem plainEach_run (search : σ → Q → Res σ (List R)) (qs : List Q) (s : σ) (out : List (List R)) :
    (∃ (answers : List (List R)) (s' : σ), Calls search s qs (answers.map .ok) s' ∧
      plainEach search qs s out = (.ok (out ++ answers), s')) ∨
    ∃ (pre : List Q) (q : Q) (post : List Q) (answers : List (List R)) (s1 s2 : σ) (e : Err),
      qs = pre ++ q :: post ∧ Calls search s pre (answers.map .ok) s1 ∧
      search s1 q = (.error e, s2) ∧ plainEach search qs s out = (.error e, s2) := by
  induction qs generalizing s out with
  | nil => exact Or.inl ⟨[], s, Calls.nil s, by simp [plainEach]⟩
  | cons q qs ih =>
    unfold plainEach
    rcases hr : search s q with ⟨r, s1⟩
    cases r with
    | error e => exact Or.inr ⟨[], q, qs, [], s, s1, e, rfl, Calls.nil s, hr, rfl⟩
    | ok r =>
      rcases ih s1 (out ++ [r]) with ⟨as, s', hc, hl⟩ | ⟨pre, q', post, as, s2, s3, e, he, hc, hq, hl⟩
      · exact Or.inl ⟨r :: as, s', Calls.cons hr hc, by simp only [hl]; simp⟩
      · exact Or.inr ⟨q :: pre, q', post, r :: as, s2, s3, e, by rw [he]; rfl, Calls.cons hr hc, hq, hl⟩

theorem plainLoop_run (search : σ → Q → Res σ (List R)) (b : Nat) (queries : List Q) (is : List Nat)
    (s : σ) (out : List (List R)) :
    plainLoop search b queries is s out =
      plainEach search ((is.map fun i => batchAt queries i b).flatten) s out := by
  have happ : ∀ (xs ys : List Q) (s : σ) (out : List (List R)),
      plainEach search (xs ++ ys) s out = match plainEach search xs s out with
        | (.error e, s) => (.error e, s)
        | (.ok out, s) => plainEach search ys s out := by
    intro xs
    induction xs with
    | nil => intro ys s out; rfl
    | cons x xs ih =>
      intro ys s out
      rcases hx : search s x with ⟨r, s1⟩
      cases r with
      | error e => simp only [List.cons_append, plainEach, hx]
      | ok r =>
        simp only [List.cons_append, plainEach, hx]
        exact ih ys s1 _
  induction is generalizing s out with
  | nil => rfl
  | cons i is ih =>
    rw [List.map_cons, List.flatten_cons, happ]
    unfold plainLoop
    rcases plainEach search (batchAt queries i b) s out with ⟨r, s1⟩
    cases r with
    | error e => rfl
    | ok r => exact ih s1 r

/-- Rows of batch `j` if it failed. -/
def failedRows (batches : List (List V × List M)) (reply : Nat → Except Err (List I)) (j : Nat) : Nat :=
  if isErr (reply j) then (batches[j]?.map fun p => p.1.length).getD 0 else 0

theorem collect_run (E : BatchEnv σ V M I Q R) (hE : ∀ e, E.onError e = .ok ())
    (hP : ∀ a b, E.progress a b = .ok ()) (batches : List (List V × List M))
    (reply : Nat → Except Err (List I)) (done : List Nat) (st : BStats) (ids : List I) :
    collect E batches reply done st ids =
      (.ok (ids ++ done.flatMap fun j => okPart (reply j)),
        { st with
          processed := st.processed + (done.map fun j => (okPart (reply j)).length).sum
          failed := st.failed + (done.map (failedRows batches reply)).sum }) := by
  induction done generalizing st ids with
  | nil => simp [collect]
  | cons j done ih =>
    unfold collect
    simp only [hE, hP]
    cases hr : reply j with
    | error e =>
      simp only
      rw [ih]
      simp [okPart, failedRows, hr, isErr]
      omega
    | ok new =>
      simp only
      rw [ih]
      simp [okPart, failedRows, hr, isErr]
      omega

end Valori
