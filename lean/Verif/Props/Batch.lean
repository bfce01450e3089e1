import Verif.Lemmas.Batch
import Mathlib.Data.List.Perm.Basic

/-!
# Batch operations: C71–C73, C105, C106
-/

namespace Valori.Props
open Spec

variable {σ V M I Q R : Type}

/-- `batch_insert`: the client is called on consecutive batches that are all the rows in order with
their own metadata; every batch is tried whatever happened to the others; the ids are those of the
successful calls in order; and the counters grow by the rows of the successful and the failed
batches, which are all rows. -/
theorem C71_insert (E : BatchEnv σ V M I Q R) (hb : 0 < E.batchSize)
    (hP : ∀ a b, E.progress a b = .ok ()) (hE : ∀ e, E.onError e = .ok ()) (vectors : List V)
    (metadata : List M) (s : σ) (st : BStats) :
    ∃ bs replies s' good bad, IsSplit E.batchSize vectors metadata bs ∧
      Calls (fun s p => E.insert s p.1 p.2) s bs replies s' ∧
      batchInsert E vectors metadata s st = (.ok (replies.map okPart).flatten, s',
        ⟨vectors.length, st.processed + good, st.failed + bad⟩) ∧
      good = rowsOf false bs replies ∧ bad = rowsOf true bs replies ∧ good + bad = vectors.length := by
  obtain ⟨rs, s', st', hc, hl, ht, hp, -, hf, -⟩ := insertLoop_any E hE vectors metadata
    (starts vectors.length E.batchSize) s { st with total := vectors.length } []
  have hs := split_mk E.batchSize hb vectors metadata
  refine ⟨_, rs, s', _, _, hs, hc, ?_, rfl, rfl, ?_⟩
  · unfold batchInsert
    rw [hl]
    obtain ⟨a, b, c⟩ := st'
    simp only at ht hp hf
    rw [ht, hp, hf hP]
    rfl
  · have := rowsOf_sum (mkBatches E.batchSize vectors metadata) rs (Valori.Calls.length_eq hc)
    rw [hs.all] at this
    exact this

/-- Parallel insertion, for every completion order of the batches and every pattern of replies: the
ids are a permutation of those in batch order, nothing is lost or doubled; if the client returns one
id per row, each row is counted exactly once. -/
theorem C72_parallel (E : BatchEnv σ V M I Q R) (hb : 0 < E.batchSize)
    (hP : ∀ a b, E.progress a b = .ok ()) (hE : ∀ e, E.onError e = .ok ()) (vectors : List V)
    (metadata : List M) (st : BStats) :
    ∃ bs, IsSplit E.batchSize vectors metadata bs ∧
      ∀ (reply : Nat → Except Err (List I)) (done : List Nat), done.Perm (List.range bs.length) →
        ∃ ids good bad, parallelInsert E vectors metadata reply done st =
            (.ok ids, ⟨vectors.length, st.processed + good, st.failed + bad⟩) ∧
          ids.Perm ((((List.range bs.length).map reply).map okPart).flatten) ∧
          good = ids.length ∧ bad = rowsOf true bs ((List.range bs.length).map reply) ∧
          ((∀ j p l, bs[j]? = some p → reply j = .ok l → l.length = p.1.length) →
            good + bad = vectors.length) := by
  have hs := split_mk E.batchSize hb vectors metadata
  refine ⟨_, hs, fun reply done hperm => ?_⟩
  set bs := mkBatches E.batchSize vectors metadata with hbs
  refine ⟨done.flatMap fun j => okPart (reply j), (done.map fun j => (okPart (reply j)).length).sum,
    (done.map (failedRows bs reply)).sum, ?_, ?_, ?_, ?_, ?_⟩
  · unfold parallelInsert
    rw [collect_run E hE hP]
    rfl
  · have := hperm.flatMap_right fun j => okPart (reply j)
    rw [List.map_map]
    exact this
  · rw [List.length_flatMap]
  · have h1 := (hperm.map (failedRows bs reply)).sum_eq
    rw [h1]
    unfold rowsOf
    congr 1
    apply List.ext_getElem
    · simp
    · intro i h2 h3
      simp only [List.length_map, List.length_range] at h2
      simp [failedRows, List.getElem?_eq_getElem h2]
  · intro hlen
    have h1 := (hperm.map (failedRows bs reply)).sum_eq
    have h2 := (hperm.map fun j => (okPart (reply j)).length).sum_eq
    rw [h1, h2, ← List.sum_map_add]
    have h3 : vectors.length = ((List.range bs.length).map fun j =>
        (bs[j]?.map fun p => p.1.length).getD 0).sum := by
      conv_lhs => rw [← hs.all]
      rw [List.length_flatten, List.map_map]
      congr 1
      apply List.ext_getElem
      · simp
      · intro i h2 h3
        simp only [List.length_map] at h2
        simp [List.getElem?_eq_getElem h2]
    rw [h3]
    congr 1
    apply List.map_congr_left
    intro j hj
    rw [List.mem_range] at hj
    unfold failedRows
    cases hr : reply j with
    | error e => simp [okPart, isErr]
    | ok l =>
      have := hlen j bs[j] l (List.getElem?_eq_getElem hj) hr
      simp [okPart, isErr, this, List.getElem?_eq_getElem hj]

/-- `BatchManager.batch_search`: one list per query in order, the client's answer or `[]` where it
failed; the failures are counted. -/
theorem C73_search (E : BatchEnv σ V M I Q R) (hb : 0 < E.batchSize)
    (hP : ∀ a b, E.progress a b = .ok ()) (hE : ∀ e, E.onError e = .ok ()) (queries : List Q) (s : σ)
    (st : BStats) :
    ∃ replies s', Calls E.search s queries replies s' ∧
      batchSearch E queries s st = (.ok (replies.map okPart), s',
        ⟨queries.length, st.processed + queries.length, st.failed + replies.countP isErr⟩) := by
  obtain ⟨rs, s', hc, hl⟩ := searchLoop_run E hE hP queries (starts queries.length E.batchSize) s
    { st with total := queries.length } []
  rw [slices_flatten _ hb] at hc hl
  refine ⟨rs, s', hc, ?_⟩
  unfold batchSearch
  rw [hl]
  rfl

/-- `helpers.batch_search`: the client's answers in query order, or the exception of the first query
that fails. -/
theorem C73_plain (search : σ → Q → Res σ (List R)) (b : Nat) (hb : 0 < b) (queries : List Q) (s : σ) :
    (∃ (answers : List (List R)) (s' : σ), Calls search s queries (answers.map .ok) s' ∧
      plainBatchSearch search b queries s = (.ok answers, s')) ∨
    ∃ (pre : List Q) (q : Q) (post : List Q) (answers : List (List R)) (s1 s2 : σ) (e : Err),
      queries = pre ++ q :: post ∧ Calls search s pre (answers.map .ok) s1 ∧
      search s1 q = (.error e, s2) ∧ plainBatchSearch search b queries s = (.error e, s2) := by
  unfold plainBatchSearch
  rw [plainLoop_run, slices_flatten _ hb]
  have := plainEach_run search queries s []
  simpa using this

/-! ## C105 -/

/-- Whatever the progress callback does, also if it raises, all batches are inserted and the ids are
those of the successful calls. -/
theorem C105_ids_partial (E : BatchEnv σ V M I Q R) (hb : 0 < E.batchSize)
    (hE : ∀ e, E.onError e = .ok ()) (vectors : List V) (metadata : List M) (s : σ) (st : BStats) :
    ∃ bs replies s' st', IsSplit E.batchSize vectors metadata bs ∧
      Calls (fun s p => E.insert s p.1 p.2) s bs replies s' ∧
      batchInsert E vectors metadata s st = (.ok (replies.map okPart).flatten, s', st') ∧
      st'.processed = st.processed + rowsOf false bs replies ∧
      st.failed + rowsOf true bs replies ≤ st'.failed := by
  obtain ⟨rs, s', st', hc, hl, -, hp, hf, -, -⟩ := insertLoop_any E hE vectors metadata
    (starts vectors.length E.batchSize) s { st with total := vectors.length } []
  exact ⟨_, rs, s', st', split_mk E.batchSize hb vectors metadata, hc, hl, hp, hf⟩

/-- But if the progress callback raises, all rows are counted as failed, though they were inserted:
with a client that never fails, every row counts as processed and as failed. -/
theorem C105_count_refuted (E : BatchEnv σ V M I Q R) (hb : 0 < E.batchSize)
    (hE : ∀ e, E.onError e = .ok ()) (hP : ∀ a b, isErr (E.progress a b) = true)
    (hI : ∀ s v m, isErr (E.insert s v m).1 = false) (vectors : List V) (metadata : List M) (s : σ)
    (st : BStats) :
    (batchInsert E vectors metadata s st).2.2 =
      ⟨vectors.length, st.processed + vectors.length, st.failed + vectors.length⟩ := by
  obtain ⟨rs, s', st', hc, hl, ht, hp, -, -, hf⟩ := insertLoop_any E hE vectors metadata
    (starts vectors.length E.batchSize) s { st with total := vectors.length } []
  have hsum := rowsOf_sum _ rs (Valori.Calls.length_eq hc)
  have hall : ((starts vectors.length E.batchSize).map fun i => batchAt vectors i E.batchSize).flatten =
      vectors := slices_flatten _ hb vectors
  have hno : rowsOf true ((starts vectors.length E.batchSize).map fun i =>
      (batchAt vectors i E.batchSize, batchAt metadata i E.batchSize)) rs = 0 := by
    clear hsum hf hp hl
    generalize ((starts vectors.length E.batchSize).map fun i =>
      (batchAt vectors i E.batchSize, batchAt metadata i E.batchSize)) = bs at hc
    induction hc with
    | nil s => rfl
    | cons h t ih =>
      rename_i s1 _ _ a _ _ _
      rw [rowsOf_cons, ih]
      have := hI s1 a.1 a.2
      rw [h] at this
      simp only at this
      simp [this]
  rw [List.map_map] at hsum
  simp only [Function.comp_def] at hsum
  rw [hall, hno] at hsum
  unfold batchInsert
  rw [hl]
  obtain ⟨a, b, c⟩ := st'
  simp only at ht hp hf
  rw [hf hP, hall] at *
  simp only
  rw [ht, hp]
  congr 1
  omega

/-! ## C106 -/

/-- A reset sets the three counters to zero; from there, `processed + failed` is the total after an
insertion. -/
theorem C106_stats_partial (E : BatchEnv σ V M I Q R) (hb : 0 < E.batchSize)
    (hP : ∀ a b, E.progress a b = .ok ()) (hE : ∀ e, E.onError e = .ok ()) (vectors : List V)
    (metadata : List M) (s : σ) :
    let st := (batchInsert E vectors metadata s resetStats).2.2
    st.processed + st.failed = st.total ∧ st.total = vectors.length ∧
      resetStats.total = 0 ∧ resetStats.processed = 0 ∧ resetStats.failed = 0 := by
  obtain ⟨bs, rs, s', g, b, -, -, h, -, -, hsum⟩ := C71_insert E hb hP hE vectors metadata s resetStats
  rw [h]
  simp only [resetStats]
  refine ⟨by omega, ?_⟩; simp

/-- Without a reset in between, a second run leaves more items processed or failed than there are in
total, whenever the first run had any. -/
theorem C106_stats_refuted (E : BatchEnv σ V M I Q R) (hb : 0 < E.batchSize)
    (hP : ∀ a b, E.progress a b = .ok ()) (hE : ∀ e, E.onError e = .ok ()) (v1 v2 : List V)
    (m1 m2 : List M) (s : σ) (hv : v1 ≠ []) :
    let r1 := batchInsert E v1 m1 s resetStats
    let st := (batchInsert E v2 m2 r1.2.1 r1.2.2).2.2
    st.total < st.processed + st.failed := by
  obtain ⟨bs, rs, s', g, b, -, -, h, -, -, hsum⟩ := C71_insert E hb hP hE v1 m1 s resetStats
  rw [h]
  simp only
  obtain ⟨bs2, rs2, s2, g2, b2, -, -, h2, -, -, hsum2⟩ := C71_insert E hb hP hE v2 m2 s'
    ⟨v1.length, resetStats.processed + g, resetStats.failed + b⟩
  rw [h2]
  simp only [resetStats]
  have : 0 < v1.length := List.length_pos_iff.2 hv
  omega

/-! ## A concrete run -/

/-- A client that numbers rows and refuses a batch containing a zero. -/
def exBatch : BatchEnv Nat Nat String Nat Nat Nat where
  batchSize := 2
  insert s v _ := if 0 ∈ v then (.error .index, s)
    else (.ok (List.range' s v.length), s + v.length)
  search s q := if q = 0 then (.error .index, s) else (.ok [q, s], s)
  progress _ _ := .ok ()
  onError _ := .ok ()

example : batchInsert exBatch [5, 6, 0, 7, 8] ["a", "b", "c", "d", "e"] 10 ⟨0, 0, 0⟩ =
    (.ok [10, 11, 12], 13, ⟨5, 3, 2⟩) := by decide
example : parallelInsert exBatch [5, 6, 0, 7, 8] ["a", "b", "c", "d", "e"]
    (fun j => if j = 1 then .error .index else .ok (if j = 0 then [11, 12] else [10])) [2, 0, 1]
    ⟨0, 0, 0⟩ = (.ok [10, 11, 12], ⟨5, 3, 2⟩) := by decide
example : batchSearch exBatch [3, 0, 4] 9 ⟨0, 0, 0⟩ = (.ok [[3, 9], [], [4, 9]], 9, ⟨3, 3, 1⟩) := by
  decide
example : plainBatchSearch exBatch.search 2 [3, 0, 4] 9 = (.error .index, 9) := by decide
example : (batchInsert { exBatch with progress := fun _ _ => .error .value } [5, 6, 7] [] 10
    ⟨0, 0, 0⟩) = (.ok [10, 11, 12], 13, ⟨3, 3, 3⟩) := by decide

end Valori.Props
