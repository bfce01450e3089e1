import Verif.Model.Py

/-!
# Batch operations: utils/batch_manager.py, utils/helpers.py:228-252
-/

namespace Valori

/-- `_stats`, batch_manager.py:42-48.  The two times are left out. -/
structure BStats where
  total : Nat
  processed : Nat
  failed : Nat
deriving DecidableEq, Repr

/-- A batch manager with the client it is given.  `insert` and `search` are the client's calls on its
state.  The callbacks are arbitrary functions that may raise: `progress` on (processed, total),
`onError` on the error; `none` when no error callback is set (then the error is printed). -/
structure BatchEnv (σ V M I Q R : Type) where
  batchSize : Nat
  insert : σ → List V → List M → Res σ (List I)
  search : σ → Q → Res σ (List R)
  progress : Nat → Nat → Except Err Unit
  onError : Err → Except Err Unit

/-- `range(0, n, step)` for a step of at least 1. -/
def starts (n step : Nat) : List Nat := (List.range ((n + step - 1) / step)).map (· * step)

/-- `l[i : i + b]` -/
def batchAt {α : Type} (l : List α) (i b : Nat) : List α := (l.drop i).take b

variable {σ V M I Q R : Type}

/-- State of a running batch operation: the client's state, the statistics, what has been
collected. -/
abbrev BState (σ α : Type) := σ × BStats × List α

/-- The loop of `batch_insert`, batch_manager.py:83-113.  An exception of the progress callback is
caught like one of the client; one of the error callback ends the call. -/
def insertLoop (E : BatchEnv σ V M I Q R) (vectors : List V) (metadata : List M) :
    List Nat → BState σ I → Except Err (List I) × (σ × BStats)
  | [], (s, st, ids) => (.ok ids, s, st)
  | i :: is, (s, st, ids) =>
    let bv := batchAt vectors i E.batchSize
    let bm := batchAt metadata i E.batchSize
    let fail (e : Err) (s : σ) (st : BStats) (ids : List I) : Except Err (List I) × (σ × BStats) :=
      let st := { st with failed := st.failed + bv.length }
      match E.onError e with
      | .error e' => (.error e', s, st)
      | .ok () => insertLoop E vectors metadata is (s, st, ids)
    match E.insert s bv bm with
    | (.error e, s) => fail e s st ids
    | (.ok new, s) =>
      let ids := ids ++ new
      let st := { st with processed := st.processed + bv.length }
      match E.progress st.processed st.total with
      | .error e => fail e s st ids
      | .ok () => insertLoop E vectors metadata is (s, st, ids)

/-- `batch_insert`, batch_manager.py:58-116; printing left out. -/
def batchInsert (E : BatchEnv σ V M I Q R) (vectors : List V) (metadata : List M) (s : σ)
    (st : BStats) : Except Err (List I) × (σ × BStats) :=
  insertLoop E vectors metadata (starts vectors.length E.batchSize)
    (s, { st with total := vectors.length }, [])

/-- The inner loop of `batch_search`, batch_manager.py:143-156. -/
def searchEach (E : BatchEnv σ V M I Q R) : List Q → BState σ (List R) →
    Except Err (List (List R)) × (σ × BStats)
  | [], (s, st, out) => (.ok out, s, st)
  | q :: qs, (s, st, out) =>
    match E.search s q with
    | (.ok r, s) => searchEach E qs (s, st, out ++ [r])
    | (.error e, s) =>
      let st := { st with failed := st.failed + 1 }
      match E.onError e with
      | .error e' => (.error e', s, st)
      | .ok () => searchEach E qs (s, st, out ++ [[]])

/-- The loop of `batch_search`, batch_manager.py:139-168. -/
def searchLoop (E : BatchEnv σ V M I Q R) (queries : List Q) : List Nat → BState σ (List R) →
    Except Err (List (List R)) × (σ × BStats)
  | [], (s, st, out) => (.ok out, s, st)
  | i :: is, (s, st, out) =>
    let bq := batchAt queries i E.batchSize
    match searchEach E bq (s, st, []) with
    | (.error e, s, st) => (.error e, s, st)
    | (.ok rs, s, st) =>
      let st := { st with processed := st.processed + bq.length }
      match E.progress st.processed st.total with
      | .error e => (.error e, s, st)
      | .ok () => searchLoop E queries is (s, st, out ++ rs)

/-- `batch_search`, batch_manager.py:118-173. -/
def batchSearch (E : BatchEnv σ V M I Q R) (queries : List Q) (s : σ) (st : BStats) :
    Except Err (List (List R)) × (σ × BStats) :=
  searchLoop E queries (starts queries.length E.batchSize)
    (s, { st with total := queries.length }, [])

/-- The batches of `parallel_batch_insert`, batch_manager.py:199-208. -/
def mkBatches (b : Nat) (vectors : List V) (metadata : List M) : List (List V × List M) :=
  (starts vectors.length b).map fun i => (batchAt vectors i b, batchAt metadata i b)

/-- Collecting the results, batch_manager.py:226-247.  `reply j` is what `client.insert` gave for batch
`j` in its thread, `done` the order in which the futures completed. -/
def collect (E : BatchEnv σ V M I Q R) (batches : List (List V × List M))
    (reply : Nat → Except Err (List I)) : List Nat → BStats → List I →
    Except Err (List I) × BStats
  | [], st, ids => (.ok ids, st)
  | j :: done, st, ids =>
    let cont (st : BStats) (ids : List I) : Except Err (List I) × BStats :=
      match E.progress st.processed st.total with
      | .error e => (.error e, st)
      | .ok () => collect E batches reply done st ids
    match reply j with
    | .error e =>
      let st := { st with failed := st.failed + ((batches[j]?.map fun p => p.1.length).getD 0) }
      match E.onError e with
      | .error e' => (.error e', st)
      | .ok () => cont st ids
    | .ok new => cont { st with processed := st.processed + new.length } (ids ++ new)

/-- `parallel_batch_insert`, batch_manager.py:175-252.  The threads are replaced by their replies and
completion order. -/
def parallelInsert (E : BatchEnv σ V M I Q R) (vectors : List V) (metadata : List M)
    (reply : Nat → Except Err (List I)) (done : List Nat) (st : BStats) :
    Except Err (List I) × BStats :=
  collect E (mkBatches E.batchSize vectors metadata) reply done { st with total := vectors.length } []

/-- One batch of `batch_search` in helpers.py, lines 248-250. -/
def plainEach (search : σ → Q → Res σ (List R)) : List Q → σ → List (List R) →
    Res σ (List (List R))
  | [], s, out => (.ok out, s)
  | q :: qs, s, out =>
    match search s q with
    | (.error e, s) => (.error e, s)
    | (.ok r, s) => plainEach search qs s (out ++ [r])

/-- The loop of `batch_search`, helpers.py:245-250. -/
def plainLoop (search : σ → Q → Res σ (List R)) (b : Nat) (queries : List Q) : List Nat → σ →
    List (List R) → Res σ (List (List R))
  | [], s, out => (.ok out, s)
  | i :: is, s, out =>
    match plainEach search (batchAt queries i b) s out with
    | (.error e, s) => (.error e, s)
    | (.ok out, s) => plainLoop search b queries is s out

/-- `batch_search`, helpers.py:228-252. -/
def plainBatchSearch (search : σ → Q → Res σ (List R)) (b : Nat) (queries : List Q) (s : σ) :
    Res σ (List (List R)) :=
  plainLoop search b queries (starts queries.length b) s []

/-- `reset_stats`, batch_manager.py:295-303. -/
def resetStats : BStats := ⟨0, 0, 0⟩

end Valori
