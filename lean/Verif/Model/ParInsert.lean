import Verif.Model.Py

/-!
# Several threads inserting into one index: batch_manager.py:210-223 with indices/flat.py and lsh.py

`parallel_batch_insert` calls `client.insert` from a pool of threads.  The indices have no lock.  A step
is one statement that touches shared attributes; the scheduler may switch threads between steps.
-/

namespace Valori

/-! ## `FlatIndex.insert`, flat.py:47-86 -/

/-- A row with the uuid it will get and its metadata. -/
structure FRow (V M : Type) where
  id : Id
  v : V
  m : Option M

/-- Next statement of a thread: the storage call, `vector_ids.append`, the assignment to the cache, then
after all rows `len(self.vector_ids)`, the assignment to `_vector_count`, and the return. -/
inductive FPc where
  | store
  | append
  | cache
  | len
  | count (n : Nat)
  | returned
deriving DecidableEq

/-- The index, the storage behind it, and for each thread its row number and next statement. -/
structure FPar (V M : Type) where
  store : Dict Id (V × Option M)
  ids : List Id
  cache : Dict Id V
  count : Nat
  thr : Nat → Nat × FPc

variable {V M : Type}

/-- One statement of thread `t`, flat.py:58-84.  The storage call is one step by C163; the storage is a
map from ids to vectors and metadata. -/
def FPar.step (rows : Nat → List (FRow V M)) (s : FPar V M) (t : Nat) : FPar V M :=
  let i := (s.thr t).1
  let go (pc : Nat × FPc) := Function.update s.thr t pc
  match (s.thr t).2 with
  | .store =>
    match (rows t)[i]? with
    | some r => { s with store := s.store.set r.id (r.v, r.m), thr := go (i, .append) }
    | none => { s with thr := go (i, .len) }
  | .append =>
    match (rows t)[i]? with
    | some r => { s with ids := s.ids ++ [r.id], thr := go (i, .cache) }
    | none => s
  | .cache =>
    match (rows t)[i]? with
    | some r => { s with cache := s.cache.set r.id r.v, thr := go (i + 1, .store) }
    | none => s
  | .len => { s with thr := go (i, .count s.ids.length) }
  | .count n => { s with count := n, thr := go (i, .returned) }
  | .returned => s

/-- A whole execution. -/
def FPar.run (rows : Nat → List (FRow V M)) (s : FPar V M) (sched : List Nat) : FPar V M :=
  sched.foldl (FPar.step rows) s

/-! ## `LSHIndex.add`, lsh.py:63-119 -/

/-- Next statement of a thread: the test of `dimension` (line 85), the assignment to it (line 86),
`_generate_projections` (line 87),
`_next_id` (lines 102-103), `vectors.append`, `metadata.append`, the entries in the hash tables. -/
inductive LPc where
  | test
  | setDim
  | generate
  | take
  | vec (id : Nat)
  | info (id : Nat)
  | hash (id : Nat)
  | returned
  | raised
deriving DecidableEq

/-- A thread: number of the row, next statement, ids so far. -/
structure LThr where
  row : Nat
  pc : LPc
  got : List Nat
deriving DecidableEq

/-- The index.  `proj` numbers the random projections, which are drawn anew by every call of
`_generate_projections`; `tables` records for each entry the projections it was hashed with, the vector
and the id. -/
structure LPar (V : Type) where
  dim : Bool
  proj : Option Nat
  drawn : Nat
  next : Nat
  vectors : List V
  infos : List V
  tables : List (Nat × V × Nat)
  thr : Nat → LThr

/-- One statement of thread `t`.  Taking an id and incrementing the counter counts as one step, although
they are two statements.  All rows have the same dimension and are valid; each row is its own
metadata. -/
def LPar.step (rows : Nat → List V) (s : LPar V) (t : Nat) : LPar V :=
  let th := s.thr t
  let go (th : LThr) := Function.update s.thr t th
  match th.pc with
  | .test =>
    if s.dim then { s with thr := go { th with pc := .take } }
    else { s with thr := go { th with pc := .setDim } }
  | .setDim => { s with dim := true, thr := go { th with pc := .generate } }
  | .generate => { s with proj := some s.drawn, drawn := s.drawn + 1, thr := go { th with pc := .take } }
  | .take =>
    match (rows t)[th.row]? with
    | some _ => { s with next := s.next + 1, thr := go { th with pc := .vec s.next } }
    | none => { s with thr := go { th with pc := .returned } }
  | .vec id =>
    match (rows t)[th.row]? with
    | some r => { s with vectors := s.vectors ++ [r], thr := go { th with pc := .info id } }
    | none => s
  | .info id =>
    match (rows t)[th.row]? with
    | some r => { s with infos := s.infos ++ [r], thr := go { th with pc := .hash id } }
    | none => s
  | .hash id =>
    match (rows t)[th.row]?, s.proj with
    | some r, some p => { s with tables := s.tables ++ [(p, r, id)]
                                 thr := go ⟨th.row + 1, .take, th.got ++ [id]⟩ }
    | some _, none => { s with thr := go { th with pc := .raised } }
    | none, _ => s
  | .returned => s
  | .raised => s

/-- A whole execution. -/
def LPar.run (rows : Nat → List V) (s : LPar V) (sched : List Nat) : LPar V := sched.foldl (LPar.step rows) s

/-- An initialised index without vectors, and threads about to call `add`. -/
def LPar.fresh : LPar V := ⟨false, none, 0, 0, [], [], [], fun _ => ⟨0, .test, []⟩⟩

end Valori
