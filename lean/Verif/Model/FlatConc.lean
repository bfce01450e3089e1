import Verif.Model.Flat
import Verif.Model.ParInsert

/-!
# Several threads using one flat index: indices/flat.py:47-214

The index has no lock.  A step is one statement that reads or writes shared attributes; the scheduler may
switch threads between steps.  Every thread makes one call on an initialised index with arrays of the right
shape; nobody closes it.  A call of the storage is one step (C163 for the memory storage); the storage is a
map from ids to vectors and metadata.
-/

namespace Valori
open Spec (Hit)

/-- The call a thread makes; rows come with their uuids. -/
inductive FOp (V M : Type) where
  | insert (rows : List (FRow V M))
  | search (q : V) (k : Int)
  | update (id : Id) (v : V) (m : Option M)
  | delete (dels : List Id)

/-- What a call gives. -/
inductive FRes (M D : Type) where
  | ids (l : List Id)
  | hits (l : List (Hit D M))
  | flag (b : Bool)
  | raised
deriving DecidableEq

/-- Next statement of a thread.  `row`, `append`, `cache`: the three statements of the loop of `insert`
for row `i` (flat.py:74, 77, 78).  `limit`: `k = min(k, len(self.vector_ids))` (flat.py:101).  `scan`: the
next round of the loop of `search` at position `i` (flat.py:111-112), `read`: line 113, `fetch`: line 115,
`put`: line 119; `got` are the pairs of `valid_ids` and `vectors`.  `info`: the loop that reads the metadata
(flat.py:143-155).  `updCache`: line 209.  `del`, `delTest`, `delRemove`, `delPop`: lines 176, 180, 181
and 184 for id number `i`; `ok` is `success`.  `len`, `count`: the two halves of lines 82 and 186. -/
inductive FAt (V M D : Type) where
  | start
  | row (i : Nat)
  | append (i : Nat)
  | cache (i : Nat)
  | limit
  | scan (k : Int) (i : Nat) (got : List (Id × V))
  | read (k : Int) (i : Nat) (got : List (Id × V)) (id : Id)
  | fetch (k : Int) (i : Nat) (got : List (Id × V)) (id : Id)
  | put (k : Int) (i : Nat) (got : List (Id × V)) (id : Id) (v : V)
  | info (todo : List (Id × D)) (acc : List (Hit D M))
  | updCache
  | del (i : Nat) (ok : Bool)
  | delTest (i : Nat) (ok : Bool)
  | delRemove (i : Nat) (ok : Bool)
  | delPop (i : Nat) (ok : Bool)
  | len (r : FRes M D)
  | count (n : Nat) (r : FRes M D)
  | done (r : FRes M D)
deriving DecidableEq

/-- The index, the storage behind it, and the next statement of each thread. -/
structure FConc (V M D : Type) where
  store : Dict Id (V × Option M)
  ids : List Id
  cache : Dict Id V
  count : Nat
  thr : Nat → FAt V M D

namespace FConc
variable {V M D : Type}

/-- The part of `search` between the loop and the metadata, flat.py:124-140; it touches only local
variables. -/
def rank (env : FlatEnv V D) (q : V) (k : Int) (got : List (Id × V)) : FAt V M D :=
  if got.isEmpty then .done (.hits [])
  else if !Flat.checkOk env q (got.map Prod.snd) then .done .raised
  else .info (Flat.ranked env q k got) []

/-- One statement of `insert`, flat.py:47-86. -/
def stepInsert (rows : List (FRow V M)) (s : FConc V M D) (go : FAt V M D → Nat → FAt V M D) :
    FAt V M D → FConc V M D
  | .start => { s with thr := go (.row 0) }
  | .row i =>
    match rows[i]? with
    | some r => { s with store := s.store.set r.id (r.v, r.m), thr := go (.append i) }
    | none => { s with thr := go (.len (.ids (rows.map FRow.id))) }
  | .append i =>
    match rows[i]? with
    | some r => { s with ids := s.ids ++ [r.id], thr := go (.cache i) }
    | none => s
  | .cache i =>
    match rows[i]? with
    | some r => { s with cache := s.cache.set r.id r.v, thr := go (.row (i + 1)) }
    | none => s
  | .len r => { s with thr := go (.count s.ids.length r) }
  | .count n r => { s with count := n, thr := go (.done r) }
  | _ => s

/-- One statement of `search`, flat.py:88-160.  A `for` loop over a list looks at position `i` of the list
as it is then. -/
def stepSearch (env : FlatEnv V D) (q : V) (k : Int) (s : FConc V M D)
    (go : FAt V M D → Nat → FAt V M D) : FAt V M D → FConc V M D
  | .start => { s with thr := go (if s.ids.isEmpty then .done (.hits []) else .limit) }
  | .limit => { s with thr := go (.scan (min k (s.ids.length : Int)) 0 []) }
  | .scan k' i got =>
    match s.ids[i]? with
    | none => { s with thr := go (rank env q k' got) }
    | some id => { s with thr := go (if s.cache.mem id then .read k' i got id else .fetch k' i got id) }
  | .read k' i got id =>
    match s.cache.get? id with
    | none => { s with thr := go (.done .raised) }
    | some v => { s with thr := go (.scan k' (i + 1) (got ++ [(id, v)])) }
  | .fetch k' i got id =>
    match s.store.get? id with
    | none => { s with thr := go (.scan k' (i + 1) got) }
    | some (v, _) => { s with thr := go (.put k' i got id v) }
  | .put k' i got id v =>
    { s with cache := s.cache.set id v, thr := go (.scan k' (i + 1) (got ++ [(id, v)])) }
  | .info [] acc => { s with thr := go (.done (.hits acc)) }
  | .info ((id, d) :: todo) acc =>
    match s.store.get? id with
    | none => { s with thr := go (.done .raised) }
    | some (_, m) => { s with thr := go (.info todo (acc ++ [⟨id, d, m⟩])) }
  | _ => s

/-- One statement of `update`, flat.py:192-214. -/
def stepUpdate (id : Id) (v : V) (m : Option M) (s : FConc V M D) (go : FAt V M D → Nat → FAt V M D) :
    FAt V M D → FConc V M D
  | .start =>
    if s.store.mem id then { s with store := s.store.set id (v, m), thr := go .updCache }
    else { s with thr := go (.done (.flag false)) }
  | .updCache => { s with cache := s.cache.set id v, thr := go (.done (.flag true)) }
  | _ => s

/-- One statement of `delete`, flat.py:162-190. -/
def stepDelete (dels : List Id) (s : FConc V M D) (go : FAt V M D → Nat → FAt V M D) :
    FAt V M D → FConc V M D
  | .start => { s with thr := go (.del 0 true) }
  | .del i ok =>
    match dels[i]? with
    | none => { s with thr := go (.len (.flag ok)) }
    | some id => { s with store := s.store.pop id, thr := go (.delTest i (ok && s.store.mem id)) }
  | .delTest i ok =>
    match dels[i]? with
    | none => s
    | some id => { s with thr := go (if id ∈ s.ids then .delRemove i ok else .delPop i ok) }
  | .delRemove i ok =>
    match dels[i]? with
    | none => s
    | some id =>
      if id ∈ s.ids then { s with ids := removeFirst s.ids id, thr := go (.delPop i ok) }
      else { s with thr := go (.done .raised) }
  | .delPop i ok =>
    match dels[i]? with
    | none => s
    | some id => { s with cache := s.cache.pop id, thr := go (.del (i + 1) ok) }
  | .len r => { s with thr := go (.count s.ids.length r) }
  | .count n r => { s with count := n, thr := go (.done r) }
  | _ => s

/-- One statement of thread `t`. -/
def step (env : FlatEnv V D) (ops : Nat → FOp V M) (s : FConc V M D) (t : Nat) : FConc V M D :=
  let go := fun a => Function.update s.thr t a
  match ops t with
  | .insert rows => stepInsert rows s go (s.thr t)
  | .search q k => stepSearch env q k s go (s.thr t)
  | .update id v m => stepUpdate id v m s go (s.thr t)
  | .delete dels => stepDelete dels s go (s.thr t)

/-- A whole execution. -/
def run (env : FlatEnv V D) (ops : Nat → FOp V M) (s : FConc V M D) (sched : List Nat) : FConc V M D :=
  sched.foldl (step env ops) s

end FConc
end Valori
