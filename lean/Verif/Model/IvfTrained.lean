import Verif.Model.IvfConc
import Verif.Model.FlatConc

/-!
# Several threads on one trained IVF index: indices/ivf.py:58-241, 325-357

Every thread makes one call, `insert`, `search`, `update` or `delete`, on an initialised and trained index with arrays
of the right shape; nobody closes it.  A trained index is never trained again, so the centroids stay.  The lists of the
clusters are objects: a search, an update or a deletion that walks through a list keeps it when the dictionary
of clusters gets another one.  The distances in `_add_to_cluster` do not raise, as in `Model/IvfPar`.
-/

namespace Valori
open Spec (Hit)

/-- Where an insertion is.  `store`, `ids`, `cache`: lines 84, 87 and 88 for row `i`; `len`, `count`: line 91;
`choose`: `self.vectors_cache[vector_id]` of line 99 for row `j` and the nearest centroid; `has`, `new`, `push`:
lines 341, 342 and 343. -/
inductive TIns where
  | store (i : Nat)
  | ids (i : Nat)
  | cache (i : Nat)
  | len
  | count (n : Nat)
  | choose (j : Nat)
  | has (j k : Nat)
  | new (j k : Nat)
  | push (j k : Nat)
deriving DecidableEq

/-- Where a deletion is, for id number `i`.  `stor`: line 194; `has`, `rem`: lines 198 and 199; `pop`: line 202;
`iter`: the iterator of line 205 is made for a dictionary of `n` keys; `loop`: its next item, number `p`; `test`,
`remL`: lines 206 and 207. -/
inductive TDel where
  | stor
  | has
  | rem
  | pop
  | iter
  | loop (n p : Nat)
  | test (n p r : Nat)
  | remL (n p r : Nat)
deriving DecidableEq

/-- Where an update is.  The first statement is line 228; `cache`: line 232; `iter`, `loop`, `test`, `remL`: the loop of
lines 351-354; `choose`: the nearest centroid; `has`, `new`, `push`: lines 341-343. -/
inductive TUpd where
  | cache
  | iter
  | loop (n p : Nat)
  | test (n p r : Nat)
  | remL (r : Nat)
  | choose
  | has (k : Nat)
  | new (k : Nat)
  | push (k : Nat)
deriving DecidableEq

/-- Where a search is.  `cents`: the centroids are read, and what follows up to line 133 touches only local
variables; `probe`, `take`: lines 137 and 138 for the next cluster; `walk`: position `i` of the loop over the list
object `r` and the test of line 139; `vec`: line 140, with the distance; `fetch`: line 147; `put`: line 151, with the
distance; `info`: lines 165-173. -/
inductive TSr (V M D : Type) where
  | cents
  | probe (todo : List Nat) (got : List (Id × D))
  | take (c : Nat) (todo : List Nat) (got : List (Id × D))
  | walk (r : Nat) (todo : List Nat) (i : Nat) (got : List (Id × D))
  | vec (r : Nat) (todo : List Nat) (i : Nat) (got : List (Id × D)) (id : Id)
  | fetch (r : Nat) (todo : List Nat) (i : Nat) (got : List (Id × D)) (id : Id)
  | put (r : Nat) (todo : List Nat) (i : Nat) (got : List (Id × D)) (id : Id) (v : V)
  | info (todo : List (Id × D)) (acc : List (Hit D M))
deriving DecidableEq

/-- Where a thread is; `delLen` and `delCount` are line 209. -/
inductive TAt (V M D : Type) where
  | start
  | ins (p : TIns)
  | srch (p : TSr V M D)
  | upd (p : TUpd)
  | del (i : Nat) (ok : Bool) (p : TDel)
  | delLen (ok : Bool)
  | delCount (ok : Bool) (n : Nat)
  | done (r : FRes M D)
deriving DecidableEq

/-- The index, the storage (a dictionary, as `MemoryStorage`) and the threads.  `lists` are the list objects made so
far, `clusters` names one for each cluster. -/
structure TConc (V M D : Type) where
  store : Dict Id (V × Option M)
  ids : List Id
  cache : Dict Id V
  count : Nat
  cents : List V
  lists : List (List Id)
  clusters : Dict Nat Nat
  thr : Nat → TAt V M D

namespace TConc
variable {V M D : Type}

/-- The list object `r`. -/
def content (s : TConc V M D) (r : Nat) : List Id := (s.lists[r]?).getD []

/-- One statement of an insertion, ivf.py:69-104 and 325-343.  The tests of lines 94 and 96 change nothing on a trained
index.  Taking the list of a cluster and appending to it count as one step. -/
def stepIns (env : IConcEnv V D) (rows : List (FRow V M)) (s : TConc V M D) (t : Nat) (p : TIns) : TConc V M D :=
  let go (a : TAt V M D) := Function.update s.thr t a
  match p with
  | .store i =>
    match rows[i]? with
    | none => { s with thr := go (.ins .len) }
    | some r => { s with store := s.store.set r.id (r.v, r.m), thr := go (.ins (.ids i)) }
  | .ids i =>
    match rows[i]? with
    | none => s
    | some r => { s with ids := s.ids ++ [r.id], thr := go (.ins (.cache i)) }
  | .cache i =>
    match rows[i]? with
    | none => s
    | some r => { s with cache := s.cache.set r.id r.v, thr := go (.ins (.store (i + 1))) }
  | .len => { s with thr := go (.ins (.count s.ids.length)) }
  | .count n => { s with count := n, thr := go (.ins (.choose 0)) }
  | .choose j =>
    match rows[j]? with
    | none => { s with thr := go (.done (.ids (rows.map FRow.id))) }
    | some r =>
      match s.cache.get? r.id with
      | none => { s with thr := go (.done .raised) }
      | some v => { s with thr := go (.ins (.has j (env.near s.cents v))) }
  | .has j k => { s with thr := go (.ins (if s.clusters.mem k then .push j k else .new j k)) }
  | .new j k =>
    { s with lists := s.lists ++ [[]], clusters := s.clusters.set k s.lists.length, thr := go (.ins (.push j k)) }
  | .push j k =>
    match rows[j]?, s.clusters.get? k with
    | some r, some o => { s with lists := s.lists.modify o (· ++ [r.id]), thr := go (.ins (.choose (j + 1))) }
    | some _, none => { s with thr := go (.done .raised) }
    | none, _ => s

/-- One statement of a deletion, ivf.py:185-213.  An iterator over a dictionary raises RuntimeError when the number of
keys is no longer what it was when the iterator was made; `list.remove` raises ValueError for an id that is not in
the list. -/
def stepDel (dels : List Id) (s : TConc V M D) (t i : Nat) (ok : Bool) (p : TDel) : TConc V M D :=
  let go (a : TAt V M D) := Function.update s.thr t a
  let fail : TConc V M D := { s with thr := go (.done .raised) }
  match dels[i]? with
  | none => { s with thr := go (.delLen ok) }
  | some id =>
    match p with
    | .stor => { s with store := s.store.pop id, thr := go (.del i (ok && s.store.mem id) .has) }
    | .has => { s with thr := go (.del i ok (if id ∈ s.ids then .rem else .pop)) }
    | .rem => if id ∈ s.ids then { s with ids := removeFirst s.ids id, thr := go (.del i ok .pop) } else fail
    | .pop => { s with cache := s.cache.pop id, thr := go (.del i ok .iter) }
    | .iter => { s with thr := go (.del i ok (.loop s.clusters.length 0)) }
    | .loop n p =>
      if s.clusters.length ≠ n then fail
      else match s.clusters[p]? with
        | none => { s with thr := go (.del (i + 1) ok .stor) }
        | some (_, r) => { s with thr := go (.del i ok (.test n p r)) }
    | .test n p r =>
      { s with thr := go (.del i ok (if id ∈ s.content r then .remL n p r else .loop n (p + 1))) }
    | .remL n p r =>
      if id ∈ s.content r then
        { s with lists := s.lists.modify r (fun x => removeFirst x id), thr := go (.del i ok (.loop n (p + 1))) }
      else fail

/-- One statement of an update, ivf.py:222-241 and 345-357, after the first one. -/
def stepUpd (env : IConcEnv V D) (id : Id) (v : V) (s : TConc V M D) (t : Nat) (p : TUpd) : TConc V M D :=
  let go (a : TAt V M D) := Function.update s.thr t a
  let fail : TConc V M D := { s with thr := go (.done .raised) }
  match p with
  | .cache => { s with cache := s.cache.set id v, thr := go (.upd .iter) }
  | .iter => { s with thr := go (.upd (.loop s.clusters.length 0)) }
  | .loop n p =>
    if s.clusters.length ≠ n then fail
    else match s.clusters[p]? with
      | none => { s with thr := go (.upd .choose) }
      | some (_, r) => { s with thr := go (.upd (.test n p r)) }
  | .test n p r => { s with thr := go (.upd (if id ∈ s.content r then .remL r else .loop n (p + 1))) }
  | .remL r =>
    if id ∈ s.content r then
      { s with lists := s.lists.modify r (fun x => removeFirst x id), thr := go (.upd .choose) }
    else fail
  | .choose => { s with thr := go (.upd (.has (env.near s.cents v))) }
  | .has k => { s with thr := go (.upd (if s.clusters.mem k then .push k else .new k)) }
  | .new k =>
    { s with lists := s.lists ++ [[]], clusters := s.clusters.set k s.lists.length, thr := go (.upd (.push k)) }
  | .push k =>
    match s.clusters.get? k with
    | none => fail
    | some o => { s with lists := s.lists.modify o (· ++ [id]), thr := go (.done (.flag true)) }

variable [LinearOrder D]

/-- One statement of a search, ivf.py:122-178: the new place, and the entry it makes in the cache. -/
def stepSr (env : IConcEnv V D) (q : V) (k : Int) (s : TConc V M D) : TSr V M D → TAt V M D × Option (Id × V)
  | .cents =>
    match IConc.probesOf env q s.cents with
    | .error _ => (.done .raised, none)
    | .ok ps => (.srch (.probe ps []), none)
  | .probe [] got => (.srch (.info (sliceTo (pySortBy Prod.snd got) k) []), none)
  | .probe (c :: todo) got => (.srch (if s.clusters.mem c then .take c todo got else .probe todo got), none)
  | .take c todo got =>
    match s.clusters.get? c with
    | none => (.done .raised, none)
    | some r => (.srch (.walk r todo 0 got), none)
  | .walk r todo i got =>
    match (s.content r)[i]? with
    | none => (.srch (.probe todo got), none)
    | some id => (.srch (if s.cache.mem id then .vec r todo i got id else .fetch r todo i got id), none)
  | .vec r todo i got id =>
    match s.cache.get? id with
    | none => (.done .raised, none)
    | some v =>
      match env.dist q v with
      | .error _ => (.done .raised, none)
      | .ok d => (.srch (.walk r todo (i + 1) (got ++ [(id, d)])), none)
  | .fetch r todo i got id =>
    match s.store.get? id with
    | none => (.srch (.walk r todo (i + 1) got), none)
    | some (v, _) => (.srch (.put r todo i got id v), none)
  | .put r todo i got id v =>
    match env.dist q v with
    | .error _ => (.done .raised, some (id, v))
    | .ok d => (.srch (.walk r todo (i + 1) (got ++ [(id, d)])), some (id, v))
  | .info [] acc => (.done (.hits acc), none)
  | .info ((id, d) :: todo) acc =>
    match s.store.get? id with
    | none => (.done .raised, none)
    | some (_, m) => (.srch (.info todo (acc ++ [⟨id, d, m⟩])), none)

/-- One statement of thread `t`; the first one of a search is the test of ivf.py:115 (the test of line 119 changes
nothing on a trained index), the first one of an update the storage call of line 228. -/
def step (env : IConcEnv V D) (ops : Nat → FOp V M) (s : TConc V M D) (t : Nat) : TConc V M D :=
  let go (a : TAt V M D) := Function.update s.thr t a
  match ops t, s.thr t with
  | .insert _, .start => { s with thr := go (.ins (.store 0)) }
  | .insert rows, .ins p => stepIns env rows s t p
  | .search _ _, .start => { s with thr := go (if s.ids.isEmpty then .done (.hits []) else .srch .cents) }
  | .search q k, .srch p =>
    let r := stepSr env q k s p
    { s with thr := go r.1
             cache := match r.2 with
               | none => s.cache
               | some (id, v) => s.cache.set id v }
  | .update id v m, .start =>
    if s.store.mem id then { s with store := s.store.set id (v, m), thr := go (.upd .cache) }
    else { s with thr := go (.done (.flag false)) }
  | .update id v _, .upd p => stepUpd env id v s t p
  | .delete _, .start => { s with thr := go (.del 0 true .stor) }
  | .delete dels, .del i ok p => stepDel dels s t i ok p
  | .delete _, .delLen ok => { s with thr := go (.delCount ok s.ids.length) }
  | .delete _, .delCount ok n => { s with count := n, thr := go (.done (.flag ok)) }
  | _, _ => s

/-- A whole execution. -/
def run (env : IConcEnv V D) (ops : Nat → FOp V M) (s : TConc V M D) (sched : List Nat) : TConc V M D :=
  sched.foldl (step env ops) s

end TConc
end Valori
