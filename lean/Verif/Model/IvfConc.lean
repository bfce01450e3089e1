import Verif.Model.IvfPar
import Verif.Model.Ivf
import Verif.Model.HnswPar

/-!
# Several threads inserting into and searching one IVF index: indices/ivf.py:58-178, 274-343 and 359-394

As in `Model/IvfPar`, with searches and with the lists of the clusters as objects: a search that walks
through a list keeps walking through it when the dictionary of clusters has been cleared or got another list.
Every thread makes one call on an initialised index with arrays of the right shape; nobody deletes, updates
or closes.
-/

namespace Valori
open Spec (Hit)

/-- What a search walks through: all ids (ivf.py:363), or the list object `r` of a cluster with the clusters
still to probe (ivf.py:138). -/
inductive ISrc where
  | all
  | list (r : Nat) (todo : List Nat)
deriving DecidableEq

/-- Where a search is.  `start`: the test of ivf.py:115; `test`: line 119; `cents`: the centroids are read, and
what follows up to line 133 touches only local variables; `probe`: the test of line 137 for the next cluster;
`take`: `self.clusters[cluster_id]` in line 138; `walk`: position `i` of the loop in lines 138-140 or 363-365,
with the distance; `fetch`: the storage call of lines 147 or 367; `put`: lines 151 or 371, with the distance;
`info`: the loop that reads the metadata (lines 165-173 or 381-392). -/
inductive ISr (V M D : Type) where
  | start
  | test
  | cents
  | probe (todo : List Nat) (got : List (Id × D))
  | take (c : Nat) (todo : List Nat) (got : List (Id × D))
  | walk (src : ISrc) (i : Nat) (got : List (Id × D))
  | fetch (src : ISrc) (i : Nat) (got : List (Id × D)) (id : Id)
  | put (src : ISrc) (i : Nat) (got : List (Id × D)) (id : Id) (v : V)
  | info (todo : List (Id × D)) (acc : List (Hit D M))
  | done (r : FRes M D)
deriving DecidableEq

/-- The index and the threads.  `lists` are the list objects made so far, `clusters` names one for each
cluster.  `base` and `ph` are as in `IPar`. -/
structure IConc (V M D : Type) where
  base : FPar V M
  cents : Option (List V)
  lists : List (List Id)
  clusters : Dict Nat Nat
  trained : Bool
  ph : Nat → IPh V
  sr : Nat → ISr V M D

/-- Parameters of `IParEnv`, `n_probes` and the distance. -/
structure IConcEnv (V D : Type) extends IParEnv V where
  nProbes : Int
  dist : V → V → Except Err D

namespace IConc
variable {V M D : Type}

/-- The rows a thread inserts. -/
def rowsOf (ops : Nat → HOp V M) (t : Nat) : List (FRow V M) :=
  match ops t with
  | .insert rows => rows
  | .search _ _ => []

/-- One statement of the second part of an insertion, as in `IPar.phase`.  Taking the list of a cluster and
appending to it count as one step. -/
def phase (env : IConcEnv V D) (rows : List (FRow V M)) (s : IConc V M D) (t : Nat) : IConc V M D :=
  let go (p : IPh V) := Function.update s.ph t p
  match s.ph t with
  | .testLen =>
    if env.n ≤ s.base.ids.length then { s with ph := go .testTrained } else { s with ph := go .testAdd }
  | .testTrained =>
    if s.trained then { s with ph := go .testAdd } else { s with ph := go (.load 0 []) }
  | .testAdd =>
    if s.trained then { s with ph := go (.choose 0) } else { s with ph := go .returned }
  | .load i got =>
    match s.base.ids[i]? with
    | none =>
      if got.isEmpty then { s with ph := go .returned }
      else
        let r := env.kmeans (got.map Prod.snd)
        { s with ph := go (.setCents r.1 ((got.map Prod.fst).zip r.2)) }
    | some id =>
      match s.base.cache.get? id with
      | some v => { s with ph := go (.load (i + 1) (got ++ [(id, v)])) }
      | none =>
        match s.base.store.get? id with
        | none => { s with ph := go (.load (i + 1) got) }
        | some (v, _) =>
          { s with base := { s.base with cache := s.base.cache.set id v }
                   ph := go (.load (i + 1) (got ++ [(id, v)])) }
  | .setCents c todo => { s with cents := some c, ph := go (.clear todo) }
  | .clear todo => { s with clusters := [], ph := go (.has todo) }
  | .has [] => { s with ph := go .setTrained }
  | .has ((id, k) :: todo) =>
    if s.clusters.mem k then { s with ph := go (.push ((id, k) :: todo)) }
    else { s with ph := go (.new ((id, k) :: todo)) }
  | .new [] => s
  | .new ((id, k) :: todo) =>
    { s with lists := s.lists ++ [[]], clusters := s.clusters.set k s.lists.length
             ph := go (.push ((id, k) :: todo)) }
  | .push [] => s
  | .push ((id, k) :: todo) =>
    match s.clusters.get? k with
    | none => { s with ph := go .raised }
    | some r => { s with lists := s.lists.modify r (· ++ [id]), ph := go (.has todo) }
  | .setTrained => { s with trained := true, ph := go .returned }
  | .choose j =>
    match rows[j]? with
    | none => { s with ph := go .returned }
    | some r =>
      match s.base.cache.get? r.id with
      | none => { s with ph := go .raised }
      | some v =>
        match s.trained, s.cents with
        | true, some c => { s with ph := go (.addHas j (env.near c v)) }
        | _, _ => { s with ph := go (.choose (j + 1)) }
  | .addHas j k =>
    if s.clusters.mem k then { s with ph := go (.addPush j k) } else { s with ph := go (.addNew j k) }
  | .addNew j k =>
    { s with lists := s.lists ++ [[]], clusters := s.clusters.set k s.lists.length, ph := go (.addPush j k) }
  | .addPush j k =>
    match rows[j]?, s.clusters.get? k with
    | some r, some o => { s with lists := s.lists.modify o (· ++ [r.id]), ph := go (.choose (j + 1)) }
    | some _, none => { s with ph := go .raised }
    | none, _ => s
  | .returned => s
  | .raised => s

/-- The clusters to probe, ivf.py:123-132. -/
def probesOf [LinearOrder D] (env : IConcEnv V D) (q : V) (cents : List V) : Except Err (List Nat) :=
  match numberedDists (env.dist q) 0 cents with
  | .error e => .error e
  | .ok ds => .ok ((sliceTo (pySortBy Prod.snd ds) env.nProbes).map Prod.fst)

/-- The list a loop looks at. -/
def source (s : IConc V M D) : ISrc → List Id
  | .all => s.base.ids
  | .list r _ => (s.lists[r]?).getD []

/-- What comes after a loop. -/
def afterLoop [LinearOrder D] (k : Int) (got : List (Id × D)) : ISrc → ISr V M D
  | .all => .info (sliceTo (pySortBy Prod.snd got) k) []
  | .list _ todo => .probe todo got

/-- One statement of a search, ivf.py:106-178 and 359-394: the new place, and the entry it makes in the cache.
A `for` loop over a list looks at position `i` of the list as it is then.  Looking whether an id is in the cache
and reading it count as one step, since nobody removes entries. -/
def search [LinearOrder D] (env : IConcEnv V D) (q : V) (k : Int) (s : IConc V M D) :
    ISr V M D → ISr V M D × Option (Id × V)
  | .start => (if s.base.ids.isEmpty then .done (.hits []) else .test, none)
  | .test => (if s.trained then .cents else .walk .all 0 [], none)
  | .cents =>
    match s.cents with
    | none => (.done .raised, none)
    | some cs =>
      match probesOf env q cs with
      | .error _ => (.done .raised, none)
      | .ok ps => (.probe ps [], none)
  | .probe [] got => (.info (sliceTo (pySortBy Prod.snd got) k) [], none)
  | .probe (c :: todo) got => (if s.clusters.mem c then .take c todo got else .probe todo got, none)
  | .take c todo got =>
    match s.clusters.get? c with
    | none => (.done .raised, none)
    | some r => (.walk (.list r todo) 0 got, none)
  | .walk src i got =>
    match (s.source src)[i]? with
    | none => (afterLoop k got src, none)
    | some id =>
      match s.base.cache.get? id with
      | none => (.fetch src i got id, none)
      | some v =>
        match env.dist q v with
        | .error _ => (.done .raised, none)
        | .ok d => (.walk src (i + 1) (got ++ [(id, d)]), none)
  | .fetch src i got id =>
    match s.base.store.get? id with
    | none => (.walk src (i + 1) got, none)
    | some (v, _) => (.put src i got id v, none)
  | .put src i got id v =>
    match env.dist q v with
    | .error _ => (.done .raised, some (id, v))
    | .ok d => (.walk src (i + 1) (got ++ [(id, d)]), some (id, v))
  | .info [] acc => (.done (.hits acc), none)
  | .info ((id, d) :: todo) acc =>
    match s.base.store.get? id with
    | none => (.done .raised, none)
    | some (_, m) => (.info todo (acc ++ [⟨id, d, m⟩]), none)
  | .done r => (.done r, none)

/-- One statement of thread `t`. -/
def step [LinearOrder D] (env : IConcEnv V D) (ops : Nat → HOp V M) (s : IConc V M D) (t : Nat) : IConc V M D :=
  match ops t with
  | .insert rows =>
    if (s.base.thr t).2 = .returned then s.phase env rows t
    else { s with base := s.base.step (rowsOf ops) t }
  | .search q k =>
    let r := s.search env q k (s.sr t)
    { s with base := match r.2 with
               | none => s.base
               | some (id, v) => { s.base with cache := s.base.cache.set id v }
             sr := Function.update s.sr t r.1 }

/-- A whole execution. -/
def run [LinearOrder D] (env : IConcEnv V D) (ops : Nat → HOp V M) (s : IConc V M D) (sched : List Nat) :
    IConc V M D :=
  sched.foldl (step env ops) s

end IConc
end Valori
