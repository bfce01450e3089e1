import Verif.Model.ParInsert

/-!
# Several threads inserting into one IVF index: batch_manager.py:210-223 with indices/ivf.py

The rows are stored as in the flat index (ivf.py:71-91 are the statements of flat.py:58-84), so the first
part of a call is that of `Model/ParInsert`.  Then follow the tests and either the training or the entry
into the clusters.
-/

namespace Valori

/-- Next statement of a thread after its rows are stored and the count is assigned:
`len(self.vector_ids) >= self.n_clusters` (ivf.py:94), `not self._trained` (ivf.py:94), `self._trained`
(ivf.py:96); in `_train_index` (whose own test of the length repeats line 94) the round of the loading loop for position `i` (ivf.py:284-298), the
assignment of the centroids (ivf.py:310), `clusters.clear()` (ivf.py:313), for each id the test, the new
list and the append (ivf.py:316-318), and `_trained = True` (ivf.py:320); in `_add_to_cluster` for row `j`
the choice of the cluster (ivf.py:327-338), the test, the new list and the append (ivf.py:341-343). -/
inductive IPh (V : Type) where
  | testLen
  | testTrained
  | testAdd
  | load (i : Nat) (got : List (Id × V))
  | setCents (cents : List V) (todo : List (Id × Nat))
  | clear (todo : List (Id × Nat))
  | has (todo : List (Id × Nat))
  | new (todo : List (Id × Nat))
  | push (todo : List (Id × Nat))
  | setTrained
  | choose (j : Nat)
  | addHas (j k : Nat)
  | addNew (j k : Nat)
  | addPush (j k : Nat)
  | returned
  | raised
deriving DecidableEq

/-- The index and the threads.  `base` are the parts shared with the flat index and the first part of
each call. -/
structure IPar (V M : Type) where
  base : FPar V M
  cents : Option (List V)
  clusters : Dict Nat (List Id)
  trained : Bool
  ph : Nat → IPh V

/-- Number of clusters, k-means (centroids and one label per vector; assumed not to raise) and the number
of the nearest centroid (ivf.py:331-338). -/
structure IParEnv (V : Type) where
  n : Nat
  kmeans : List V → List V × List Nat
  near : List V → V → Nat

variable {V M : Type}

/-- One statement of the second part of a call of thread `t`.  The loading loop runs over the list as it
is at each round.  Reading `_trained` and the centroids and choosing the cluster counts as one step. -/
def IPar.phase (env : IParEnv V) (rows : Nat → List (FRow V M)) (s : IPar V M) (t : Nat) : IPar V M :=
  let go (p : IPh V) := Function.update s.ph t p
  match s.ph t with
  | .testLen =>
    if env.n ≤ s.base.ids.length then { s with ph := go .testTrained } else { s with ph := go .testAdd }
  | .testTrained =>
    if s.trained then { s with ph := go .testAdd } else { s with ph := go (.load 0 []) }
  | .testAdd =>
    if s.trained then { s with ph := go (.choose 0) } else { s with ph := go .returned }
  | .load i got =>
    match s.base.ids[i]? with
    | none =>
      if got.isEmpty then { s with ph := go .returned }
      else
        let r := env.kmeans (got.map Prod.snd)
        { s with ph := go (.setCents r.1 ((got.map Prod.fst).zip r.2)) }
    | some id =>
      match s.base.cache.get? id with
      | some v => { s with ph := go (.load (i + 1) (got ++ [(id, v)])) }
      | none =>
        match s.base.store.get? id with
        | none => { s with ph := go (.load (i + 1) got) }
        | some (v, _) =>
          { s with base := { s.base with cache := s.base.cache.set id v }
                   ph := go (.load (i + 1) (got ++ [(id, v)])) }
  | .setCents c todo => { s with cents := some c, ph := go (.clear todo) }
  | .clear todo => { s with clusters := [], ph := go (.has todo) }
  | .has [] => { s with ph := go .setTrained }
  | .has ((id, k) :: todo) =>
    if s.clusters.mem k then { s with ph := go (.push ((id, k) :: todo)) }
    else { s with ph := go (.new ((id, k) :: todo)) }
  | .new [] => s
  | .new ((id, k) :: todo) => { s with clusters := s.clusters.set k [], ph := go (.push ((id, k) :: todo)) }
  | .push [] => s
  | .push ((id, k) :: todo) =>
    match s.clusters.get? k with
    | none => { s with ph := go .raised }
    | some l => { s with clusters := s.clusters.set k (l ++ [id]), ph := go (.has todo) }
  | .setTrained => { s with trained := true, ph := go .returned }
  | .choose j =>
    match (rows t)[j]? with
    | none => { s with ph := go .returned }
    | some r =>
      match s.base.cache.get? r.id with
      | none => { s with ph := go .raised }
      | some v =>
        match s.trained, s.cents with
        | true, some c => { s with ph := go (.addHas j (env.near c v)) }
        | _, _ => { s with ph := go (.choose (j + 1)) }
  | .addHas j k =>
    if s.clusters.mem k then { s with ph := go (.addPush j k) } else { s with ph := go (.addNew j k) }
  | .addNew j k => { s with clusters := s.clusters.set k [], ph := go (.addPush j k) }
  | .addPush j k =>
    match (rows t)[j]?, s.clusters.get? k with
    | some r, some l => { s with clusters := s.clusters.set k (l ++ [r.id]), ph := go (.choose (j + 1)) }
    | some _, none => { s with ph := go .raised }
    | none, _ => s
  | .returned => s
  | .raised => s

/-- One statement of thread `t`, ivf.py:58-104. -/
def IPar.step (env : IParEnv V) (rows : Nat → List (FRow V M)) (s : IPar V M) (t : Nat) : IPar V M :=
  if (s.base.thr t).2 = .returned then s.phase env rows t
  else { s with base := s.base.step rows t }

/-- A whole execution. -/
def IPar.run (env : IParEnv V) (rows : Nat → List (FRow V M)) (s : IPar V M) (sched : List Nat) :
    IPar V M :=
  sched.foldl (IPar.step env rows) s

/-- The ids listed in cluster `k`, which `search` walks through when it probes `k` (ivf.py:137-138). -/
def IPar.cluster (s : IPar V M) (k : Nat) : List Id := (s.clusters.get? k).getD []

end Valori
