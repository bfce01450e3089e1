import Verif.Model.Flat

/-!
# `IVFIndex` (`/repo/src/valori/indices/ivf.py`)

Same conventions as `Model/Flat.lean`: the state is the pair of index fields and storage
state; the `sb is None` branches cannot be reached once initialised.
-/

namespace Valori
open Spec (Hit IxCall IxReply)

/-- Fields of `IVFIndex`, ivf.py:25-38. -/
structure Ivf (V : Type) where
  cents : Option (List V)
  clusters : Dict Nat (List Id)
  ids : List Id
  cache : Dict Id V
  count : Nat
  trained : Bool
  inited : Bool
deriving DecidableEq, Repr

/-- Configuration and numerics.  `dist` is `_compute_distance` (ivf.py:396-410) for the
configured metric; it raises for an unsupported metric or mismatching shapes; its values lie in
a linear order (NaN and infinite distances excluded).  `kmeans` is scikit-learn's
`KMeans(...).fit_predict` with `cluster_centers_`: centroids and one label per vector. -/
structure IvfEnv (V D : Type) where
  nClusters : Int
  nProbes : Int
  dist : V → V → Except Err D
  kmeans : List V → Except Err (List V × List Nat)

/-- Load each vector from cache or storage and compute its distance:
ivf.py:138-154 and 363-374. -/
def scanVecs {σ V M D : Type} (B : Backend σ V M) (dist : V → Except Err D) :
    List Id → Dict Id V → σ → Except Err (List (Id × D)) × Dict Id V × σ
  | [], c, s => (.ok [], c, s)
  | id :: rest, c, s =>
    match c.get? id with
    | some v =>
      match dist v with
      | .error e => (.error e, c, s)
      | .ok d =>
        match scanVecs B dist rest c s with
        | (.ok l, c', s') => (.ok ((id, d) :: l), c', s')
        | (.error e, c', s') => (.error e, c', s')
    | none =>
      match B.retrieve s id with
      | (.error e, s') => (.error e, c, s')
      | (.ok none, s') => scanVecs B dist rest c s'
      | (.ok (some (v, _)), s') =>
        match dist v with
        | .error e => (.error e, c.set id v, s')
        | .ok d =>
          match scanVecs B dist rest (c.set id v) s' with
          | (.ok l, c', s'') => (.ok ((id, d) :: l), c', s'')
          | (.error e, c', s'') => (.error e, c', s'')

/-- Distances to numbered points: ivf.py:123-126. -/
def numberedDists {V D : Type} (dist : V → Except Err D) : Nat → List V → Except Err (List (Nat × D))
  | _, [] => .ok []
  | i, c :: cs =>
    match dist c with
    | .error e => .error e
    | .ok d =>
      match numberedDists dist (i + 1) cs with
      | .error e => .error e
      | .ok l => .ok ((i, d) :: l)

namespace Ivf
variable {σ V M D : Type} [LinearOrder D]

/-- The constructor, ivf.py:25-38. -/
def new : Ivf V := ⟨none, [], [], [], 0, false, false⟩

/-- Building the clusters from labels, ivf.py:313-318.  Simplification: `valid_ids` and labels
are zipped (scikit-learn returns one label per row). -/
def buildClusters : List (Id × Nat) → Dict Nat (List Id) → Dict Nat (List Id)
  | [], cl => cl
  | (id, c) :: rest, cl => buildClusters rest (cl.set c ((cl.get? c).getD [] ++ [id]))

/-- `_train_index`, ivf.py:274-323. -/
def train (env : IvfEnv V D) (B : Backend σ V M) (f : Ivf V) (s : σ) : Res (Ivf V × σ) Unit :=
  if (f.ids.length : Int) < env.nClusters then (.ok (), f, s)
  else
    match loadVecs B f.ids f.cache s with
    | (.error _, c, s') => (.error .index, { f with cache := c }, s')
    | (.ok vs, c, s') =>
      if vs.isEmpty then (.ok (), { f with cache := c }, s')
      else
        match env.kmeans (vs.map Prod.snd) with
        | .error _ => (.error .index, { f with cache := c }, s')
        | .ok (cents, labels) =>
          (.ok (), { f with cache := c, cents := some cents, trained := true,
                            clusters := buildClusters ((vs.map Prod.fst).zip labels) [] }, s')

/-- `initialize`, ivf.py:40-56. -/
def init (env : IvfEnv V D) (B : Backend σ V M) (f : Ivf V) (s : σ) : Res (Ivf V × σ) Unit :=
  match B.list s none with
  | (.error _, s') => (.error .index, { f with inited := true }, s')
  | (.ok l, s') =>
    let f' := { f with ids := l, count := l.length, inited := true }
    if env.nClusters ≤ (l.length : Int) then train env B f' s' else (.ok (), f', s')

/-- The search for the closest centroid in `_add_to_cluster`, ivf.py:331-338: `best` is the
current `(min_distance, best_cluster)`, `none` is the initial infinity. -/
def closest (dist : V → Except Err D) : Nat → List V → Option (D × Nat) → Except Err Nat
  | _, [], best => .ok (match best with | none => 0 | some b => b.2)
  | i, c :: cs, best =>
    match dist c with
    | .error e => .error e
    | .ok d =>
      match best with
      | none => closest dist (i + 1) cs (some (d, i))
      | some b => closest dist (i + 1) cs (if d < b.1 then some (d, i) else some b)

/-- `_add_to_cluster`, ivf.py:325-343. -/
def addToCluster (env : IvfEnv V D) (id : Id) (v : V) (f : Ivf V) : Except Err (Ivf V) :=
  match f.trained, f.cents with
  | true, some cents =>
    match closest (env.dist v) 0 cents none with
    | .error e => .error e
    | .ok c => .ok { f with clusters := f.clusters.set c ((f.clusters.get? c).getD [] ++ [id]) }
  | _, _ => .ok f

/-- The row loop of `insert`, ivf.py:71-89. -/
def insertLoop (B : Backend σ V M) (mds : Option (List (Option M))) :
    Nat → List (Id × V) → Ivf V → σ → Res (Ivf V × σ) (List Id)
  | _, [], f, s => (.ok [], f, s)
  | i, (id, v) :: rows, f, s =>
    match B.store s id v (rowMeta mds i) with
    | (.error e, s') => (.error e, f, s')
    | (.ok _, s') =>
      match insertLoop B mds (i + 1) rows
        { f with ids := f.ids ++ [id], cache := f.cache.set id v } s' with
      | (.ok l, t) => (.ok (id :: l), t)
      | (.error e, t) => (.error e, t)

/-- Adding the inserted ids to clusters, ivf.py:98-99; `self.vectors_cache[vector_id]` raises
KeyError when absent. -/
def addLoop (env : IvfEnv V D) : List Id → Ivf V → Except Err Unit × Ivf V
  | [], f => (.ok (), f)
  | id :: rest, f =>
    match f.cache.get? id with
    | none => (.error .key, f)
    | some v =>
      match addToCluster env id v f with
      | .error e => (.error e, f)
      | .ok f' => addLoop env rest f'

/-- `insert`, ivf.py:58-104. -/
def insert (env : IvfEnv V D) (B : Backend σ V M) (ndim : Nat) (rows : List (Id × V))
    (mds : Option (List (Option M))) (f : Ivf V) (s : σ) : Res (Ivf V × σ) (List Id) :=
  if !f.inited then (.error .index, f, s)
  else if ndim ≠ 2 then (.error .index, f, s)
  else
    match insertLoop B mds 0 rows f s with
    | (.error _, t) => (.error .index, t)
    | (.ok l, f1, s1) =>
      let f2 := { f1 with count := f1.ids.length }
      if env.nClusters ≤ (f2.ids.length : Int) ∧ f2.trained = false then
        match train env B f2 s1 with
        | (.ok _, t) => (.ok l, t)
        | (.error _, t) => (.error .index, t)
      else if f2.trained then
        match addLoop env l f2 with
        | (.ok _, f3) => (.ok l, f3, s1)
        | (.error _, f3) => (.error .index, f3, s1)
      else (.ok l, f2, s1)

/-- The probed clusters, ivf.py:122-132. -/
def probes (env : IvfEnv V D) (q : V) (cents : List V) : Except Err (List Nat) :=
  match numberedDists (env.dist q) 0 cents with
  | .error e => .error e
  | .ok ds => .ok ((sliceTo (pySortBy Prod.snd ds) env.nProbes).map Prod.fst)

/-- `_brute_force_search` (ivf.py:359-394) and the part of `search` after the clusters are
chosen (ivf.py:134-175): both scan a list of ids, sort stably, cut to `[:k]` and attach
metadata.  Simplification: the nested loops over clusters and members are one loop over the
concatenated members. -/
def scanTop (env : IvfEnv V D) (B : Backend σ V M) (q : V) (k : Int) (cand : List Id) (f : Ivf V)
    (s : σ) : Res (Ivf V × σ) (List (Hit D M)) :=
  match scanVecs B (env.dist q) cand f.cache s with
  | (.error _, c, s') => (.error .index, { f with cache := c }, s')
  | (.ok ds, c, s') =>
    match fetchMeta B (sliceTo (pySortBy Prod.snd ds) k) s' with
    | (.ok hits, s'') => (.ok hits, { f with cache := c }, s'')
    | (.error _, s'') => (.error .index, { f with cache := c }, s'')

/-- `search`, ivf.py:106-178. -/
def search (env : IvfEnv V D) (B : Backend σ V M) (ndim : Nat) (q : V) (k : Int) (f : Ivf V)
    (s : σ) : Res (Ivf V × σ) (List (Hit D M)) :=
  if !f.inited then (.error .index, f, s)
  else if ndim ≠ 1 then (.error .index, f, s)
  else if f.ids.isEmpty then (.ok [], f, s)
  else if !f.trained then scanTop env B q k f.ids f s
  else
    match f.cents with
    | none => (.error .index, f, s)
    | some cents =>
      match probes env q cents with
      | .error _ => (.error .index, f, s)
      | .ok ps => scanTop env B q k (ps.flatMap fun c => (f.clusters.get? c).getD []) f s

/-- Dropping an id from every cluster, ivf.py:205-207. -/
def dropAll (id : Id) (cl : Dict Nat (List Id)) : Dict Nat (List Id) :=
  cl.map fun e => (e.1, if id ∈ e.2 then removeFirst e.2 id else e.2)

/-- Dropping an id from the first cluster that has it, ivf.py:351-354. -/
def dropFirst (id : Id) : Dict Nat (List Id) → Dict Nat (List Id)
  | [] => []
  | (c, l) :: rest =>
    if id ∈ l then (c, removeFirst l id) :: rest else (c, l) :: dropFirst id rest

/-- The id loop of `delete`, ivf.py:188-207. -/
def deleteLoop (B : Backend σ V M) : List Id → Bool → Ivf V → σ → Res (Ivf V × σ) Bool
  | [], ok, f, s => (.ok ok, f, s)
  | id :: rest, ok, f, s =>
    match B.delete s id with
    | (.error e, s') => (.error e, f, s')
    | (.ok b, s') =>
      deleteLoop B rest (if b then ok else false)
        { f with ids := if id ∈ f.ids then removeFirst f.ids id else f.ids,
                 cache := f.cache.pop id, clusters := dropAll id f.clusters } s'

/-- `delete`, ivf.py:180-213. -/
def delete (B : Backend σ V M) (dels : List Id) (f : Ivf V) (s : σ) : Res (Ivf V × σ) Bool :=
  if !f.inited then (.error .index, f, s)
  else
    match deleteLoop B dels true f s with
    | (.ok b, f', s') => (.ok b, { f' with count := f'.ids.length }, s')
    | (.error _, t) => (.error .index, t)

/-- `_update_cluster_assignment`, ivf.py:345-357; the removal survives an exception of
`_add_to_cluster`. -/
def reassign (env : IvfEnv V D) (id : Id) (v : V) (f : Ivf V) : Except Err Unit × Ivf V :=
  match f.trained, f.cents with
  | true, some _ =>
    let f1 := { f with clusters := dropFirst id f.clusters }
    match addToCluster env id v f1 with
    | .ok f2 => (.ok (), f2)
    | .error e => (.error e, f1)
  | _, _ => (.ok (), f)

/-- `update`, ivf.py:215-241. -/
def update (env : IvfEnv V D) (B : Backend σ V M) (id : Id) (v : V) (m : Option M) (f : Ivf V)
    (s : σ) : Res (Ivf V × σ) Bool :=
  if !f.inited then (.error .index, f, s)
  else
    match B.update s id v m with
    | (.error _, s') => (.error .index, f, s')
    | (.ok false, s') => (.ok false, f, s')
    | (.ok true, s') =>
      let f1 := { f with cache := f.cache.set id v }
      if f1.trained then
        match reassign env id v f1 with
        | (.ok _, f2) => (.ok true, f2, s')
        | (.error _, f2) => (.error .index, f2, s')
      else (.ok true, f1, s')

/-- `get_stats()["vector_count"]`, ivf.py:243-262. -/
def statCount (f : Ivf V) : Option Nat := if f.inited then some f.count else none

/-- `get_stats()["cluster_stats"]`, ivf.py:248-250: the size of each cluster. -/
def clusterStats (f : Ivf V) : Dict Nat Nat := f.clusters.map fun e => (e.1, e.2.length)

/-- `close`, ivf.py:264-272. -/
def close (_f : Ivf V) : Ivf V := new

/-- One index call (harness). -/
def call (env : IvfEnv V D) (B : Backend σ V M) (t : Ivf V × σ) :
    IxCall V M → IxReply × (Ivf V × σ)
  | .insert nd rows mds =>
    match insert env B nd rows mds t.1 t.2 with
    | (.ok l, t') => (.ids l, t')
    | (.error _, t') => (.raised, t')
  | .delete ids =>
    match delete B ids t.1 t.2 with
    | (.ok b, t') => (.flag b, t')
    | (.error _, t') => (.raised, t')
  | .update id v m =>
    match update env B id v m t.1 t.2 with
    | (.ok b, t') => (.flag b, t')
    | (.error _, t') => (.raised, t')
  | .search nd q k =>
    match search env B nd q k t.1 t.2 with
    | (.ok _, t') => (.answered, t')
    | (.error _, t') => (.raised, t')

/-- A history of index calls (harness). -/
def run (env : IvfEnv V D) (B : Backend σ V M) (t : Ivf V × σ) :
    List (IxCall V M) → List IxReply × (Ivf V × σ)
  | [] => ([], t)
  | c :: cs =>
    let r := call env B t c
    let rs := run env B r.2 cs
    (r.1 :: rs.1, rs.2)

end Ivf
end Valori
