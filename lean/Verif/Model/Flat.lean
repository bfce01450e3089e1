import Verif.Model.Backend
import Verif.Spec.Index

/-!
# `FlatIndex` (`/repo/src/valori/indices/flat.py`)

The index state is a pair: the fields of the index and the state of the storage backend it was
initialised with.  `storage_backend` is set by `initialize` together with `_initialized` and
never reset, so the `sb is None` branches (flat.py:61-62, 108-109, 171-172, 202-203) cannot be
reached once `_initialized` is true and are left out.  `k`, ids and metadata are as in Python;
rows come with the uuid that `uuid.uuid4()` returns for them.
-/

namespace Valori
open Spec (Hit)

/-- Fields of `FlatIndex`, flat.py:25-31 and `_initialized` of the base class. -/
structure Flat (V : Type) where
  ids : List Id
  cache : Dict Id V
  count : Nat
  inited : Bool
deriving DecidableEq, Repr

/-- What the index needs to know about vectors.  `metricOk`: the configured metric is
"cosine" or "euclidean".  `dist` is the configured distance (flat.py:130-137, computed by
scikit-learn; values in a linear order, NaN excluded).  `dim`/`finite`: what scikit-learn's
input check looks at.  `argsort` is `numpy.argsort`, whose order among ties is unspecified. -/
structure FlatEnv (V D : Type) where
  metricOk : Bool
  dim : V → Nat
  finite : V → Bool
  dist : V → V → D
  argsort : List D → List Nat

/-- The `_, metadata = sb.retrieve_vector(id)` loops: flat.py:143-155, ivf.py:165-173 and
381-392, hnsw.py:171-179.  Unpacking `None` raises TypeError. -/
def fetchMeta {σ V M D : Type} (B : Backend σ V M) :
    List (Id × D) → σ → Res σ (List (Hit D M))
  | [], s => (.ok [], s)
  | (id, d) :: rest, s =>
    match B.retrieve s id with
    | (.error e, s') => (.error e, s')
    | (.ok none, s') => (.error .typeE, s')
    | (.ok (some (_, m)), s') =>
      match fetchMeta B rest s' with
      | (.ok l, s'') => (.ok (⟨id, d, m⟩ :: l), s'')
      | (.error e, s'') => (.error e, s'')

/-- Load vectors from cache or storage, skipping ids the storage does not have:
flat.py:111-122, ivf.py:284-298. -/
def loadVecs {σ V M : Type} (B : Backend σ V M) :
    List Id → Dict Id V → σ → Except Err (List (Id × V)) × Dict Id V × σ
  | [], c, s => (.ok [], c, s)
  | id :: rest, c, s =>
    match c.get? id with
    | some v =>
      match loadVecs B rest c s with
      | (.ok l, c', s') => (.ok ((id, v) :: l), c', s')
      | (.error e, c', s') => (.error e, c', s')
    | none =>
      match B.retrieve s id with
      | (.error e, s') => (.error e, c, s')
      | (.ok none, s') => loadVecs B rest c s'
      | (.ok (some (v, _)), s') =>
        match loadVecs B rest (c.set id v) s' with
        | (.ok l, c', s'') => (.ok ((id, v) :: l), c', s'')
        | (.error e, c', s'') => (.error e, c', s'')

/-- `metadata[i] if metadata and i < len(metadata) else None`, flat.py:69-71, ivf.py:76-78,
hnsw.py:81-83. -/
def rowMeta {M : Type} (mds : Option (List (Option M))) (i : Nat) : Option M :=
  match mds with
  | none => none
  | some l => if l.isEmpty then none else match l[i]? with | some m => m | none => none

namespace Flat
variable {σ V M D : Type}

/-- The constructor, flat.py:25-31. -/
def new : Flat V := ⟨[], [], 0, false⟩

/-- `initialize`, flat.py:33-45.  The cache is not cleared; `_initialized` is set before the
listing that may raise. -/
def init (B : Backend σ V M) (f : Flat V) (s : σ) : Res (Flat V × σ) Unit :=
  match B.list s none with
  | (.ok l, s') => (.ok (), { f with ids := l, count := l.length, inited := true }, s')
  | (.error _, s') => (.error .index, { f with inited := true }, s')

/-- The row loop of `insert`, flat.py:64-80. -/
def insertLoop (B : Backend σ V M) (mds : Option (List (Option M))) :
    Nat → List (Id × V) → Flat V → σ → Res (Flat V × σ) (List Id)
  | _, [], f, s => (.ok [], f, s)
  | i, (id, v) :: rows, f, s =>
    match B.store s id v (rowMeta mds i) with
    | (.error e, s') => (.error e, f, s')
    | (.ok _, s') =>
      match insertLoop B mds (i + 1) rows
        { f with ids := f.ids ++ [id], cache := f.cache.set id v } s' with
      | (.ok l, t) => (.ok (id :: l), t)
      | (.error e, t) => (.error e, t)

/-- `insert`, flat.py:47-86.  `_vector_count` is only updated when no row failed. -/
def insert (B : Backend σ V M) (ndim : Nat) (rows : List (Id × V))
    (mds : Option (List (Option M))) (f : Flat V) (s : σ) : Res (Flat V × σ) (List Id) :=
  if !f.inited then (.error .index, f, s)
  else if ndim ≠ 2 then (.error .index, f, s)
  else
    match insertLoop B mds 0 rows f s with
    | (.ok l, f', s') => (.ok l, { f' with count := f'.ids.length }, s')
    | (.error _, t) => (.error .index, t)

/-- scikit-learn's checks before computing distances (flat.py:127-137): all arrays finite, of
one common non-zero length. -/
def checkOk (env : FlatEnv V D) (q : V) (vs : List V) : Bool :=
  env.metricOk && env.finite q && decide (0 < env.dim q) &&
    vs.all (fun v => env.finite v && decide (env.dim v = env.dim q))

/-- The candidates in the order of `np.argsort(distances)`, cut to `[:k]`, flat.py:140-144. -/
def ranked (env : FlatEnv V D) (q : V) (k : Int) (vs : List (Id × V)) : List (Id × D) :=
  (sliceTo (env.argsort (vs.map fun x => env.dist q x.2)) k).filterMap
    (fun i => (vs[i]?).map fun x => (x.1, env.dist q x.2))

/-- `search`, flat.py:88-160. -/
def search (env : FlatEnv V D) (B : Backend σ V M) (ndim : Nat) (q : V) (k : Int) (f : Flat V)
    (s : σ) : Res (Flat V × σ) (List (Hit D M)) :=
  if !f.inited then (.error .index, f, s)
  else if ndim ≠ 1 then (.error .index, f, s)
  else if f.ids.isEmpty then (.ok [], f, s)
  else
    let k' := min k (f.ids.length : Int)
    match loadVecs B f.ids f.cache s with
    | (.error _, c, s') => (.error .index, { f with cache := c }, s')
    | (.ok vs, c, s') =>
      let f' := { f with cache := c }
      if vs.isEmpty then (.ok [], f', s')
      else if !checkOk env q (vs.map Prod.snd) then (.error .index, f', s')
      else
        match fetchMeta B (ranked env q k' vs) s' with
        | (.ok hits, s'') => (.ok hits, f', s'')
        | (.error _, s'') => (.error .index, f', s'')

/-- The id loop of `delete`, flat.py:174-184. -/
def deleteLoop (B : Backend σ V M) : List Id → Bool → Flat V → σ → Res (Flat V × σ) Bool
  | [], ok, f, s => (.ok ok, f, s)
  | id :: rest, ok, f, s =>
    match B.delete s id with
    | (.error e, s') => (.error e, f, s')
    | (.ok b, s') =>
      deleteLoop B rest (if b then ok else false)
        { f with ids := if id ∈ f.ids then removeFirst f.ids id else f.ids,
                 cache := f.cache.pop id } s'

/-- `delete`, flat.py:162-190. -/
def delete (B : Backend σ V M) (dels : List Id) (f : Flat V) (s : σ) : Res (Flat V × σ) Bool :=
  if !f.inited then (.error .index, f, s)
  else
    match deleteLoop B dels true f s with
    | (.ok b, f', s') => (.ok b, { f' with count := f'.ids.length }, s')
    | (.error _, t) => (.error .index, t)

/-- `update`, flat.py:192-214. -/
def update (B : Backend σ V M) (id : Id) (v : V) (m : Option M) (f : Flat V) (s : σ) :
    Res (Flat V × σ) Bool :=
  if !f.inited then (.error .index, f, s)
  else
    match B.update s id v m with
    | (.error _, s') => (.error .index, f, s')
    | (.ok false, s') => (.ok false, f, s')
    | (.ok true, s') => (.ok true, { f with cache := f.cache.set id v }, s')

/-- `get_stats()["vector_count"]`, flat.py:216-227. -/
def statCount (f : Flat V) : Option Nat := if f.inited then some f.count else none

/-- `close`, flat.py:229-234. -/
def close (_f : Flat V) : Flat V := ⟨[], [], 0, false⟩

open Spec (IxCall IxReply)

/-- One index call (harness). -/
def call (env : FlatEnv V D) (B : Backend σ V M) (t : Flat V × σ) :
    IxCall V M → IxReply × (Flat V × σ)
  | .insert nd rows mds =>
    match insert B nd rows mds t.1 t.2 with
    | (.ok l, t') => (.ids l, t')
    | (.error _, t') => (.raised, t')
  | .delete ids =>
    match delete B ids t.1 t.2 with
    | (.ok b, t') => (.flag b, t')
    | (.error _, t') => (.raised, t')
  | .update id v m =>
    match update B id v m t.1 t.2 with
    | (.ok b, t') => (.flag b, t')
    | (.error _, t') => (.raised, t')
  | .search nd q k =>
    match search env B nd q k t.1 t.2 with
    | (.ok _, t') => (.answered, t')
    | (.error _, t') => (.raised, t')

/-- A history of index calls (harness). -/
def run (env : FlatEnv V D) (B : Backend σ V M) (t : Flat V × σ) :
    List (IxCall V M) → List IxReply × (Flat V × σ)
  | [] => ([], t)
  | c :: cs =>
    let r := call env B t c
    let rs := run env B r.2 cs
    (r.1 :: rs.1, rs.2)

end Flat
end Valori
