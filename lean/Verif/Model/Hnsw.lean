import Verif.Model.Ivf

/-!
# `HNSWIndex` (`/repo/src/valori/indices/hnsw.py`)

Conventions as in `Model/Flat.lean`.  The random generator is a stream `rnd`: its `n`-th entry
holds the choices made by the `n`-th call of `_insert_vector_internal`; the field `draws` counts
those calls (it stands for the state of Python's global generator).
-/

namespace Valori
open Spec (Hit IxCall IxReply)

/-- One level of the graph: node to neighbour list. -/
abbrev Level := Dict Id (List Id)

/-- Random choices of one insertion: the level (hnsw.py:269-271) and the nodes that
`random.sample(existing_nodes, ...)` returns on each level (hnsw.py:293-294). -/
structure Rnd where
  level : Nat
  pick : Nat → List Id → List Id

/-- Fields of `HNSWIndex`, hnsw.py:27-41. -/
structure Hnsw (V : Type) where
  levels : List Level
  vectors : Dict Id V
  maxLevel : Nat
  count : Nat
  inited : Bool
  draws : Nat
deriving DecidableEq, Repr

/-- Configuration, `_compute_distance` (hnsw.py:320-334, raising for an unsupported metric or
mismatching shapes), random choices.  `m` is not needed: it only bounds the size of the sample.
Simplified: `m` is not negative (`random.sample` would raise ValueError, hnsw.py:293-294). -/
structure HnswEnv (V D : Type) where
  efSearch : Int
  dist : V → V → Except Err D
  rnd : Nat → Rnd

namespace Hnsw
variable {σ V M D : Type} [LinearOrder D]

/-- The constructor, hnsw.py:27-41. -/
def new : Hnsw V := ⟨[], [], 0, 0, false, 0⟩

/-- `level[n]`, empty when absent. -/
def nbrs (d : Level) (n : Id) : List Id := (d.get? n).getD []

/-- `if vector_id not in level: level[vector_id] = []`, hnsw.py:278-284. -/
def addNode (d : Level) (id : Id) : Level := if d.mem id then d else d.set id []

/-- `if b not in level[a]: level[a].append(b)`, hnsw.py:299-302.  `a` is always a node of the
level: it is `vector_id`, just added, or one of the sampled nodes. -/
def addLink (d : Level) (a b : Id) : Level :=
  if b ∈ nbrs d a then d else d.set a (nbrs d a ++ [b])

/-- The loop over sampled neighbours, hnsw.py:296-302. -/
def connect (id : Id) : List Id → Level → Level
  | [], d => d
  | nb :: rest, d =>
    if nb ≠ id then connect id rest (addLink (addLink d nb id) id nb) else connect id rest d

/-- One level of `_insert_vector_internal`, hnsw.py:278-302.  `random.sample` returns elements
of its argument: choices that are not nodes of the level are dropped. -/
def insertLevel (id : Id) (pick : List Id → List Id) (d : Level) : Level :=
  let d' := addNode d id
  connect id ((pick d'.keys).filter (· ∈ d'.keys)) d'

/-- `while len(self.levels) <= level: self.levels.append({})`, hnsw.py:274-275. -/
def pad (levels : List Level) (level : Nat) : List Level :=
  levels ++ List.replicate (level + 1 - levels.length) []

/-- Apply `f l` to the levels `l ≤ level`. -/
def onLevels (f : Nat → Level → Level) (level : Nat) : Nat → List Level → List Level
  | _, [] => []
  | l, d :: ds => (if l ≤ level then f l d else d) :: onLevels f level (l + 1) ds

/-- `_insert_vector_internal`, hnsw.py:261-302; the level is capped at 10.  Nodes are added to
all levels before connecting; levels do not interact, so both steps are done level by level. -/
def insertInternal (env : HnswEnv V D) (id : Id) (v : V) (f : Hnsw V) : Hnsw V :=
  let r := env.rnd f.draws
  let level := min r.level 10
  { f with
    vectors := f.vectors.set id v
    count := (f.vectors.set id v).length
    levels := onLevels (fun l => insertLevel id (r.pick l)) level 0 (pad f.levels level)
    maxLevel := max f.maxLevel level
    draws := f.draws + 1 }

/-- The neighbours' side of removing a node, hnsw.py:314-316. -/
def unlink (id : Id) : List Id → Level → Level
  | [], d => d
  | nb :: rest, d =>
    unlink id rest (if d.mem nb ∧ id ∈ nbrs d nb then d.set nb (removeFirst (nbrs d nb) id) else d)

/-- One level of `_remove_vector_internal`, hnsw.py:310-318. -/
def removeLevel (id : Id) (d : Level) : Level :=
  if d.mem id then (unlink id (nbrs d id) d).pop id else d

/-- `_remove_vector_internal`, hnsw.py:304-318; `max_level` is not lowered. -/
def removeInternal (id : Id) (f : Hnsw V) : Hnsw V :=
  let f' := if f.vectors.mem id
    then { f with vectors := f.vectors.pop id, count := (f.vectors.pop id).length } else f
  { f' with levels := f'.levels.map (removeLevel id) }

/-- The loading loop of `initialize`, hnsw.py:55-59. -/
def loadAll (env : HnswEnv V D) (B : Backend σ V M) : List Id → Hnsw V → σ → Res (Hnsw V × σ) Unit
  | [], f, s => (.ok (), f, s)
  | id :: rest, f, s =>
    match B.retrieve s id with
    | (.error e, s') => (.error e, f, s')
    | (.ok none, s') => loadAll env B rest f s'
    | (.ok (some (v, _)), s') => loadAll env B rest (insertInternal env id v f) s'

/-- `initialize`, hnsw.py:43-61; `vectors` and `max_level` are kept. -/
def init (env : HnswEnv V D) (B : Backend σ V M) (f : Hnsw V) (s : σ) : Res (Hnsw V × σ) Unit :=
  let f' := { f with inited := true, levels := [[]] }
  match B.list s none with
  | (.error _, s') => (.error .index, f', s')
  | (.ok l, s') =>
    match loadAll env B l f' s' with
    | (.ok _, t) => (.ok (), t)
    | (.error _, t) => (.error .index, t)

/-- The row loop of `insert`, hnsw.py:76-94. -/
def insertLoop (env : HnswEnv V D) (B : Backend σ V M) (mds : Option (List (Option M))) :
    Nat → List (Id × V) → Hnsw V → σ → Res (Hnsw V × σ) (List Id)
  | _, [], f, s => (.ok [], f, s)
  | i, (id, v) :: rows, f, s =>
    match B.store s id v (rowMeta mds i) with
    | (.error e, s') => (.error e, f, s')
    | (.ok _, s') =>
      match insertLoop env B mds (i + 1) rows (insertInternal env id v f) s' with
      | (.ok l, t) => (.ok (id :: l), t)
      | (.error e, t) => (.error e, t)

/-- `insert`, hnsw.py:63-99. -/
def insert (env : HnswEnv V D) (B : Backend σ V M) (ndim : Nat) (rows : List (Id × V))
    (mds : Option (List (Option M))) (f : Hnsw V) (s : σ) : Res (Hnsw V × σ) (List Id) :=
  if !f.inited then (.error .index, f, s)
  else if ndim ≠ 2 then (.error .index, f, s)
  else
    match insertLoop env B mds 0 rows f s with
    | (.ok l, t) => (.ok l, t)
    | (.error _, t) => (.error .index, t)

/-- Distances of the neighbours that have a vector, hnsw.py:136-141 and 153-158. -/
def scanNbrs (dist : V → Except Err D) (vectors : Dict Id V) :
    List Id → Except Err (List (Id × D))
  | [] => .ok []
  | nb :: rest =>
    match vectors.get? nb with
    | none => scanNbrs dist vectors rest
    | some v =>
      match dist v with
      | .error e => .error e
      | .ok d =>
        match scanNbrs dist vectors rest with
        | .error e => .error e
        | .ok l => .ok ((nb, d) :: l)

/-- Neighbours of all candidates on one level, hnsw.py:134-141 and 151-158; a candidate that is
not a node of the level contributes nothing. -/
def expand (dist : V → Except Err D) (vectors : Dict Id V) (lvl : Level) :
    List (Id × D) → Except Err (List (Id × D))
  | [] => .ok []
  | (n, _) :: rest =>
    match scanNbrs dist vectors (nbrs lvl n) with
    | .error e => .error e
    | .ok l =>
      match expand dist vectors lvl rest with
      | .error e => .error e
      | .ok l' => .ok (l ++ l')

/-- The walk down to level 0, hnsw.py:132-146. -/
def descend (env : HnswEnv V D) (q : V) (f : Hnsw V) : Nat → List (Id × D) →
    Except Err (List (Id × D))
  | 0, cands => .ok cands
  | l + 1, cands =>
    match expand (env.dist q) f.vectors ((f.levels[l + 1]?).getD []) cands with
    | .error e => .error e
    | .ok new => descend env q f l (sliceTo (pySortBy Prod.snd new) env.efSearch)

/-- The entry point, hnsw.py:120-130; `self.vectors[entry_point]` may raise KeyError. -/
def entry (env : HnswEnv V D) (q : V) (f : Hnsw V) (top : Level) : Except Err (List (Id × D)) :=
  match top with
  | [] => .ok []
  | (n, _) :: _ =>
    match f.vectors.get? n with
    | none => .error .key
    | some v =>
      match env.dist q v with
      | .error e => .error e
      | .ok d => .ok [(n, d)]

/-- All candidates before the final sort, hnsw.py:116-160. -/
def candidates (env : HnswEnv V D) (q : V) (f : Hnsw V) : Except Err (List (Id × D)) :=
  let cur := min f.maxLevel (f.levels.length - 1)
  match entry env q f ((f.levels[cur]?).getD []) with
  | .error e => .error e
  | .ok c0 =>
    match descend env q f cur c0 with
    | .error e => .error e
    | .ok c =>
      if c.isEmpty then .ok []
      else
        match expand (env.dist q) f.vectors ((f.levels[0]?).getD []) c with
        | .error e => .error e
        | .ok fin => .ok (c ++ fin)

/-- `search`, hnsw.py:101-184.  Simplification: an initialised index has at least one level
(`levels = [{}]` in `initialize`, never shortened before `close`), so `current_level >= 0`. -/
def search (env : HnswEnv V D) (B : Backend σ V M) (ndim : Nat) (q : V) (k : Int) (f : Hnsw V)
    (s : σ) : Res (Hnsw V × σ) (List (Hit D M)) :=
  if !f.inited then (.error .index, f, s)
  else if ndim ≠ 1 then (.error .index, f, s)
  else if f.vectors.isEmpty then (.ok [], f, s)
  else
    match candidates env q f with
    | .error _ => (.error .index, f, s)
    | .ok c =>
      match fetchMeta B (sliceTo (pySortBy Prod.snd c) (min k (f.vectors.length : Int))) s with
      | (.ok hits, s') => (.ok hits, f, s')
      | (.error _, s') => (.error .index, f, s')

/-- The id loop of `delete`, hnsw.py:198-204. -/
def deleteLoop (B : Backend σ V M) : List Id → Bool → Hnsw V → σ → Res (Hnsw V × σ) Bool
  | [], ok, f, s => (.ok ok, f, s)
  | id :: rest, ok, f, s =>
    match B.delete s id with
    | (.error e, s') => (.error e, f, s')
    | (.ok b, s') => deleteLoop B rest (if b then ok else false) (removeInternal id f) s'

/-- `delete`, hnsw.py:186-209. -/
def delete (B : Backend σ V M) (dels : List Id) (f : Hnsw V) (s : σ) : Res (Hnsw V × σ) Bool :=
  if !f.inited then (.error .index, f, s)
  else
    match deleteLoop B dels true f s with
    | (.ok b, t) => (.ok b, t)
    | (.error _, t) => (.error .index, t)

/-- `update`, hnsw.py:211-234; the graph is not touched. -/
def update (B : Backend σ V M) (id : Id) (v : V) (m : Option M) (f : Hnsw V) (s : σ) :
    Res (Hnsw V × σ) Bool :=
  if !f.inited then (.error .index, f, s)
  else
    match B.update s id v m with
    | (.error _, s') => (.error .index, f, s')
    | (.ok false, s') => (.ok false, f, s')
    | (.ok true, s') =>
      (.ok true, if f.vectors.mem id then { f with vectors := f.vectors.set id v } else f, s')

/-- `get_stats()["vector_count"]`, hnsw.py:236-251. -/
def statCount (f : Hnsw V) : Option Nat := if f.inited then some f.count else none

/-- `get_stats()["max_level"]`, hnsw.py:236-251. -/
def statMaxLevel (f : Hnsw V) : Option Nat := if f.inited then some f.maxLevel else none

/-- `close`, hnsw.py:253-259. -/
def close (f : Hnsw V) : Hnsw V := ⟨[], [], 0, 0, false, f.draws⟩

/-- One index call (harness). -/
def call (env : HnswEnv V D) (B : Backend σ V M) (t : Hnsw V × σ) :
    IxCall V M → IxReply × (Hnsw V × σ)
  | .insert nd rows mds =>
    match insert env B nd rows mds t.1 t.2 with
    | (.ok l, t') => (.ids l, t')
    | (.error _, t') => (.raised, t')
  | .delete ids =>
    match delete B ids t.1 t.2 with
    | (.ok b, t') => (.flag b, t')
    | (.error _, t') => (.raised, t')
  | .update id v m =>
    match update B id v m t.1 t.2 with
    | (.ok b, t') => (.flag b, t')
    | (.error _, t') => (.raised, t')
  | .search nd q k =>
    match search env B nd q k t.1 t.2 with
    | (.ok _, t') => (.answered, t')
    | (.error _, t') => (.raised, t')

/-- A history of index calls (harness). -/
def run (env : HnswEnv V D) (B : Backend σ V M) (t : Hnsw V × σ) :
    List (IxCall V M) → List IxReply × (Hnsw V × σ)
  | [] => ([], t)
  | c :: cs =>
    let r := call env B t c
    let rs := run env B r.2 cs
    (r.1 :: rs.1, rs.2)

end Hnsw
end Valori
