import Mathlib.Algebra.Field.Rat
import Verif.Model.Py
import Verif.Spec.Slots

/-!
# `LSHIndex` (`/repo/src/valori/indices/lsh.py`)

Vectors are values of a type `V` (one-dimensional arrays).  The random projections, the offsets
and the similarity are parameters; a bit of a hash code is a parameter indexed by dimension,
projection row and offset position.
-/

namespace Valori
open Spec (NHit SCall)

/-- A hash code: the string of '0' and '1'. -/
abbrev Code := List Bool

/-- Configuration and numeric environment, lsh.py:29-48, 302-311, 377-395.  `bit d p o v` is
`dot(projections[p], v) + offsets[o] >= 0` for the projections drawn at dimension `d`.  `sim` is
`_compute_distance` (a similarity; raises for an unsupported metric).  `setOrder` is the
iteration order of a Python set built from the listed elements.  `parse` is `int(s)`. -/
structure LshEnv (V S M : Type) where
  numTables : Nat
  hashSize : Nat
  numProj : Nat
  threshold : S
  dim : V → Nat
  finite : V → Bool
  bit : Nat → Nat → Nat → V → Bool
  sim : V → V → Except Err S
  setOrder : List Int → List Int
  parse : String → Option Int
  emptyMd : M

/-- Fields of `LSHIndex`, lsh.py:50-57; `projections`/`offsets` are set exactly when `dimension` is. -/
structure Lsh (V M : Type) where
  tables : List (Dict Code (List Int))
  dimension : Option Nat
  vectors : List (Option V)
  metadata : List (Option M)
  nextId : Nat
  inited : Bool
deriving DecidableEq, Repr

namespace Lsh
variable {V S M : Type} [LinearOrder S]

/-- The constructor, lsh.py:29-57; rejects non-positive sizes. -/
def new (numTables hashSize numProj : Int) : Except Err (Lsh V M) :=
  if numTables ≤ 0 then .error .index
  else if hashSize ≤ 0 then .error .index
  else if numProj ≤ 0 then .error .index
  else .ok ⟨[], none, [], [], 0, false⟩

/-- `initialize`, lsh.py:59-63. -/
def init (env : LshEnv V S M) (f : Lsh V M) : Lsh V M :=
  { f with tables := List.replicate env.numTables [], inited := true }

/-- Projection rows used by table `t`, lsh.py:329-339. -/
def projIndices (hashSize numProj t : Nat) : List Nat :=
  let start := (t * hashSize) % numProj
  if start + hashSize > numProj then
    List.range' start (numProj - start) ++ List.range (start + hashSize - numProj)
  else List.range' start hashSize

/-- One hash code, lsh.py:327-347.  Raises IndexError for a row outside the matrix, ValueError for
a vector of another dimension or when the offsets are too few (numpy broadcasts a single one). -/
def hashOne (env : LshEnv V S M) (d t : Nat) (v : V) : Except Err Code :=
  let idx := projIndices env.hashSize env.numProj t
  if idx.any (fun p => env.numProj ≤ p) then .error .indexRange
  else if env.dim v ≠ d then .error .value
  else if env.numProj < idx.length then
    if env.numProj = 1 then .ok (idx.map fun p => env.bit d p 0 v) else .error .value
  else .ok (idx.zipIdx.map fun p => env.bit d p.1 p.2 v)

/-- The loop over tables, lsh.py:326-349. -/
def hashTables (env : LshEnv V S M) (d : Nat) (v : V) : List Nat → Except Err (List Code)
  | [] => .ok []
  | t :: ts =>
    match hashOne env d t v with
    | .error e => .error e
    | .ok c =>
      match hashTables env d v ts with
      | .error e => .error e
      | .ok cs => .ok (c :: cs)

/-- `_hash_vector`, lsh.py:313-349; the assertion fails before the first add. -/
def hashVector (env : LshEnv V S M) (f : Lsh V M) (v : V) : Except Err (List Code) :=
  match f.dimension with
  | none => .error .other
  | some d => hashTables env d v (List.range env.numTables)

/-- `validate_vector(vector, dimension, dimension)`, validation.py:33-66. -/
def valid (env : LshEnv V S M) (d : Nat) (v : V) : Bool :=
  decide (0 < env.dim v) && decide (env.dim v = d) && env.finite v

/-- `self.hash_tables[t][code].append(id)` for every table, lsh.py:112-113 and 260-261
(`defaultdict`). -/
def addCodes (id : Int) : List (Dict Code (List Int)) → List Code → List (Dict Code (List Int))
  | d :: ds, c :: cs => d.set c ((d.get? c).getD [] ++ [id]) :: addCodes id ds cs
  | ds, _ => ds

/-- `if code in table: table[code].remove(id)`, a missing id being ignored, lsh.py:208-213 and
245-250. -/
def dropCodes (id : Int) : List (Dict Code (List Int)) → List Code → List (Dict Code (List Int))
  | d :: ds, c :: cs =>
    (match d.get? c with
      | none => d
      | some l => d.set c (removeFirst l id)) :: dropCodes id ds cs
  | ds, _ => ds

/-- The row loop of `add`, lsh.py:99-116.  `None.copy()` raises after the vector was appended; a
failing hash raises after vector and metadata were appended. -/
def addLoop (env : LshEnv V S M) : List (V × Option M) → Lsh V M → Res (Lsh V M) (List Nat)
  | [], f => (.ok [], f)
  | (v, m) :: rows, f =>
    let id := f.nextId
    let f1 := { f with nextId := f.nextId + 1, vectors := f.vectors ++ [some v] }
    match m with
    | none => (.error .attribute, f1)
    | some md =>
      let f2 := { f1 with metadata := f.metadata ++ [some md] }
      match hashVector env f2 v with
      | .error e => (.error e, f2)
      | .ok codes =>
        let f3 := { f2 with tables := addCodes id f2.tables codes }
        match addLoop env rows f3 with
        | (.error e, f') => (.error e, f')
        | (.ok ids, f') => (.ok (id :: ids), f')

/-- `add`, lsh.py:65-118.  `ndim`, `cols` and `rows` describe the array; `vectors.shape[1]` raises
IndexError for a one-dimensional array, rows of a three-dimensional one fail validation. -/
def add (env : LshEnv V S M) (ndim cols : Nat) (rows : List V) (mds : List (Option M))
    (f : Lsh V M) : Res (Lsh V M) (List Nat) :=
  if !f.inited then (.error .index, f)
  else if rows.length ≠ mds.length then (.error .index, f)
  else if ndim < 2 then (.error .indexRange, f)
  else
    let f1 := match f.dimension with
      | none => { f with dimension := some cols }
      | some _ => f
    if f1.dimension ≠ some cols then (.error .index, f1)
    else if !(rows.all fun v => decide (ndim = 2) && valid env cols v) then (.error .validation, f1)
    else addLoop env (rows.zip mds) f1

/-- `insert`, lsh.py:121-128. -/
def insert (env : LshEnv V S M) (ndim cols : Nat) (rows : List V)
    (mds : Option (List (Option M))) (f : Lsh V M) : Res (Lsh V M) (List String) :=
  let l := match mds with
    | none => rows.map fun _ => some env.emptyMd
    | some l => l
  match add env ndim cols rows l f with
  | (.ok ids, f') => (.ok (ids.map toString), f')
  | (.error e, f') => (.error e, f')

/-- Candidates sharing a bucket with the query, lsh.py:159-162. -/
def exactCands : List (Dict Code (List Int)) → List Code → List Int
  | d :: ds, c :: cs => (d.get? c).getD [] ++ exactCands ds cs
  | _, _ => []

/-- Hamming distance of two codes, lsh.py:366-368. -/
def hamming (a b : Code) : Nat := ((a.zip b).filter fun p => p.1 != p.2).length

/-- `_relaxed_search`, lsh.py:351-375. -/
def relaxedCands : List (Dict Code (List Int)) → List Code → List Int
  | d :: ds, c :: cs =>
    ((d.filter fun e => decide (hamming c e.1 ≤ 2)).map Prod.snd).flatten ++ relaxedCands ds cs
  | _, _ => []

/-- The scoring loop of `search`, lsh.py:170-185. -/
def score (env : LshEnv V S M) (f : Lsh V M) (q : V) (thr : S) :
    List Int → Except Err (List (NHit S M))
  | [] => .ok []
  | i :: rest =>
    if (f.vectors.length : Int) ≤ i then score env f q thr rest
    else
      match pyGet f.vectors i with
      | none => .error .indexRange
      | some none => score env f q thr rest
      | some (some v) =>
        match env.sim q v with
        | .error e => .error e
        | .ok s =>
          if thr ≤ s then
            match pyGet f.metadata i with
            | none => .error .indexRange
            | some md =>
              match score env f q thr rest with
              | .error e => .error e
              | .ok l => .ok (⟨i, s, md⟩ :: l)
          else score env f q thr rest

/-- `results.sort(key=..., reverse=True)`: descending, stable. -/
def sortDesc (l : List (NHit S M)) : List (NHit S M) :=
  l.insertionSort fun a b => b.score ≤ a.score

/-- `search`, lsh.py:130-189. -/
def search (env : LshEnv V S M) (q : V) (k : Int) (thr : Option S) (f : Lsh V M) :
    Except Err (List (NHit S M)) :=
  if !f.inited then .error .index
  else
    match f.dimension with
    | none => .ok []
    | some d =>
      if !valid env d q then .error .validation
      else
        match hashVector env f q with
        | .error e => .error e
        | .ok codes =>
          let c := exactCands f.tables codes
          let cands := if c.isEmpty then relaxedCands f.tables codes else c
          match score env f q (thr.getD env.threshold) (env.setOrder cands) with
          | .error e => .error e
          | .ok l => .ok (sliceTo (sortDesc l) k)

/-- The id loop of `remove`, lsh.py:201-218. -/
def removeLoop (env : LshEnv V S M) : List Int → Lsh V M → Res (Lsh V M) Unit
  | [], f => (.ok (), f)
  | i :: rest, f =>
    if (f.vectors.length : Int) ≤ i then removeLoop env rest f
    else
      match pyGet f.vectors i with
      | none => (.error .indexRange, f)
      | some none => removeLoop env rest f
      | some (some v) =>
        match hashVector env f v with
        | .error e => (.error e, f)
        | .ok codes =>
          let f1 := { f with tables := dropCodes i f.tables codes
                             vectors := pySet f.vectors i none }
          match pyGet f1.metadata i with
          | none => (.error .indexRange, f1)
          | some _ => removeLoop env rest { f1 with metadata := pySet f1.metadata i none }

/-- `remove`, lsh.py:191-218. -/
def remove (env : LshEnv V S M) (ids : List Int) (f : Lsh V M) : Res (Lsh V M) Unit :=
  if !f.inited then (.error .index, f) else removeLoop env ids f

/-- `delete`, lsh.py:220-232: strings that are not numbers are skipped, every exception gives
`False`. -/
def delete (env : LshEnv V S M) (ids : List String) (f : Lsh V M) : Bool × Lsh V M :=
  match remove env (ids.filterMap env.parse) f with
  | (.ok _, f') => (true, f')
  | (.error _, f') => (false, f')

/-- `update`, lsh.py:234-267; every exception after the first check gives `False`. -/
def update (env : LshEnv V S M) (id : String) (v : V) (m : Option M) (f : Lsh V M) :
    Res (Lsh V M) Bool :=
  if !f.inited then (.error .index, f)
  else
    match env.parse id with
    | none => (.ok false, f)
    | some i =>
      if (f.vectors.length : Int) ≤ i then (.ok false, f)
      else
        match pyGet f.vectors i with
        | none => (.ok false, f)
        | some none => (.ok false, f)
        | some (some old) =>
          match hashVector env f old with
          | .error _ => (.ok false, f)
          | .ok codes =>
            let f1 := { f with tables := dropCodes i f.tables codes
                               vectors := pySet f.vectors i (some v) }
            match (match m with
              | none => some f1
              | some md =>
                match pyGet f1.metadata i with
                | none => none
                | some _ => some { f1 with metadata := pySet f1.metadata i (some md) }) with
            | none => (.ok false, f1)
            | some f2 =>
              match hashVector env f2 v with
              | .error _ => (.ok false, f2)
              | .ok codes' => (.ok true, { f2 with tables := addCodes i f2.tables codes' })

/-- `clear`, lsh.py:269-274; the dimension is kept. -/
def clear (env : LshEnv V S M) (f : Lsh V M) : Lsh V M :=
  { f with vectors := [], metadata := [], tables := List.replicate env.numTables [], nextId := 0 }

/-- `get_stats()["num_vectors"]`, lsh.py:276-300. -/
def statCount (f : Lsh V M) : Nat := (f.vectors.filter Option.isSome).length

/-- `bucket_sizes` of `get_stats`, lsh.py:282-286: the list is extended with the members of each
bucket, not with its size. -/
def bucketList (f : Lsh V M) : List Int := (f.tables.map fun d => (d.map Prod.snd).flatten).flatten

/-- `get_stats()["max_bucket_size"]`, lsh.py:296. -/
def statMaxBucket (f : Lsh V M) : Int :=
  match bucketList f with
  | [] => 0
  | i :: l => l.foldl max i

/-- `get_stats()["avg_bucket_size"]`, lsh.py:295, in exact arithmetic. -/
def statAvgBucket (f : Lsh V M) : ℚ :=
  match bucketList f with
  | [] => 0
  | i :: l => ((i :: l).sum : ℚ) / (l.length + 1)

/-- `get_stats()["hash_table_sizes"]`, lsh.py:281: the number of codes in each table. -/
def statTables (f : Lsh V M) : List Nat := f.tables.map List.length

/-- `close`, lsh.py:397-400. -/
def close (env : LshEnv V S M) (f : Lsh V M) : Lsh V M := { clear env f with inited := false }

/-- One call (harness). -/
def call (env : LshEnv V S M) (f : Lsh V M) : SCall V M S → Lsh V M
  | .insert nd cols rows mds => (insert env nd cols rows mds f).2
  | .delete ids => (delete env ids f).2
  | .update id v m => (update env id v m f).2
  | .search .. => f
  | .clear => clear env f

/-- A history (harness). -/
def run (env : LshEnv V S M) (f : Lsh V M) (h : List (SCall V M S)) : Lsh V M :=
  h.foldl (call env) f

end Lsh
end Valori
