import Verif.Model.Lsh
import Verif.Spec.Annoy
import Mathlib.Algebra.Order.Field.Basic

/-!
# `AnnoyIndex` (`/repo/src/valori/indices/annoy.py`)

The annoy library is a parameter: a state type `L` and functions that may answer or raise in any
way.  Temporary files (`build_on_disk`) are part of it.
-/

namespace Valori
open Spec (AnCall AnHit)

/-- `self.metric`, annoy.py:32-34, 43. -/
inductive AnMetric where
  | angular | euclidean | manhattan | hamming | dot | other
deriving DecidableEq, Repr

/-- The annoy library, `int()` and the validity test.  `addItem`, `build`, `nns` and `loadFile` are
the library methods called at annoy.py:196, 214-223, 260-262 and 410; the conversion to float32 is
inside them.  `nns` returns pairs of id and distance. -/
structure AnEnv (L V F M : Type) where
  numTrees : Nat
  searchK : Int
  create : Nat → AnMetric → L
  addItem : L → Int → V → Except Err L
  build : L → Except Err L
  nns : L → V → Int → Int → Except Err (List (Nat × F))
  dim : V → Nat
  finite : V → Bool
  parse : String → Option Int
  emptyMd : M

/-- Fields of `AnnoyIndex`, annoy.py:46-53; `_temp_file` is not modelled. -/
structure Annoy (L V M : Type) where
  vectors : List (Option V)
  metadata : List (Option M)
  dimension : Option Nat
  nextId : Int
  lib : Option L
  built : Bool
  inited : Bool
  metric : AnMetric
deriving DecidableEq, Repr

namespace Annoy
variable {L V F M : Type}

/-- The constructor, annoy.py:28-67 (the library is installed). -/
def new (numTrees : Int) (metric : AnMetric) : Except Err (Annoy L V M) :=
  if numTrees ≤ 0 then .error .index
  else if metric = .other then .error .index
  else .ok ⟨[], [], none, 0, none, false, false, metric⟩

/-- `initialize`, annoy.py:69-79. -/
def init (f : Annoy L V M) : Annoy L V M := { f with inited := true }

/-- `validate_vector(vector, dimension, dimension)`, validation.py:33-66. -/
def valid (env : AnEnv L V F M) (d : Nat) (v : V) : Bool :=
  decide (0 < env.dim v) && decide (env.dim v = d) && env.finite v

/-- The row loop of `add`, annoy.py:185-200.  `None.copy()` raises after the vector was appended, a
missing library object or a library error after vector and metadata were appended. -/
def addLoop (env : AnEnv L V F M) : List (V × Option M) → Annoy L V M → Res (Annoy L V M) (List Int)
  | [], f => (.ok [], f)
  | (v, m) :: rows, f =>
    let id := f.nextId
    let f1 := { f with nextId := f.nextId + 1, vectors := f.vectors ++ [some v] }
    match m with
    | none => (.error .attribute, f1)
    | some md =>
      let f2 := { f1 with metadata := f.metadata ++ [some md] }
      match f.lib with
      | none => (.error .attribute, f2)
      | some l =>
        match env.addItem l id v with
        | .error e => (.error e, f2)
        | .ok l' =>
          match addLoop env rows { f2 with lib := some l' } with
          | (.error e, f') => (.error e, f')
          | (.ok ids, f') => (.ok (id :: ids), f')

/-- `add`, annoy.py:152-200. -/
def add (env : AnEnv L V F M) (ndim cols : Nat) (rows : List V) (mds : List (Option M))
    (f : Annoy L V M) : Res (Annoy L V M) (List Int) :=
  if !f.inited then (.error .index, f)
  else if rows.length ≠ mds.length then (.error .index, f)
  else if ndim < 2 then (.error .indexRange, f)
  else
    let f1 := match f.dimension with
      | none => { f with dimension := some cols, lib := some (env.create cols f.metric) }
      | some _ => f
    if f1.dimension ≠ some cols then (.error .index, f1)
    else if !(rows.all fun v => decide (ndim = 2) && valid env cols v) then (.error .validation, f1)
    else addLoop env (rows.zip mds) f1

/-- `insert`, annoy.py:81-98. -/
def insert (env : AnEnv L V F M) (ndim cols : Nat) (rows : List V)
    (mds : Option (List (Option M))) (f : Annoy L V M) : Res (Annoy L V M) (List String) :=
  let l := match mds with
    | none => rows.map fun _ => some env.emptyMd
    | some l => l
  match add env ndim cols rows l f with
  | (.ok ids, f') => (.ok (ids.map toString), f')
  | (.error e, f') => (.error e, f')

/-- The id loop of `remove`, annoy.py:293-297; list assignment with a negative index counts from the
end and raises when it is too small. -/
def removeLoop : List Int → Annoy L V M → Res (Annoy L V M) Unit
  | [], f => (.ok (), f)
  | i :: rest, f =>
    if i < (f.vectors.length : Int) then
      match pyGet f.vectors i with
      | none => (.error .indexRange, f)
      | some _ =>
        let f1 := { f with vectors := pySet f.vectors i none }
        match pyGet f1.metadata i with
        | none => (.error .indexRange, f1)
        | some _ => removeLoop rest { f1 with metadata := pySet f1.metadata i none }
    else removeLoop rest f

/-- `remove`, annoy.py:281-297. -/
def remove (ids : List Int) (f : Annoy L V M) : Res (Annoy L V M) Unit :=
  if !f.inited then (.error .index, f) else removeLoop ids f

/-- `[int(id) for id in ids]`. -/
def parseAll (parse : String → Option Int) : List String → Option (List Int)
  | [] => some []
  | s :: l => match parse s, parseAll parse l with
    | some i, some is => some (i :: is)
    | _, _ => none

/-- `delete`, annoy.py:100-115; every exception becomes a `ValoriIndexError`. -/
def delete (env : AnEnv L V F M) (ids : List String) (f : Annoy L V M) : Res (Annoy L V M) Bool :=
  match parseAll env.parse ids with
  | none => (.error .index, f)
  | some is =>
    match remove is f with
    | (.error _, f') => (.error .index, f')
    | (.ok _, f') => (.ok true, f')

/-- The metadata `update` passes on, annoy.py:136-137; `none` is the IndexError. -/
def updMd (i : Int) (m : Option M) (f : Annoy L V M) : Option (Option M) :=
  match m with
  | some md => some (some md)
  | none => pyGet f.metadata i

/-- `update`, annoy.py:117-150.  When `add` raises, `_next_id` is not restored. -/
def update (env : AnEnv L V F M) (id : String) (v : V) (m : Option M) (f : Annoy L V M) :
    Res (Annoy L V M) Bool :=
  match env.parse id with
  | none => (.error .index, f)
  | some i =>
    if (f.vectors.length : Int) ≤ i then (.error .index, f)
    else
      match updMd i m f with
      | none => (.error .index, f)
      | some md =>
        match remove [i] f with
        | (.error _, f1) => (.error .index, f1)
        | (.ok _, f1) =>
          match add env 2 (env.dim v) [v] [md] { f1 with nextId := i } with
          | (.error _, f2) => (.error .index, f2)
          | (.ok _, f2) => (.ok true, { f2 with nextId := f1.nextId })

/-- `build`, annoy.py:202-225. -/
def build (env : AnEnv L V F M) (f : Annoy L V M) : Res (Annoy L V M) Unit :=
  if !f.inited then (.error .index, f)
  else if f.dimension.isNone && decide (0 < f.vectors.length) then (.error .index, f)
  else
    match f.lib with
    | none => (.ok (), { f with built := true })
    | some l =>
      match env.build l with
      | .error e => (.error e, f)
      | .ok l' => (.ok (), { f with lib := some l', built := true })

/-- `_distance_to_similarity`, annoy.py:336-359. -/
def toSim [Field F] [LinearOrder F] (metric : AnMetric) (d : F) : F :=
  match metric with
  | .angular => max 0 (1 - d / 2)
  | .euclidean => 1 / (1 + d)
  | .manhattan => 1 / (1 + d)
  | .hamming => 1 - d
  | .dot => max 0 (min 1 d)
  | .other => d

/-- The result loop of `search`, annoy.py:264-277. -/
def results [Field F] [LinearOrder F] (f : Annoy L V M) :
    List (Nat × F) → Except Err (List (AnHit F M))
  | [] => .ok []
  | (n, d) :: rest =>
    if n < f.vectors.length then
      match f.metadata[n]? with
      | none => .error .indexRange
      | some md =>
        match results f rest with
        | .error e => .error e
        | .ok l => .ok (⟨n, toSim f.metric d, md⟩ :: l)
    else results f rest

/-- `search`, annoy.py:227-279. -/
def search [Field F] [LinearOrder F] (env : AnEnv L V F M) (q : V) (k : Int) (f : Annoy L V M) :
    Except Err (List (AnHit F M)) :=
  if !f.inited then .error .index
  else if !f.built then .error .index
  else
    match f.dimension with
    | none => .ok []
    | some d =>
      if !valid env d q then .error .validation
      else
        let sk := if 0 < env.searchK then env.searchK else env.numTrees * f.vectors.length
        match f.lib with
        | none => .error .attribute
        | some l =>
          match env.nns l q k sk with
          | .error e => .error e
          | .ok ns => results f ns

/-- `clear`, annoy.py:299-312; the dimension stays. -/
def clear (f : Annoy L V M) : Annoy L V M :=
  { f with vectors := [], metadata := [], nextId := 0, built := false, lib := none }

/-- `close`, annoy.py:416-427. -/
def close (f : Annoy L V M) : Annoy L V M := { clear f with inited := false }

/-- `get_stats()["num_vectors"]`, annoy.py:314-329. -/
def statCount (f : Annoy L V M) : Nat := (f.vectors.filter Option.isSome).length

/-- What `save` writes: the library's file, and dimension and metric beside it, annoy.py:361-380.
Nothing is written when there is no library object. -/
def save (f : Annoy L V M) : Except Err (Option (L × Option Nat × AnMetric)) :=
  if !f.built then .error .index
  else
    match f.lib with
    | none => .ok none
    | some l => .ok (some (l, f.dimension, f.metric))

/-- `load` of a file written by `save`, annoy.py:382-414. -/
def load (file : Option (L × Option Nat × AnMetric)) (f : Annoy L V M) : Res (Annoy L V M) Unit :=
  if !f.inited then (.error .index, f)
  else
    match file with
    | none => (.error .index, f)
    | some (l, d, m) => (.ok (), { f with dimension := d, metric := m, lib := some l, built := true })

/-- One call (harness). -/
def call (env : AnEnv L V F M) (f : Annoy L V M) : AnCall V M → Annoy L V M
  | .insert nd cols rows mds => (insert env nd cols rows mds f).2
  | .delete ids => (delete env ids f).2
  | .update id v m => (update env id v m f).2
  | .build => (build env f).2
  | .search .. => f
  | .clear => clear f

/-- A history (harness). -/
def run (env : AnEnv L V F M) (f : Annoy L V M) (h : List (AnCall V M)) : Annoy L V M :=
  h.foldl (call env) f

end Annoy
end Valori
