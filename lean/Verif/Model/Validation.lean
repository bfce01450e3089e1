import Verif.Model.Py
import Verif.Model.Text
import Mathlib.Data.Rat.Defs
import Mathlib.Algebra.Order.Ring.Unbundled.Rat
import Mathlib.Data.List.Dedup

/-!
# Validators: utils/validation.py
-/

namespace Valori

/-- A floating-point number, up to rounding. -/
inductive PyFloat where
  | fin (q : ℚ)
  | inf (negative : Bool)
  | nan
deriving DecidableEq

/-- `a < b` on floats. -/
def PyFloat.lt : PyFloat → PyFloat → Bool
  | .nan, _ => false
  | _, .nan => false
  | .fin a, .fin b => decide (a < b)
  | .fin _, .inf neg => !neg
  | .inf neg, .fin _ => neg
  | .inf n, .inf m => n && !m

/-- A Python object as far as the validators look at it; `other` stands for every other object, such
as lists, dictionaries, numpy scalars. -/
inductive PyVal where
  | null
  | bool (b : Bool)
  | int (i : Int)
  | float (x : PyFloat)
  | str (s : String)
  | other (tag : Nat)
deriving DecidableEq

/-- The contents of a numpy array by number of dimensions. -/
inductive NdData where
  | d1 (v : List PyFloat)
  | d2 (rows : List (List PyFloat)) (cols : Nat)
  | other

/-- A numpy array.  Simplification: only numeric arrays, since `np.isnan` raises on others. -/
structure NdArr where
  dtype : String
  data : NdData

def PyFloat.isZero (x : PyFloat) : Bool := decide (x = .fin 0)
def PyFloat.isNan (x : PyFloat) : Bool := decide (x = .nan)
def PyFloat.isInf : PyFloat → Bool
  | .inf _ => true
  | _ => false

/-- `validate_vector`, validation.py:12-66; `none` is an object that is no array. -/
def validateVector (a : Option NdArr) (minDim maxDim : Option Int) (dtype : Option String)
    (allowZero : Bool) : Except Err Unit :=
  match a with
  | none => .error .validation
  | some a =>
    match a.data with
    | .d1 v =>
      if v.length = 0 then .error .validation
      else if minDim.any fun m => decide ((v.length : Int) < m) then .error .validation
      else if maxDim.any fun m => decide ((v.length : Int) > m) then .error .validation
      else if dtype.any fun d => decide (a.dtype ≠ d) then .error .validation
      else if !allowZero && v.all PyFloat.isZero then .error .validation
      else if v.any PyFloat.isNan || v.any PyFloat.isInf then .error .validation
      else .ok ()
    | _ => .error .validation

/-- `validate_vectors`, validation.py:69-130. -/
def validateVectors (a : Option NdArr) (minDim maxDim : Option Int) (dtype : Option String)
    (allowZero : Bool) : Except Err Unit :=
  match a with
  | none => .error .validation
  | some a =>
    match a.data with
    | .d2 rows cols =>
      if rows.length = 0 then .error .validation
      else if cols = 0 then .error .validation
      else if minDim.any fun m => decide ((cols : Int) < m) then .error .validation
      else if maxDim.any fun m => decide ((cols : Int) > m) then .error .validation
      else if dtype.any fun d => decide (a.dtype ≠ d) then .error .validation
      else if !allowZero && rows.any fun r => r.all PyFloat.isZero then .error .validation
      else if rows.flatten.any PyFloat.isNan || rows.flatten.any PyFloat.isInf then .error .validation
      else .ok ()
    | _ => .error .validation

/-- The types `value_types` may name. -/
inductive PyType where
  | bool | int | float | str
deriving DecidableEq

/-- `isinstance`; `bool` is a subclass of `int`. -/
def PyVal.isInstance : PyVal → PyType → Bool
  | .bool _, .bool => true
  | .bool _, .int => true
  | .int _, .int => true
  | .float _, .float => true
  | .str _, .str => true
  | _, _ => false

/-- The number an `int`, `bool` or `float` is. -/
def PyVal.num? : PyVal → Option PyFloat
  | .bool b => some (.fin (if b then 1 else 0))
  | .int i => some (.fin i)
  | .float x => some x
  | _ => none

/-- `validate_config`, validation.py:133-191; `none` for a config that is no dictionary, empty lists
and dictionaries for absent restrictions, except `allowed`, where `None` and `[]` differ. -/
def validateConfig (config : Option (Dict String PyVal)) (required : List String)
    (allowed : Option (List String)) (types : Dict String PyType)
    (ranges : Dict String (PyFloat × PyFloat)) : Except Err Unit :=
  match config with
  | none => .error .validation
  | some c =>
    if (required.filter fun k => !c.mem k) ≠ [] then .error .validation
    else if allowed.any fun al => decide ((c.keys.filter fun k => decide (k ∉ al)) ≠ []) then
      .error .validation
    else if types.any fun (k, t) => match c.get? k with
        | none => false
        | some v => !v.isInstance t then .error .validation
    else if ranges.any fun (k, lo, hi) => match c.get? k with
        | none => false
        | some v => match v.num? with
          | none => false
          | some x => x.lt lo || hi.lt x then .error .validation
    else .ok ()

/-- `valid_metrics`, validation.py:207-215. -/
def validMetrics : List String :=
  ["cosine", "euclidean", "dot_product", "manhattan", "chebyshev", "hamming", "jaccard"]

/-- `validate_metric`, validation.py:194-225. -/
def validateMetric (m : PyVal) : Except Err Unit :=
  match m with
  | .str s => if s ∈ validMetrics then .ok () else .error .validation
  | _ => .error .validation

/-- `validate_k`, validation.py:228-251. -/
def validateK (k : PyVal) (maxK : Option Int) : Except Err Unit :=
  if k.isInstance .int = false then .error .validation
  else
    let i : Int := match k with
      | .bool b => if b then 1 else 0
      | .int i => i
      | _ => 0
    if i ≤ 0 then .error .validation
    else if maxK.any fun m => decide (i > m) then .error .validation
    else .ok ()

/-- `validate_id`, validation.py:254-273. -/
def validateId (id : PyVal) : Except Err Unit :=
  if (id.isInstance .str || id.isInstance .int) = false then .error .validation
  else match id with
    | .str s => if (strip s.toList).length = 0 then .error .validation else .ok ()
    | _ => .ok ()

/-- What Python's `==` and `hash` see of an id: `True == 1`, `False == 0`. -/
def PyVal.hashKey : PyVal → PyVal
  | .bool b => .int (if b then 1 else 0)
  | v => v

/-- The loop of `validate_ids`, validation.py:295-299. -/
def validateEach : List PyVal → Except Err Unit
  | [] => .ok ()
  | id :: ids => match validateId id with
    | .error _ => .error .validation
    | .ok () => validateEach ids

/-- `validate_ids`, validation.py:276-305; `none` for an object that is no list.  `set(ids)` is the
list without repeated keys. -/
def validateIds (ids : Option (List PyVal)) : Except Err Unit :=
  match ids with
  | none => .error .validation
  | some l =>
    if l.length = 0 then .error .validation
    else match validateEach l with
      | .error e => .error e
      | .ok () => if l.length ≠ (l.map PyVal.hashKey).dedup.length then .error .validation else .ok ()

/-- Metadata: absent, a dictionary, or something else. -/
inductive MetaArg where
  | none
  | dict (items : List (PyVal × PyVal))
  | other

/-- `validate_metadata`, validation.py:308-342; `jsonOk` says whether `json.dumps` accepts a value. -/
def validateMetadata (jsonOk : PyVal → Bool) (m : MetaArg) : Except Err Unit :=
  match m with
  | .none => .ok ()
  | .other => .error .validation
  | .dict items =>
    if items.any fun (k, v) => !k.isInstance .str || !jsonOk v then .error .validation else .ok ()

end Valori
