import Verif.Model.Validation
import Verif.Model.VectorsFile

/-!
# Metadata and JSON: utils/validation.py:308-342, utils/helpers.py:272-288 and 318-322
-/

namespace Valori

/-- A metadata value.  `other` stands for everything `json.dumps` refuses: arrays, sets, bytes, numpy scalars that
are no Python floats, objects.  Simplification: a value does not contain itself (`json.dumps` raises ValueError for
that) and is not nested deeper than Python's recursion limit; subclasses are not told from their base classes.
Dictionary keys are `PyVal`; `PyVal.other` is a key that is no string, number, bool or None, such as a tuple. -/
inductive PyObj where
  | null
  | bool (b : Bool)
  | int (i : Int)
  | float (x : PyFloat)
  | str (s : String)
  | list (xs : List PyObj)
  | tuple (xs : List PyObj)
  | dict (items : List (PyVal × PyObj))
  | other (tag : Nat)

/-- The text `json.dumps` writes for a dictionary key, `none` for TypeError; `fr` is `float.__repr__`. -/
def jsonKey (fr : PyFloat → String) : PyVal → Option String
  | .null => some "null"
  | .bool b => some (if b then "true" else "false")
  | .int i => some (toString i)
  | .float x => some (fr x)
  | .str s => some s
  | .other _ => none

/-- The dictionary `json.loads` makes of the pairs it has read: a later pair with the same key overwrites. -/
def ofPairs {α : Type} (ps : List (PyVal × α)) : Dict PyVal α := ps.foldl (fun d p => d.set p.1 p.2) []

mutual
/-- `json.loads(json.dumps(x))`, `none` where `json.dumps` raises TypeError: the standard library as documented.
NaN and infinities are written as `NaN`, `Infinity`, and read back; a float is written by its `repr`, which reads back
as the same float. -/
def viaJson (fr : PyFloat → String) : PyObj → Option PyObj
  | .null => some .null
  | .bool b => some (.bool b)
  | .int i => some (.int i)
  | .float x => some (.float x)
  | .str s => some (.str s)
  | .list xs => (viaJsonAll fr xs).map .list
  | .tuple xs => (viaJsonAll fr xs).map .list
  | .dict items => (viaJsonItems fr items).map fun ps => .dict (ofPairs ps)
  | .other _ => none

/-- The elements of a list or tuple. -/
def viaJsonAll (fr : PyFloat → String) : List PyObj → Option (List PyObj)
  | [] => some []
  | x :: xs =>
    match viaJson fr x with
    | none => none
    | some y =>
      match viaJsonAll fr xs with
      | none => none
      | some ys => some (y :: ys)

/-- The entries of a dictionary. -/
def viaJsonItems (fr : PyFloat → String) : List (PyVal × PyObj) → Option (List (PyVal × PyObj))
  | [] => some []
  | (k, x) :: items =>
    match jsonKey fr k with
    | none => none
    | some s =>
      match viaJson fr x with
      | none => none
      | some y =>
        match viaJsonItems fr items with
        | none => none
        | some ys => some ((.str s, y) :: ys)
end

/-- `validate_metadata`, validation.py:308-342, as `validateMetadata` with `json.dumps` as above. -/
def validateMeta (fr : PyFloat → String) : PyObj → Except Err Unit
  | .null => .ok ()
  | .dict items =>
    if items.any fun e => !e.1.isInstance .str || (viaJson fr e.2).isNone then .error .validation else .ok ()
  | _ => .error .validation

end Valori
