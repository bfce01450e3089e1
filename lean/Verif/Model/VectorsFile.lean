import Verif.Model.Py

/-!
# Saving and loading vectors: utils/helpers.py:255-327
-/

namespace Valori

/-- A two-dimensional array.  Simplification: the data type of the entries is not modelled, so a change
of it (float32 becomes float64 through JSON) is not seen. -/
structure VArr (K : Type) where
  width : Nat
  rows : List (List K)
deriving DecidableEq

/-- A path in the form `str(Path(p))`, as characters. -/
abbrev FPath := List Char

/-- The last component, `Path.name`. -/
def fileName (p : FPath) : FPath := (p.reverse.takeWhile (· ≠ '/')).reverse

/-- `Path.suffix`: from the last dot of the name, if there is something before and after it. -/
def fileSuffix (p : FPath) : List Char :=
  let r := (fileName p).reverse
  let ext := r.takeWhile (· ≠ '.')
  match r.dropWhile (· ≠ '.') with
  | _ :: _ :: _ => if ext = [] then [] else '.' :: ext.reverse
  | _ => []

/-- What a file holds; `json` keeps only the nested lists, `junk` is an interrupted write. -/
inductive VFile (K M : Type) where
  | npz (a : VArr K) (ms : List M)
  | pickle (a : VArr K) (ms : List M)
  | json (rows : List (List K)) (ms : List M)
  | junk
deriving DecidableEq

/-- `np.savez_compressed` appends ".npz" to names that do not end so. -/
def savezName (p : FPath) : FPath := if ".npz".toList <:+ p then p else p ++ ".npz".toList

variable {K M : Type}

/-- `save_vectors_to_file`, helpers.py:255-291.  `toJson` is what JSON makes of a metadata entry, `none`
when it cannot be written: then `json.dump` raises `TypeError` and leaves an incomplete file. -/
def saveVectors (toJson : M → Option M) (fs : Dict FPath (VFile K M)) (a : VArr K) (ms : List M) (p : FPath)
    (format : String) : Except Err Unit × Dict FPath (VFile K M) :=
  if format = "npz" then (.ok (), fs.set (savezName p) (.npz a ms))
  else if format = "pickle" then (.ok (), fs.set p (.pickle a ms))
  else if format = "json" then
    match ms.mapM toJson with
    | some ms => (.ok (), fs.set p (.json a.rows ms))
    | none => (.error .typeE, fs.set p .junk)
  else (.error .validation, fs)

/-- `np.array` of nested lists: the width is that of the first row. -/
def arrOf (rows : List (List K)) : VArr K := ⟨(rows.head?.getD []).length, rows⟩

/-- `load_vectors_from_file`, helpers.py:294-327.  A pickle opened by `np.load` gives the dictionary,
whose metadata is a list without `tolist`.  Other files in a foreign format raise. -/
def loadVectors (fs : Dict FPath (VFile K M)) (p : FPath) : Except Err (VArr K × List M) :=
  if fileSuffix p = ".npz".toList then
    match fs.get? p with
    | some (.npz a ms) => .ok (a, ms)
    | some (.pickle _ _) => .error .attribute
    | _ => .error .other
  else if fileSuffix p = ".pkl".toList then
    match fs.get? p with
    | some (.pickle a ms) => .ok (a, ms)
    | _ => .error .other
  else if fileSuffix p = ".json".toList then
    match fs.get? p with
    | some (.json rows ms) => .ok (arrOf rows, ms)
    | _ => .error .other
  else .error .validation

end Valori
