import Verif.Model.Incr
import Verif.Model.Disk
import Verif.Spec.Paths

/-!
# Paths given to the persistence managers, and file names of the disk storage

`self.data_dir / path` in /repo/src/valori/persistence/tensor.py:46, 65, 84, 108, 130, 150 and
incremental.py:113, 140, 160, 181; `self.vectors_dir / f"{safe_id}.npy"` in
/repo/src/valori/storage/disk.py.  Simplifications: no symbolic links; directories on the way exist (the
savers create them, tensor.py:47, 87, 133); names are not too long.
-/

namespace Valori
open Spec

/-- The pieces between slashes. -/
def splitSlash : List Char → List FName
  | [] => [[]]
  | c :: cs =>
    match splitSlash cs with
    | [] => [[c]]
    | w :: ws => if c = '/' then [] :: w :: ws else (c :: w) :: ws

/-- The parts of a path as `pathlib` sees it: empty pieces and single dots are dropped, ".." is kept. -/
def parts (p : List Char) : List FName := (splitSlash p).filter fun w => !(w == [] || w == ['.'])

/-- `dir / path`: an absolute path replaces the directory. -/
def joinPath (dir : List FName) (p : List Char) : List FName :=
  if p.head? = some '/' then parts p else dir ++ parts p

/-- Following the names one after the other, as the operating system does; ".." leads to the parent. -/
def follow (loc : List FName) : List FName → List FName
  | [] => loc
  | n :: ns => follow (if n = ['.', '.'] then loc.dropLast else loc ++ [n]) ns

/-- The location of the file that `dir / path` names. -/
def located (dir : List FName) (p : List Char) : List FName := follow [] (joinPath dir p)

/-- The name of the vector file of an id, disk.py:63 and others. -/
def vectorFile {M : Type} (env : DiskEnv M) (id : Id) : List Char :=
  (sanitize env id).toList ++ ".npy".toList

/-- The name of the metadata file of an id, disk.py:68 and others. -/
def metadataFile {M : Type} (env : DiskEnv M) (id : Id) : List Char :=
  (sanitize env id).toList ++ ".pkl".toList

namespace Incr
variable {S V I A : Type}

/-- `save_index`, incremental.py:154-173, where the path may be that of the manager's own
`checkpoint.json` (incremental.py:34): the pickle is written over it, and `json.load` of a pickle
raises. -/
def saveIndexAt (env : IpEnv S I A) (s : S) (p : String) (f : Incr S V A) : Res (Incr S V A) Bool :=
  if p = "checkpoint.json" then
    if !f.inited then (.error .persistence, f)
    else if !env.picklable s then (.error .persistence, tornInfo f)
    else (.ok true, logOp env.interval "save_index" p (tornInfo f))
  else saveIndex env s p f

end Incr
end Valori
