import Verif.Model.Py

/-!
# `DiskStorage` (`/repo/src/valori/storage/disk.py`)

The two sub-directories `vectors/` and `metadata/` are finite maps from file stems to
contents.  Every operation is written as the list of primitive file steps it performs,
so that a crash between two steps can be stated.
-/

namespace Valori

/-- What the code takes from its surroundings: `str.isalnum` on one character, whether
pickle accepts a metadata value, and the order in which `Path.glob` lists files. -/
structure DiskEnv (M : Type) where
  isalnum : Char → Bool
  picklable : M → Bool
  glob : List String → List String

/-- Content of one file: completely written, or truncated/partially written. -/
inductive File (α : Type) where
  | good (a : α)
  | torn
deriving DecidableEq, Repr

/-- The data directory: `vectors/<stem>.npy` and `metadata/<stem>.pkl`, disk.py:27-29. -/
structure Dir (V M : Type) where
  vec : Dict String (File V)
  pkl : Dict String (File M)
deriving DecidableEq, Repr

/-- Primitive file-system steps. `...Torn` is `open(path, "wb")` up to any incomplete write. -/
inductive FsStep (V M : Type) where
  | vecTorn (s : String)
  | vecDone (s : String) (v : V)
  | pklTorn (s : String)
  | pklDone (s : String) (m : M)
  | vecUnlink (s : String)
  | pklUnlink (s : String)
deriving DecidableEq, Repr

/-- Effect of one primitive step. -/
def FsStep.run {V M : Type} (d : Dir V M) : FsStep V M → Dir V M
  | .vecTorn s => { d with vec := d.vec.set s .torn }
  | .vecDone s v => { d with vec := d.vec.set s (.good v) }
  | .pklTorn s => { d with pkl := d.pkl.set s .torn }
  | .pklDone s m => { d with pkl := d.pkl.set s (.good m) }
  | .vecUnlink s => { d with vec := d.vec.pop s }
  | .pklUnlink s => { d with pkl := d.pkl.pop s }

/-- Several steps in order. -/
def runSteps {V M : Type} (d : Dir V M) (l : List (FsStep V M)) : Dir V M :=
  l.foldl FsStep.run d

/-- Fields of `DiskStorage`, disk.py:24-30; the directory outlives the object. -/
structure Disk (V M : Type) where
  dir : Dir V M
  count : Nat
  inited : Bool
deriving DecidableEq, Repr

/-- `_sanitize_id`, disk.py:220-224. -/
def sanitize {M : Type} (env : DiskEnv M) (id : Id) : String :=
  String.ofList (id.toList.map fun c =>
    if env.isalnum c || c == '.' || c == '_' || c == '-' then c else '_')

namespace Disk
variable {V M : Type} (env : DiskEnv M)

/-- A new object on a directory, before `initialize`, disk.py:24-30. -/
def opened (d : Dir V M) : Disk V M := ⟨d, 0, false⟩

/-- `initialize`, disk.py:32-45: keeps the files and counts the `.npy` ones.
Simplification: `mkdir` does not fail. -/
def init (s : Disk V M) : Disk V M := { s with count := s.dir.vec.length, inited := true }

/-- File steps of the write part shared by `store_vector` (disk.py:57-73) and
`update_vector` (disk.py:151-163).  The second component tells whether the write
completed; pickling an unsupported object raises after the file was opened. -/
def writeSteps (d : Dir V M) (stem : String) (v : V) (m : Option M) : List (FsStep V M) × Bool :=
  let first := [FsStep.vecTorn stem, FsStep.vecDone stem v]
  match m with
  | some m =>
    if env.picklable m then (first ++ [.pklTorn stem, .pklDone stem m], true)
    else (first ++ [.pklTorn stem], false)
  | none => (first ++ (if d.pkl.mem stem then [.pklUnlink stem] else []), true)

/-- `store_vector`, disk.py:47-79. -/
def store (s : Disk V M) (id : Id) (v : V) (m : Option M) : Res (Disk V M) Bool :=
  if id = "" then (.ok false, s)
  else if !s.inited then (.error .storage, s)
  else
    let (steps, fin) := writeSteps env s.dir (sanitize env id) v m
    let d := runSteps s.dir steps
    if fin then (.ok true, { s with dir := d, count := d.vec.length })
    else (.error .storage, { s with dir := d })

/-- `retrieve_vector`, disk.py:81-106; an unreadable file makes `np.load` or
`pickle.load` raise, which becomes a `StorageError`. -/
def retrieve (s : Disk V M) (id : Id) : Res (Disk V M) (Option (V × Option M)) :=
  if !s.inited then (.error .storage, s)
  else
    let stem := sanitize env id
    match s.dir.vec.get? stem with
    | none => (.ok none, s)
    | some .torn => (.error .storage, s)
    | some (.good v) =>
      match s.dir.pkl.get? stem with
      | none => (.ok (some (v, none)), s)
      | some .torn => (.error .storage, s)
      | some (.good m) => (.ok (some (v, some m)), s)

/-- File steps of `delete_vector`, disk.py:116-126. -/
def deleteSteps (d : Dir V M) (stem : String) : List (FsStep V M) :=
  (if d.vec.mem stem then [.vecUnlink stem] else []) ++
  (if d.pkl.mem stem then [.pklUnlink stem] else [])

/-- `delete_vector`, disk.py:108-134. -/
def delete (s : Disk V M) (id : Id) : Res (Disk V M) Bool :=
  if !s.inited then (.error .storage, s)
  else
    let stem := sanitize env id
    let d := runSteps s.dir (deleteSteps s.dir stem)
    if s.dir.vec.mem stem then (.ok true, { s with dir := d, count := d.vec.length })
    else (.ok false, { s with dir := d })

/-- `update_vector`, disk.py:136-168. -/
def update (s : Disk V M) (id : Id) (v : V) (m : Option M) : Res (Disk V M) Bool :=
  if !s.inited then (.error .storage, s)
  else
    let stem := sanitize env id
    if !s.dir.vec.mem stem then (.ok false, s)
    else
      let (steps, fin) := writeSteps env s.dir stem v m
      let d := runSteps s.dir steps
      if fin then (.ok true, { s with dir := d })
      else (.error .storage, { s with dir := d })

/-- `list_vectors`, disk.py:170-185: the stems of the `.npy` files in the order the
directory scan yields them. -/
def list (s : Disk V M) (limit : Option Int) : Res (Disk V M) (List Id) :=
  if !s.inited then (.error .storage, s)
  else
    let ids := env.glob s.dir.vec.keys
    match limit with
    | none => (.ok ids, s)
    | some k => (.ok (sliceTo ids k), s)

/-- The `vector_count` entry of `get_stats`, disk.py:187-214. -/
def statCount (s : Disk V M) : Option Nat := if s.inited then some s.count else none

/-- `close`, disk.py:216-218: the files stay. -/
def close (s : Disk V M) : Disk V M := { s with inited := false }

/-- The calls that touch files. -/
inductive Write (V M : Type) where
  | store (id : Id) (v : V) (m : Option M)
  | update (id : Id) (v : V) (m : Option M)
  | delete (id : Id)
deriving DecidableEq, Repr

/-- The id a call is about. -/
def Write.id : Write V M → Id
  | .store id _ _ => id
  | .update id _ _ => id
  | .delete id => id

/-- The file steps a call performs from a given directory, in order: disk.py:56-73,
143-163, 113-126.  A crash during the call leaves the effect of a prefix of them. -/
def Write.steps (d : Dir V M) : Write V M → List (FsStep V M)
  | .store id v m => if id = "" then [] else (writeSteps env d (sanitize env id) v m).1
  | .update id v m =>
    if d.vec.mem (sanitize env id) then (writeSteps env d (sanitize env id) v m).1 else []
  | .delete id => deleteSteps d (sanitize env id)

/-- Run the call itself. -/
def Write.exec (s : Disk V M) : Write V M → Res (Disk V M) Bool
  | .store id v m => s.store env id v m
  | .update id v m => s.update env id v m
  | .delete id => s.delete env id

end Disk
end Valori
