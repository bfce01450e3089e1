import Verif.Model.Py
import Verif.Spec.Persist

/-!
# Model of `TensorPersistence` (/repo/src/valori/persistence/tensor.py)

A directory maps file names to contents.  Simplifications: paths are names of files below
`data_dir` (two spellings of one file are one name); a file whose writing was cut off is `torn`, and
reading it raises; `compression` only selects the numpy function (89-94) and is not modelled.
-/

namespace Valori
open Spec

/-- File contents: a pickle, a numpy archive, or a file cut off while being written. -/
inductive TFile (S V A : Type) where
  | pickle (s : S)
  | npz (v : V) (a : A)
  | torn
deriving DecidableEq

/-- External behaviour: which objects pickle, `np.array(ids)` (`none`: raises) and reading the array
back with `.tolist()` (`none`: raises, e.g. object arrays). -/
structure TpEnv (S I A : Type) where
  picklable : S → Bool
  idsArr : I → Option A
  idsList : A → Option I

/-- The manager and its directory, tensor.py:23-29. -/
structure Tensor (S V A : Type) where
  files : Dict String (TFile S V A)
  inited : Bool
  saves : Nat
  loads : Nat
deriving DecidableEq

namespace Tensor
variable {S V I A : Type}

/-- The constructor on a directory, tensor.py:23-29. -/
def new (files : Dict String (TFile S V A)) : Tensor S V A := ⟨files, false, 0, 0⟩

/-- `initialize`, tensor.py:31-38.  Simplification: creating the directory succeeds. -/
def init (f : Tensor S V A) : Tensor S V A := { f with inited := true }

/-- `save_state`, tensor.py:40-57: the file is opened (and truncated) before pickling. -/
def saveState (env : TpEnv S I A) (s : S) (p : String) (io : Bool) (f : Tensor S V A) :
    Res (Tensor S V A) Bool :=
  if !f.inited then (.error .persistence, f)
  else if !io then (.error .persistence, f)
  else if env.picklable s then
    (.ok true, { f with files := f.files.set p (.pickle s), saves := f.saves + 1 })
  else (.error .persistence, { f with files := f.files.set p .torn })

/-- `load_state`, tensor.py:59-76. -/
def loadState (p : String) (f : Tensor S V A) : Res (Tensor S V A) (Option S) :=
  if !f.inited then (.error .persistence, f)
  else
    match f.files.get? p with
    | none => (.ok none, f)
    | some (.pickle s) => (.ok (some s), { f with loads := f.loads + 1 })
    | some _ => (.error .persistence, f)

/-- `save_vectors`, tensor.py:78-100: `np.savez` appends ".npz". -/
def saveVecs (env : TpEnv S I A) (v : V) (ids : I) (p : String) (io : Bool) (f : Tensor S V A) :
    Res (Tensor S V A) Bool :=
  if !f.inited then (.error .persistence, f)
  else if !io then (.error .persistence, f)
  else
    match env.idsArr ids with
    | none => (.error .persistence, f)
    | some a =>
      (.ok true, { f with files := f.files.set (npzName p) (.npz v a), saves := f.saves + 1 })

/-- `load_vectors`, tensor.py:102-122: reads exactly `path`. -/
def loadVecs (env : TpEnv S I A) (p : String) (f : Tensor S V A) :
    Res (Tensor S V A) (Option (V × I)) :=
  if !f.inited then (.error .persistence, f)
  else
    match f.files.get? p with
    | none => (.ok none, f)
    | some (.npz v a) =>
      match env.idsList a with
      | none => (.error .persistence, f)
      | some ids => (.ok (some (v, ids)), { f with loads := f.loads + 1 })
    | some _ => (.error .persistence, f)

/-- `save_index`, tensor.py:124-142. -/
def saveIndex (env : TpEnv S I A) (s : S) (p : String) (io : Bool) (f : Tensor S V A) :
    Res (Tensor S V A) Bool :=
  if !f.inited then (.error .persistence, f)
  else if !io then (.error .persistence, f)
  else if env.picklable s then
    (.ok true, { f with files := f.files.set p (.pickle s), saves := f.saves + 1 })
  else (.error .persistence, { f with files := f.files.set p .torn })

/-- `load_index`, tensor.py:144-162. -/
def loadIndex (p : String) (f : Tensor S V A) : Res (Tensor S V A) (Option S) :=
  if !f.inited then (.error .persistence, f)
  else
    match f.files.get? p with
    | none => (.ok none, f)
    | some (.pickle s) => (.ok (some s), { f with loads := f.loads + 1 })
    | some _ => (.error .persistence, f)

/-- `close`, tensor.py:198-200. -/
def close (f : Tensor S V A) : Tensor S V A := { f with inited := false }

/-- Where a process may die during `save_state` (tensor.py:49-50): before the file is opened, with
the file truncated or partly written, or after it is complete. -/
inductive CrashAt where
  | beforeOpen | writing | written
deriving DecidableEq

/-- The directory left by a process that dies in `save_state`. -/
def crashSave (s : S) (p : String) (at_ : CrashAt) (d : Dict String (TFile S V A)) :
    Dict String (TFile S V A) :=
  match at_ with
  | .beforeOpen => d
  | .writing => d.set p .torn
  | .written => d.set p (.pickle s)

/-- Reply of a save (harness). -/
def repSave (r : Except Err Bool) : TpReply S V I :=
  match r with
  | .ok _ => .saved
  | .error _ => .raised

/-- Reply of an object load (harness). -/
def repObj (r : Except Err (Option S)) : TpReply S V I :=
  match r with
  | .ok o => .obj o
  | .error _ => .raised

/-- Reply of a vector load (harness). -/
def repVecs (r : Except Err (Option (V × I))) : TpReply S V I :=
  match r with
  | .ok o => .vecs o
  | .error _ => .raised

/-- One call (harness). -/
def call (env : TpEnv S I A) (f : Tensor S V A) : TpCall S V I → TpReply S V I × Tensor S V A
  | .saveState s p io => let r := saveState env s p io f; (repSave r.1, r.2)
  | .saveIndex s p io => let r := saveIndex env s p io f; (repSave r.1, r.2)
  | .saveVecs v ids p io => let r := saveVecs env v ids p io f; (repSave r.1, r.2)
  | .loadState p => let r := loadState p f; (repObj r.1, r.2)
  | .loadIndex p => let r := loadIndex p f; (repObj r.1, r.2)
  | .loadVecs p => let r := loadVecs env p f; (repVecs r.1, r.2)
  | .init => (.done, init f)
  | .close => (.done, close f)
  | .reopen => (.done, init (new f.files))

/-- A history: the calls with their replies, newest first, and the final state (harness). -/
def run (env : TpEnv S I A) (f : Tensor S V A) :
    List (TpCall S V I) → List (TpCall S V I × TpReply S V I) × Tensor S V A
  | [] => ([], f)
  | c :: h => -- `h` happened before `c`
    let (tr, f') := run env f h
    let (r, f'') := call env f' c
    ((c, r) :: tr, f'')

end Tensor
end Valori
