import Verif.Model.Tensor
import Verif.Spec.Incr

/-!
# Model of `IncrementalPersistence` (/repo/src/valori/persistence/incremental.py)

Simplifications: `operations.log` and `checkpoint.json` are kept apart from the other files (a
caller's path naming one of them is not modelled); operating-system errors are not modelled; time
stamps and the logged data are left out of log lines.
-/

namespace Valori
open Spec

/-- A log line, incremental.py:241-246. -/
structure LogLine where
  op : String
  path : String
  opId : Nat
deriving DecidableEq

/-- `checkpoint.json`: the two counters, or a file cut off while being written. -/
inductive CkInfo where
  | info (last count : Nat)
  | torn
deriving DecidableEq

/-- The data directory.  `log` has the lines of `operations.log` that end in a newline, `none` for one
that cannot be read; `cut` tells that a piece without newline follows them, left by a process that died
while writing a line.  Simplification: no piece is empty (that is the same as dying before the line) and
none is the whole line but for the newline. -/
structure IDisk (S V A : Type) where
  files : Dict String (TFile S V A)
  info : Option CkInfo
  log : List (Option LogLine)
  cut : Bool
deriving DecidableEq

/-- The manager, incremental.py:26-36. -/
structure Incr (S V A : Type) where
  disk : IDisk S V A
  inited : Bool
  count : Nat
  last : Nat
deriving DecidableEq

/-- External behaviour: pickling, id arrays, `json.dumps` of the first ten ids, `int(...)`. -/
structure IpEnv (S I A : Type) extends TpEnv S I A where
  jsonOk : I → Bool
  parse : String → Option Int
  interval : Int

namespace Incr
variable {S V I A : Type}

/-- `checkpoint_{n}.pkl`, incremental.py:64. -/
def ckptName (n : Nat) : String := "checkpoint_" ++ toString n ++ ".pkl"

/-- `glob("checkpoint_*.pkl")`, incremental.py:88 (top level of the directory only). -/
def globMatch (name : String) : Bool :=
  "checkpoint_".toList.isPrefixOf name.toList && ".pkl".toList.isSuffixOf name.toList &&
    !name.toList.contains '/'

/-- `int(x.stem.split("_")[1])`, incremental.py:93: the characters between the first two underscores
of the stem.  `none`: `int` raises. -/
def ckptNo (parse : String → Option Int) (name : String) : Option Int :=
  parse (String.ofList (((name.toList.drop 11).take (name.toList.length - 15)).takeWhile (· != '_')))

/-- The constructor on a directory, incremental.py:26-36. -/
def new (d : IDisk S V A) : Incr S V A := ⟨d, false, 0, 0⟩

/-- `_load_checkpoint_info`, incremental.py:289-305. -/
def loadInfo (f : Incr S V A) : Incr S V A :=
  match f.disk.info with
  | some (.info l c) => { f with last := l, count := c }
  | some .torn => { f with last := 0, count := 0 }
  | none => { f with last := 0, count := 0 }

/-- `initialize`, incremental.py:38-55. -/
def init (f : Incr S V A) : Incr S V A := { loadInfo f with inited := true }

/-- `_save_checkpoint_info`, incremental.py:274-287. -/
def saveInfo (f : Incr S V A) : Incr S V A :=
  { f with disk := { f.disk with info := some (.info f.last f.count) } }

/-- `_create_checkpoint`, incremental.py:263-272. -/
def createCheckpoint (f : Incr S V A) : Incr S V A := saveInfo { f with last := f.count }

/-- The first half of `_log_operation`, incremental.py:241-251: append the line, count it.  The file is
opened with mode "a", so the line continues a piece left without newline, and nobody can read it then. -/
def appendLog (op path : String) (f : Incr S V A) : Incr S V A :=
  { f with disk := { f.disk with
             log := f.disk.log ++ [if f.disk.cut then none else some ⟨op, path, f.count⟩], cut := false },
           count := f.count + 1 }

/-- The second half of `_log_operation`, incremental.py:253-258. -/
def maybeCheckpoint (interval : Int) (f : Incr S V A) : Incr S V A :=
  if interval ≤ (f.count : Int) - f.last then createCheckpoint f else f

/-- `_log_operation`, incremental.py:238-261. -/
def logOp (interval : Int) (op path : String) (f : Incr S V A) : Incr S V A :=
  maybeCheckpoint interval (appendLog op path f)

/-- Writing a file into the directory. -/
def put (name : String) (c : TFile S V A) (f : Incr S V A) : Incr S V A :=
  { f with disk := { f.disk with files := f.disk.files.set name c } }

/-- `save_state`, incremental.py:57-79: the checkpoint file is opened before pickling. -/
def saveState (env : IpEnv S I A) (s : S) (p : String) (f : Incr S V A) : Res (Incr S V A) Bool :=
  if !f.inited then (.error .persistence, f)
  else if !env.picklable s then (.error .persistence, put (ckptName f.count) .torn f)
  else
    let f1 := put (ckptName f.count) (.pickle s) f
    let f2 := saveInfo { f1 with last := f1.count }
    (.ok true, logOp env.interval "save_state" p f2)

/-- `load_state`, incremental.py:81-105; the path is not used.  Simplification: files with equal
numbers are taken in directory order. -/
def loadState (env : IpEnv S I A) (_p : String) (f : Incr S V A) : Except Err (Option S) :=
  if !f.inited then .error .persistence
  else
    let names := f.disk.files.keys.filter globMatch
    if names.isEmpty then .ok none
    else
      match names.mapM (fun n => (ckptNo env.parse n).map fun i => (i, n)) with
      | none => .error .persistence
      | some l =>
        match (pySortBy (fun x : Int × String => x.1) l).getLast? with
        | none => .error .persistence
        | some (_, n) =>
          match f.disk.files.get? n with
          | some (.pickle s) => .ok (some s)
          | _ => .error .persistence

/-- `save_vectors`, incremental.py:107-132: the log line is made after the file is written, so a
failing `json.dumps` leaves the file. -/
def saveVecs (env : IpEnv S I A) (v : V) (ids : I) (p : String) (f : Incr S V A) :
    Res (Incr S V A) Bool :=
  if !f.inited then (.error .persistence, f)
  else
    match env.idsArr ids with
    | none => (.error .persistence, f)
    | some a =>
      let f1 := put (npzName p) (.npz v a) f
      if !env.jsonOk ids then (.error .persistence, f1)
      else (.ok true, logOp env.interval "save_vectors" p f1)

/-- `load_vectors`, incremental.py:134-152. -/
def loadVecs (env : IpEnv S I A) (p : String) (f : Incr S V A) : Except Err (Option (V × I)) :=
  if !f.inited then .error .persistence
  else
    match f.disk.files.get? p with
    | none => .ok none
    | some (.npz v a) =>
      match env.idsList a with
      | none => .error .persistence
      | some ids => .ok (some (v, ids))
    | some _ => .error .persistence

/-- `save_index`, incremental.py:154-173. -/
def saveIndex (env : IpEnv S I A) (s : S) (p : String) (f : Incr S V A) : Res (Incr S V A) Bool :=
  if !f.inited then (.error .persistence, f)
  else if !env.picklable s then (.error .persistence, put p .torn f)
  else (.ok true, logOp env.interval "save_index" p (put p (.pickle s) f))

/-- `load_index`, incremental.py:175-192. -/
def loadIndex (p : String) (f : Incr S V A) : Except Err (Option S) :=
  if !f.inited then .error .persistence
  else
    match f.disk.files.get? p with
    | none => .ok none
    | some (.pickle s) => .ok (some s)
    | some _ => .error .persistence

/-- `close`, incremental.py:234-236. -/
def close (f : Incr S V A) : Incr S V A := { f with inited := false }

/-! ## Crashes: the directory after the process dies inside a call -/

/-- A log line cut off. -/
def tornLog (f : Incr S V A) : Incr S V A := { f with disk := { f.disk with cut := true } }

/-- The counter file cut off. -/
def tornInfo (f : Incr S V A) : Incr S V A := { f with disk := { f.disk with info := some .torn } }

/-- The crash points shared by all saves, inside `_log_operation` (238-261). -/
def crashInfo2 (interval : Int) (op path : String) (f : Incr S V A) : Incr S V A :=
  let f1 := appendLog op path f
  if interval ≤ (f1.count : Int) - f1.last then tornInfo f1 else f1

/-- The directory when the process dies in `save_state`, in the order of the writes
(incremental.py:64-75).  An unpicklable state never gets past its checkpoint file. -/
def crashState (env : IpEnv S I A) (s : S) (p : String) (pt : StateCrash) (f : Incr S V A) :
    IDisk S V A :=
  if !f.inited then f.disk
  else
    let c := ckptName f.count
    let f1 := put c (.pickle s) f
    let f2 := saveInfo { f1 with last := f1.count }
    let pt := if env.picklable s then pt else
      match pt with
      | .start => .start
      | _ => .ckptTorn
    match pt with
    | .start => f.disk
    | .ckptTorn => (put c .torn f).disk
    | .ckptDone => f1.disk
    | .infoTorn => (tornInfo f1).disk
    | .infoDone => f2.disk
    | .logTorn => (tornLog f2).disk
    | .logDone => (appendLog "save_state" p f2).disk
    | .info2Torn => (crashInfo2 env.interval "save_state" p f2).disk

/-- The directory when the process dies while a file `name` is saved and logged
(incremental.py:112-127, 159-168). -/
def crashFile (env : IpEnv S I A) (op name p : String) (c : TFile S V A) (pt : FileCrash)
    (f : Incr S V A) : IDisk S V A :=
  let f1 := put name c f
  match pt with
  | .start => f.disk
  | .fileTorn => (put name .torn f).disk
  | .fileDone => f1.disk
  | .logTorn => (tornLog f1).disk
  | .logDone => (appendLog op p f1).disk
  | .info2Torn => (crashInfo2 env.interval op p f1).disk

/-- The process dies in `save_vectors`. -/
def crashVecs (env : IpEnv S I A) (v : V) (ids : I) (p : String) (pt : FileCrash) (f : Incr S V A) :
    IDisk S V A :=
  if !f.inited then f.disk
  else
    match env.idsArr ids with
    | none => f.disk
    | some a =>
      let pt := if env.jsonOk ids then pt else
        match pt with
        | .logTorn | .logDone | .info2Torn => .fileDone
        | pt => pt
      crashFile env "save_vectors" (npzName p) p (.npz v a) pt f

/-- The process dies in `save_index`. -/
def crashIndex (env : IpEnv S I A) (s : S) (p : String) (pt : FileCrash) (f : Incr S V A) :
    IDisk S V A :=
  if !f.inited then f.disk
  else
    let pt := if env.picklable s then pt else
      match pt with
      | .start => .start
      | _ => .fileTorn
    crashFile env "save_index" p p (.pickle s) pt f

/-! ## Histories (harness) -/

def repSave (r : Except Err Bool) : IpReply S V I :=
  match r with
  | .ok _ => .saved
  | .error _ => .raised

def repObj (r : Except Err (Option S)) : IpReply S V I :=
  match r with
  | .ok o => .obj o
  | .error _ => .raised

def repVecs (r : Except Err (Option (V × I))) : IpReply S V I :=
  match r with
  | .ok o => .vecs o
  | .error _ => .raised

/-- One call. -/
def call (env : IpEnv S I A) (f : Incr S V A) : IpCall S V I → IpReply S V I × Incr S V A
  | .saveState s p => let r := saveState env s p f; (repSave r.1, r.2)
  | .saveVecs v ids p => let r := saveVecs env v ids p f; (repSave r.1, r.2)
  | .saveIndex s p => let r := saveIndex env s p f; (repSave r.1, r.2)
  | .loadState p => (repObj (loadState env p f), f)
  | .loadVecs p => (repVecs (loadVecs env p f), f)
  | .loadIndex p => (repObj (loadIndex p f), f)
  | .close => (.done, close f)
  | .reopen => (.done, init f)
  | .crashState s p pt => (.done, init (new (crashState env s p pt f)))
  | .crashVecs v ids p pt => (.done, init (new (crashVecs env v ids p pt f)))
  | .crashIndex s p pt => (.done, init (new (crashIndex env s p pt f)))

/-- A history, newest first: the calls with their replies, and the final state. -/
def run (env : IpEnv S I A) (f : Incr S V A) :
    List (IpCall S V I) → List (IpCall S V I × IpReply S V I) × Incr S V A
  | [] => ([], f)
  | c :: h =>
    let (tr, f') := run env f h
    let (r, f'') := call env f' c
    ((c, r) :: tr, f'')

end Incr
end Valori
