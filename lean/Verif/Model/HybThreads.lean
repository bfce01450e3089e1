import Verif.Model.Hybrid
import Verif.Model.Threads

/-!
# Several threads calling one `HybridStorage`: storage/hybrid.py

`store_vector`, `retrieve_vector`, `delete_vector` and `update_vector` check `_initialized` and do the rest
`with self.lock`, and so does `close` without a check; `list_vectors`, `get_stats` and `initialize` take no
lock of their own.  Here
the scheduler may switch threads between any two steps.  A step is one access of a vector file or metadata
file (opening a file for writing and completing it are two), one directory scan, or one call of the
`MemoryStorage`, whose methods hold its own lock.

Simplifications: reading a vector file and its metadata file is one step, and so are testing for a metadata
file and removing it: both happen only while the lock of the hybrid storage is held, and nothing else
writes these files.  One directory scan sees the directory of one moment.
-/

namespace Valori

/-- An object some of whose methods take a lock.  `check` is `some r` if the call is answered at once;
otherwise the steps of `body` are made, holding the lock if `locked`. -/
structure SharedObj (σ C R : Type) where
  check : σ → C → Option R
  locked : C → Bool
  body : C → List (σ × R → σ × R)
  zero : R

variable {σ C R : Type}

/-- One step of thread `t`. -/
def Sys.move (O : SharedObj σ C R) (s : Sys σ C R) (t : Nat) : Sys σ C R :=
  match (s.thr t).todo with
  | [] => s
  | c :: rest =>
    match (s.thr t).pc with
    | .out =>
      match O.check s.obj c with
      | some r => s.finish t c rest r
      | none =>
        let pc := if O.locked c then .wait else .inside 0 O.zero
        { s with thr := Function.update s.thr t { s.thr t with pc := pc } }
    | .wait =>
      match s.lock with
      | some _ => s
      | none => { s with lock := some t
                         thr := Function.update s.thr t { s.thr t with pc := .inside 0 O.zero } }
    | .inside k reg =>
      match (O.body c)[k]? with
      | some f =>
        let p := f (s.obj, reg)
        { s with obj := p.1, thr := Function.update s.thr t { s.thr t with pc := .inside (k + 1) p.2 } }
      | none => ({ s with lock := if O.locked c then none else s.lock }).finish t c rest reg

/-- A schedule says which thread moves next. -/
def Sys.moves (O : SharedObj σ C R) (s : Sys σ C R) (sched : List Nat) : Sys σ C R :=
  sched.foldl (Sys.move O) s

/-! ## The methods of `HybridStorage` -/

/-- A call. -/
inductive HyCall (V M : Type) where
  | store (id : Id) (v : V) (m : Option M)
  | retrieve (id : Id)
  | delete (id : Id)
  | update (id : Id) (v : V) (m : Option M)
  | list (limit : Option Int)
  | stats
  | setup
  | close
deriving DecidableEq

/-- A reply; `pair` and `loaded` are only intermediate values.  Of the statistics the two entries
`vector_count` are modelled. -/
inductive HyReply (V M : Type) where
  | done
  | bool (b : Bool)
  | found (r : Option (V × Option M))
  | ids (l : List Id)
  | stats (r : Option (Option Nat × Option Nat))
  | raised (e : Err)
  | pair (a b : Bool)
  | loaded (v : V) (m : Option M)
deriving DecidableEq

variable {V M : Type}

/-- What precedes the lock: hybrid.py:54-58, 84-85, 116-117, 134-135, 153-154, 160-161. -/
def hybCheck (s : Hyb V M) : HyCall V M → Option (HyReply V M)
  | .store id _ _ =>
    if id = "" then some (.bool false) else if !s.inited then some (.raised .storage) else none
  | .retrieve _ => if !s.inited then some (.raised .storage) else none
  | .delete _ => if !s.inited then some (.raised .storage) else none
  | .update _ _ _ => if !s.inited then some (.raised .storage) else none
  | .list _ => if !s.inited then some (.raised .storage) else none
  | .stats => if !s.inited then some (.stats none) else none
  | .setup => none
  | .close => none

/-- The methods with `with self.lock`: hybrid.py:61, 88, 120, 138, 176. -/
def hybLocked : HyCall V M → Bool
  | .store _ _ _ => true
  | .retrieve _ => true
  | .delete _ => true
  | .update _ _ _ => true
  | .close => true
  | _ => false

variable [ByteSize V] [ByteSize M] (env : DiskEnv M)

/-- A step that is made only while the local value is `True`. -/
def onTrue (f : Hyb V M → Hyb V M × HyReply V M) (p : Hyb V M × HyReply V M) : Hyb V M × HyReply V M :=
  match p.2 with
  | .bool true => f p.1
  | _ => p

/-- One file access while the local value is `True`. -/
def onFile (f : FsStep V M) : Hyb V M × HyReply V M → Hyb V M × HyReply V M :=
  onTrue fun s => ({ s with disk := { s.disk with dir := f.run s.disk.dir } }, .bool true)

/-- The writing shared by `store_vector` and `update_vector` of the disk storage: disk.py:57-73,
151-163. -/
def fileSteps (stem : String) (v : V) (m : Option M) :
    List (Hyb V M × HyReply V M → Hyb V M × HyReply V M) :=
  [onFile (.vecTorn stem), onFile (.vecDone stem v)] ++
  (match m with
    | some m => [onFile (.pklTorn stem),
        onTrue fun s =>
          if env.picklable m then
            ({ s with disk := { s.disk with dir := (FsStep.pklDone stem m).run s.disk.dir } }, .bool true)
          else (s, .raised .storage)]
    | none => [onTrue fun s =>
        if s.disk.dir.pkl.mem stem then
          ({ s with disk := { s.disk with dir := (FsStep.pklUnlink stem).run s.disk.dir } }, .bool true)
        else (s, .bool true)])

/-- The steps of the methods after the check. -/
def hybBody : HyCall V M → List (Hyb V M × HyReply V M → Hyb V M × HyReply V M)
  -- hybrid.py:63-77, disk.py:53-79
  | .store id v m =>
    [fun (p : Hyb V M × HyReply V M) => (p.1, if p.1.disk.inited then .bool true else .raised .storage)] ++
    fileSteps env (sanitize env id) v m ++
    [onTrue fun s => ({ s with disk := { s.disk with count := s.disk.dir.vec.length } }, .bool true),
     onTrue fun s =>
      match Hyb.remember s.mem s.limit id v m with
      | (.error _, mm) => ({ s with mem := mm }, .raised .storage)
      | (.ok _, mm) => ({ s with mem := mm }, .bool true)]
  -- hybrid.py:90-109
  | .retrieve id => [
      fun p =>
        match p.1.mem.retrieve id with
        | (.error _, mm) => ({ p.1 with mem := mm }, .raised .storage)
        | (.ok r, mm) => ({ p.1 with mem := mm }, .found r),
      fun p => match p.2 with
        | .found none =>
          match p.1.disk.retrieve env id with
          | (.error _, d) => ({ p.1 with disk := d }, .raised .storage)
          | (.ok none, d) => ({ p.1 with disk := d }, .found none)
          | (.ok (some (v, m)), d) => ({ p.1 with disk := d }, .loaded v m)
        | _ => p,
      fun p => match p.2 with
        | .loaded v m =>
          match Hyb.remember p.1.mem p.1.limit id v m with
          | (.error _, mm) => ({ p.1 with mem := mm }, .raised .storage)
          | (.ok _, mm) => ({ p.1 with mem := mm }, .found (some (v, m)))
        | _ => p]
  -- hybrid.py:122-125, disk.py:110-131
  | .delete id => [
      fun p =>
        match p.1.mem.delete id with
        | (.error _, mm) => ({ p.1 with mem := mm }, .raised .storage)
        | (.ok a, mm) => ({ p.1 with mem := mm }, .bool a),
      fun p => match p.2 with
        | .bool a => if p.1.disk.inited then (p.1, .bool a) else (p.1, .raised .storage)
        | _ => p,
      fun p => match p.2 with
        | .bool a =>
          if p.1.disk.dir.vec.mem (sanitize env id) then
            ({ p.1 with disk := { p.1.disk with
                dir := (FsStep.vecUnlink (sanitize env id)).run p.1.disk.dir } }, .pair a true)
          else (p.1, .pair a false)
        | _ => p,
      fun p => match p.2 with
        | .pair a b =>
          if p.1.disk.dir.pkl.mem (sanitize env id) then
            ({ p.1 with disk := { p.1.disk with
                dir := (FsStep.pklUnlink (sanitize env id)).run p.1.disk.dir } }, .pair a b)
          else p
        | _ => p,
      fun p => match p.2 with
        | .pair a true =>
          ({ p.1 with disk := { p.1.disk with count := p.1.disk.dir.vec.length } }, .bool true)
        | .pair a false => (p.1, .bool a)
        | _ => p]
  -- hybrid.py:140-146, disk.py:140-165
  | .update id v m =>
    [fun (p : Hyb V M × HyReply V M) => (p.1, if p.1.disk.inited then .bool true else .raised .storage),
     onTrue fun s => (s, .bool (s.disk.dir.vec.mem (sanitize env id)))] ++
    fileSteps env (sanitize env id) v m ++
    [onTrue fun s =>
      match s.mem.update id v m with
      | (.error _, mm) => ({ s with mem := mm }, .raised .storage)
      | (.ok _, mm) => ({ s with mem := mm }, .bool true)]
  -- hybrid.py:156, disk.py:172-183
  | .list limit => [
      fun p =>
        match p.1.disk.list env limit with
        | (.error e, d) => ({ p.1 with disk := d }, .raised e)
        | (.ok l, d) => ({ p.1 with disk := d }, .ids l)]
  -- hybrid.py:163-172
  | .stats => [
      fun p => (p.1, .stats (some (p.1.mem.statCount, none))),
      fun p => match p.2 with
        | .stats (some (a, _)) => (p.1, .stats (some (a, p.1.disk.statCount)))
        | _ => p]
  -- hybrid.py:44-46
  | .setup => [
      fun p => ({ p.1 with mem := p.1.mem.init }, p.2),
      fun p => ({ p.1 with disk := p.1.disk.init }, p.2),
      fun p => ({ p.1 with inited := true }, p.2)]
  -- hybrid.py:177-179
  | .close => [
      fun p => ({ p.1 with mem := p.1.mem.close }, p.2),
      fun p => ({ p.1 with disk := p.1.disk.close }, p.2),
      fun p => ({ p.1 with inited := false }, p.2)]

/-- `HybridStorage` as used by threads. -/
def hybShared : SharedObj (Hyb V M) (HyCall V M) (HyReply V M) :=
  ⟨hybCheck, hybLocked, hybBody env, .done⟩

/-- The reply of a modelled method as a value. -/
def asHyReply {α : Type} (f : α → HyReply V M) (r : Res (Hyb V M) α) : HyReply V M × Hyb V M :=
  (match r.1 with
    | .ok a => f a
    | .error e => .raised e, r.2)

/-- The same calls made by a single caller, in the model of `Verif.Model.Hybrid`; `get_stats` is
hybrid.py:158-172. -/
def hybSeq (s : Hyb V M) : HyCall V M → HyReply V M × Hyb V M
  | .store id v m => asHyReply .bool (s.store env id v m)
  | .retrieve id => asHyReply .found (s.retrieve env id)
  | .delete id => asHyReply .bool (s.delete env id)
  | .update id v m => asHyReply .bool (s.update env id v m)
  | .list l => asHyReply .ids (s.list env l)
  | .stats => (.stats (if s.inited then some (s.mem.statCount, s.disk.statCount) else none), s)
  | .setup => (.done, s.init)
  | .close => (.done, s.close)

end Valori
