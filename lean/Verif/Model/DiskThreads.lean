import Verif.Model.Disk
import Verif.Model.Threads

/-!
# Several threads calling one `DiskStorage`: storage/disk.py

`DiskStorage` has no lock.  Here every access to the file system and every read or write of an attribute
is a step of its own, and the scheduler may switch threads between any two steps.

Simplification: a file that is unlinked while another thread is writing it appears again when the write is
completed; in a POSIX file system the data go to the unlinked file.  The examples against the code do not
use this case.  `list_vectors`, `get_stats`, `initialize` and `close` are not among the calls.
-/

namespace Valori

/-- What is left of a computation, as a tree of accesses to directory and attributes. -/
inductive DProg (V M R : Type) where
  | ret (r : R)
  | isOpen (k : Bool → DProg V M R)
  | hasVec (s : String) (k : Bool → DProg V M R)
  | loadVec (s : String) (k : Option (File V) → DProg V M R)
  | hasPkl (s : String) (k : Bool → DProg V M R)
  | loadPkl (s : String) (k : Option (File M) → DProg V M R)
  | vecTorn (s : String) (k : DProg V M R)
  | vecDone (s : String) (v : V) (k : DProg V M R)
  | pklTorn (s : String) (k : DProg V M R)
  | pklDone (s : String) (m : M) (k : DProg V M R)
  | rmVec (s : String) (k : Bool → DProg V M R)
  | rmPkl (s : String) (k : Bool → DProg V M R)
  | glob (k : DProg V M R)
  | setCount (k : DProg V M R)

namespace DProg
variable {V M R : Type}

/-- One access.  The number is a local variable, the length of the listing last made.  `unlink` of a file
that is gone raises, of which the rest is told by `false`; so does opening one for reading. -/
def step (s : Disk V M) (n : Nat) : DProg V M R → Disk V M × Nat × DProg V M R
  | .ret r => (s, n, .ret r)
  | .isOpen k => (s, n, k s.inited)
  | .hasVec f k => (s, n, k (s.dir.vec.mem f))
  | .loadVec f k => (s, n, k (s.dir.vec.get? f))
  | .hasPkl f k => (s, n, k (s.dir.pkl.mem f))
  | .loadPkl f k => (s, n, k (s.dir.pkl.get? f))
  | .vecTorn f k => ({ s with dir := FsStep.run s.dir (.vecTorn f) }, n, k)
  | .vecDone f v k => ({ s with dir := FsStep.run s.dir (.vecDone f v) }, n, k)
  | .pklTorn f k => ({ s with dir := FsStep.run s.dir (.pklTorn f) }, n, k)
  | .pklDone f m k => ({ s with dir := FsStep.run s.dir (.pklDone f m) }, n, k)
  | .rmVec f k => ({ s with dir := FsStep.run s.dir (.vecUnlink f) }, n, k (s.dir.vec.mem f))
  | .rmPkl f k => ({ s with dir := FsStep.run s.dir (.pklUnlink f) }, n, k (s.dir.pkl.mem f))
  | .glob k => (s, s.dir.vec.length, k)
  | .setCount k => ({ s with count := n }, n, k)

end DProg

/-- A call of `DiskStorage`. -/
inductive DCall (V M : Type) where
  | store (id : Id) (v : V) (m : Option M)
  | retrieve (id : Id)
  | delete (id : Id)
  | update (id : Id) (v : V) (m : Option M)
deriving DecidableEq

/-- The id it is about. -/
def DCall.id {V M : Type} : DCall V M → Id
  | .store id _ _ => id
  | .retrieve id => id
  | .delete id => id
  | .update id _ _ => id

section
variable {V M R : Type} (env : DiskEnv M)

/-- The part shared by `store_vector` (disk.py:60-73) and `update_vector` (disk.py:149-163): write the
vector file, then write the metadata file or remove it; `done` follows, or `raise` after an exception. -/
def writeProg (f : String) (v : V) (m : Option M) (done raise : DProg V M R) : DProg V M R :=
  .vecTorn f (.vecDone f v (match m with
    | some m => .pklTorn f (if env.picklable m then .pklDone f m done else raise)
    | none => .hasPkl f fun h => if h then .rmPkl f fun ok => if ok then done else raise else done))

/-- A call as a sequence of accesses, with what follows it: `store_vector` disk.py:47-79,
`retrieve_vector` disk.py:81-106, `delete_vector` disk.py:108-134, `update_vector` disk.py:136-168. -/
def callProg (c : DCall V M) (k : MReply V M → DProg V M R) : DProg V M R :=
  match c with
  | .store id v m =>
    if id = "" then k (.bool false)
    else .isOpen fun o => if !o then k (.raised .storage) else
      writeProg env (sanitize env id) v m (.glob (.setCount (k (.bool true)))) (k (.raised .storage))
  | .retrieve id => .isOpen fun o => if !o then k (.raised .storage) else
      let f := sanitize env id
      .hasVec f fun h => if !h then k (.found none) else
        .loadVec f fun
          | none => k (.raised .storage)
          | some .torn => k (.raised .storage)
          | some (.good v) => .hasPkl f fun h => if !h then k (.found (some (v, none))) else
            .loadPkl f fun
              | none => k (.raised .storage)
              | some .torn => k (.raised .storage)
              | some (.good m) => k (.found (some (v, some m)))
  | .delete id => .isOpen fun o => if !o then k (.raised .storage) else
      let f := sanitize env id
      let rest (deleted : Bool) : DProg V M R :=
        let fin := if deleted then DProg.glob (.setCount (k (.bool true))) else k (.bool false)
        .hasPkl f fun h => if h then .rmPkl f fun ok => if ok then fin else k (.raised .storage) else fin
      .hasVec f fun h => if h then .rmVec f fun ok => if ok then rest true else k (.raised .storage)
        else rest false
  | .update id v m => .isOpen fun o => if !o then k (.raised .storage) else
      let f := sanitize env id
      .hasVec f fun h => if !h then k (.bool false) else
        writeProg env f v m (k (.bool true)) (k (.raised .storage))

/-- The calls of a thread one after the other, keeping the replies. -/
def sessionProg : List (DCall V M) → List (MReply V M) → DProg V M (List (MReply V M))
  | [], got => .ret got
  | c :: cs, got => callProg env c fun r => sessionProg cs (got ++ [r])

/-- The storage, and for each thread its local variable and what it still has to do. -/
structure DSys (V M R : Type) where
  disk : Disk V M
  thr : Nat → Nat × DProg V M R

/-- Thread `t` makes one access. -/
def DSys.step (s : DSys V M R) (t : Nat) : DSys V M R :=
  let r := (s.thr t).2.step s.disk (s.thr t).1
  ⟨r.1, Function.update s.thr t r.2⟩

/-- A schedule says which thread moves next. -/
def DSys.run (s : DSys V M R) (sched : List Nat) : DSys V M R := sched.foldl DSys.step s

/-- Threads about to make their calls. -/
def DSys.begin (s : Disk V M) (progs : Nat → List (DCall V M)) : DSys V M (List (MReply V M)) :=
  ⟨s, fun t => (0, sessionProg env (progs t) [])⟩

/-- The same call made by a single caller, in the model of `Verif.Model.Disk`. -/
def diskSeq (s : Disk V M) (c : DCall V M) : MReply V M × Disk V M :=
  let as {α : Type} (f : α → MReply V M) (r : Res (Disk V M) α) : MReply V M × Disk V M :=
    (match r.1 with
      | .ok a => f a
      | .error e => .raised e, r.2)
  match c with
  | .store id v m => as .bool (s.store env id v m)
  | .retrieve id => as .found (s.retrieve env id)
  | .delete id => as .bool (s.delete env id)
  | .update id v m => as .bool (s.update env id v m)

end
end Valori
