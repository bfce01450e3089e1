import Verif.Model.ClientFull

/-!
# A client on disk storage whose process dies

`tapeDisk` is `DiskStorage` together with a record of the file steps it makes.  A process that dies leaves
the effect of the first steps on the record; every component in memory is lost.  Only the death of the
process is modelled: the operating system keeps what was written, in order.
-/

namespace Valori
variable {V M D : Type}

/-- The file steps of a call on an open storage; none when it is closed (disk.py:53-54, 110-111, 140-141). -/
def Disk.stepsOf (env : DiskEnv M) (s : Disk V M) (w : Disk.Write V M) : List (FsStep V M) :=
  if s.inited then w.steps env s.dir else []

/-- `DiskStorage` with a record of its file steps.  Creating the directories in `initialize` is left out. -/
def tapeDisk (env : DiskEnv M) : Backend (Disk V M × List (FsStep V M)) V M where
  init s := (s.1.init, s.2)
  close s := (s.1.close, s.2)
  store s id v m :=
    let r := s.1.store env id v m
    (r.1, (r.2, s.2 ++ s.1.stepsOf env (.store id v m)))
  retrieve s id :=
    let r := s.1.retrieve env id
    (r.1, (r.2, s.2))
  delete s id :=
    let r := s.1.delete env id
    (r.1, (r.2, s.2 ++ s.1.stepsOf env (.delete id)))
  update s id v m :=
    let r := s.1.update env id v m
    (r.1, (r.2, s.2 ++ s.1.stepsOf env (.update id v m)))
  list s limit :=
    let r := s.1.list env limit
    (r.1, (r.2, s.2))
  count s := s.1.statCount

/-- The file steps a client over a flat index makes during a call (harness). -/
def Client.tape (env : FlatEnv V D) (denv : DiskEnv M) (c : Client (Flat V × Disk V M))
    (x : Spec.ClCall (Spec.IxCall V M)) : List (FsStep V M) :=
  (Client.ask (flatParts env (tapeDisk denv)) ⟨(c.w.1, (c.w.2, [])), c.inited⟩ x).2.w.2.2

/-- What a new process finds when the client died after `n` file steps of the call (harness). -/
def Client.died (env : FlatEnv V D) (denv : DiskEnv M) (c : Client (Flat V × Disk V M))
    (x : Spec.ClCall (Spec.IxCall V M)) (n : Nat) : Client (Flat V × Disk V M) :=
  ⟨(Flat.new, Disk.opened (runSteps c.w.2.dir ((Client.tape env denv c x).take n))), false⟩

end Valori
