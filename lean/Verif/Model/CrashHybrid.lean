import Verif.Model.Crash

/-!
# A client on hybrid storage whose process dies

As in `Verif/Model/Crash.lean`: `tapeHyb` is `HybridStorage` together with a record of the file steps of its
disk part.  A process that dies leaves the effect of the first steps; the memory part is lost.
-/

namespace Valori
variable {V M D : Type} [ByteSize V] [ByteSize M]

/-- `HybridStorage` with a record of the file steps of its disk part.  `store_vector` and `update_vector`
write to disk first (hybrid.py:62-63, 139-140); `delete_vector` deletes from memory first, and does not come
to the disk when that raises (hybrid.py:121-123).  The other methods write no files. -/
def tapeHyb (env : DiskEnv M) : Backend (Hyb V M × List (FsStep V M)) V M where
  init s := (s.1.init, s.2)
  close s := (s.1.close, s.2)
  store s id v m :=
    let r := s.1.store env id v m
    (r.1, (r.2, s.2 ++ if id = "" ∨ s.1.inited = false then [] else s.1.disk.stepsOf env (.store id v m)))
  retrieve s id :=
    let r := s.1.retrieve env id
    (r.1, (r.2, s.2))
  delete s id :=
    let r := s.1.delete env id
    (r.1, (r.2, s.2 ++
      if s.1.inited = false then []
      else match (s.1.mem.delete id).1 with
        | .error _ => []
        | .ok _ => s.1.disk.stepsOf env (.delete id)))
  update s id v m :=
    let r := s.1.update env id v m
    (r.1, (r.2, s.2 ++ if s.1.inited = false then [] else s.1.disk.stepsOf env (.update id v m)))
  list s limit :=
    let r := s.1.list env limit
    (r.1, (r.2, s.2))
  count s := (hybBackend env).count s.1

/-- The file steps a client over a flat index on hybrid storage makes during a call (harness). -/
def Client.tapeH (env : FlatEnv V D) (denv : DiskEnv M) (c : Client (Flat V × Hyb V M))
    (x : Spec.ClCall (Spec.IxCall V M)) : List (FsStep V M) :=
  (Client.ask (flatParts env (tapeHyb denv)) ⟨(c.w.1, (c.w.2, [])), c.inited⟩ x).2.w.2.2

/-- What a new process finds when the client died after `n` file steps of the call (harness). -/
def Client.diedH (env : FlatEnv V D) (denv : DiskEnv M) (c : Client (Flat V × Hyb V M))
    (x : Spec.ClCall (Spec.IxCall V M)) (n : Nat) : Client (Flat V × Hyb V M) :=
  ⟨(Flat.new, Hyb.opened (runSteps c.w.2.disk.dir ((Client.tapeH env denv c x).take n)) c.w.2.limit), false⟩

end Valori
