import Verif.Model.Crash
import Verif.Model.ClientIndices

/-!
# Clients over IVF and HNSW indices on disk storage whose process dies

As `Model/Crash.lean`, for any index that keeps its vectors in the storage.
-/

namespace Valori
variable {X V M D : Type}

/-- The file steps a client makes during a call; `P` are its components over `tapeDisk` (harness). -/
def Client.tapeOf (P : Parts (X × (Disk V M × List (FsStep V M))) (Spec.IxCall V M) (FwdReply D M))
    (c : Client (X × Disk V M)) (x : Spec.ClCall (Spec.IxCall V M)) : List (FsStep V M) :=
  (Client.ask P ⟨(c.w.1, (c.w.2, [])), c.inited⟩ x).2.w.2.2

/-- What a new process finds when the client died after `n` file steps of the call: the directory, and an
index `fresh` as its constructor makes it (harness). -/
def Client.diedOf (P : Parts (X × (Disk V M × List (FsStep V M))) (Spec.IxCall V M) (FwdReply D M))
    (fresh : X) (c : Client (X × Disk V M)) (x : Spec.ClCall (Spec.IxCall V M)) (n : Nat) :
    Client (X × Disk V M) :=
  ⟨(fresh, Disk.opened (runSteps c.w.2.dir ((Client.tapeOf P c x).take n))), false⟩

end Valori
