import Verif.Model.Backend

/-!
# Disk and hybrid storage when the operating system refuses a write (disk.py, hybrid.py)

Each call comes with an oracle: `none`, or the number of file steps after which the next one raises
(disk full, no permission).  disk.py:78-79, 133-134, 167-168 turn the exception into `StorageError`; the
steps done before stay.
-/

namespace Valori
namespace Disk
variable {V M : Type} (env : DiskEnv M)

/-- A writing call of disk.py in which the file step after the first `k` ones raises. -/
def Write.execIo (s : Disk V M) (k : Option Nat) (w : Write V M) : Res (Disk V M) Bool :=
  match k with
  | none => w.exec env s
  | some k =>
    if s.inited && decide (k < (w.steps env s.dir).length) then
      (.error .storage, { s with dir := runSteps s.dir ((w.steps env s.dir).take k) })
    else w.exec env s

end Disk

/-- `DiskStorage` during a call with oracle `k`. -/
def diskIo {V M : Type} (env : DiskEnv M) (k : Option Nat) : Backend (Disk V M) V M where
  init := Disk.init
  close := Disk.close
  store s id v m := (Disk.Write.store id v m).execIo env s k
  retrieve := Disk.retrieve env
  delete s id := (Disk.Write.delete id).execIo env s k
  update s id v m := (Disk.Write.update id v m).execIo env s k
  list := Disk.list env
  count := Disk.statCount

namespace Hyb
variable {V M : Type} [ByteSize V] [ByteSize M] (env : DiskEnv M)

/-- `store_vector`, hybrid.py:50-80. -/
def storeIo (k : Option Nat) (s : Hyb V M) (id : Id) (v : V) (m : Option M) : Res (Hyb V M) Bool :=
  if id = "" then (.ok false, s)
  else if !s.inited then (.error .storage, s)
  else
    match (Disk.Write.store id v m).execIo env s.disk k with
    | (.error _, d) => (.error .storage, { s with disk := d })
    | (.ok false, d) => (.ok false, { s with disk := d })
    | (.ok true, d) =>
      match remember s.mem s.limit id v m with
      | (.error _, mm) => (.error .storage, { s with disk := d, mem := mm })
      | (.ok _, mm) => (.ok true, { s with disk := d, mem := mm })

/-- `delete_vector`, hybrid.py:114-128. -/
def deleteIo (k : Option Nat) (s : Hyb V M) (id : Id) : Res (Hyb V M) Bool :=
  if !s.inited then (.error .storage, s)
  else
    match s.mem.delete id with
    | (.error _, mm) => (.error .storage, { s with mem := mm })
    | (.ok a, mm) =>
      match (Disk.Write.delete id).execIo env s.disk k with
      | (.error _, d) => (.error .storage, { s with mem := mm, disk := d })
      | (.ok b, d) => (.ok (a || b), { s with mem := mm, disk := d })

/-- `update_vector`, hybrid.py:130-149. -/
def updateIo (k : Option Nat) (s : Hyb V M) (id : Id) (v : V) (m : Option M) : Res (Hyb V M) Bool :=
  if !s.inited then (.error .storage, s)
  else
    match (Disk.Write.update id v m).execIo env s.disk k with
    | (.error _, d) => (.error .storage, { s with disk := d })
    | (.ok false, d) => (.ok false, { s with disk := d })
    | (.ok true, d) =>
      match s.mem.update id v m with
      | (.error _, mm) => (.error .storage, { s with disk := d, mem := mm })
      | (.ok _, mm) => (.ok true, { s with disk := d, mem := mm })

end Hyb

/-- `HybridStorage` during a call with oracle `k`. -/
def hybIo {V M : Type} [ByteSize V] [ByteSize M] (env : DiskEnv M) (k : Option Nat) :
    Backend (Hyb V M) V M where
  init := Hyb.init
  close := Hyb.close
  store := Hyb.storeIo env k
  retrieve := Hyb.retrieve env
  delete := Hyb.deleteIo env k
  update := Hyb.updateIo env k
  list := Hyb.list env
  count s := if s.inited then s.disk.statCount else none

section history
open Spec (Call Reply)
variable {σ V M : Type}

/-- The state after calls with their oracles (harness). -/
def ioEnd (B : Option Nat → Backend σ V M) (s : σ) (cs : List (Call V M × Option Nat)) : σ :=
  cs.foldl (fun s c => ((B c.2).call s c.1).2) s

/-- The calls with their replies, newest first (harness). -/
def ioLog (B : Option Nat → Backend σ V M) (s : σ) :
    List (Call V M × Option Nat) → List (Call V M × Reply V M)
  | [] => []
  | c :: cs => ioLog B ((B c.2).call s c.1).2 cs ++ [(c.1, ((B c.2).call s c.1).1)]

end history
end Valori
