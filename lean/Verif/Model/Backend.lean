import Verif.Model.Hybrid
import Verif.Spec.Storage

/-!
# The storage interface (`/repo/src/valori/storage/base.py`)

`StorageBackend` is an abstract class; indices only use its methods.
-/

namespace Valori
open Spec (Call Reply)

/-- Methods of `StorageBackend`, storage/base.py. `count` is `get_stats()["vector_count"]`. -/
structure Backend (σ V M : Type) where
  init : σ → σ
  close : σ → σ
  store : σ → Id → V → Option M → Res σ Bool
  retrieve : σ → Id → Res σ (Option (V × Option M))
  delete : σ → Id → Res σ Bool
  update : σ → Id → V → Option M → Res σ Bool
  list : σ → Option Int → Res σ (List Id)
  count : σ → Option Nat

/-- `MemoryStorage` as a backend. -/
def memBackend (V M : Type) [ByteSize V] [ByteSize M] : Backend (Mem V M) V M where
  init := Mem.init
  close := Mem.close
  store := Mem.store
  retrieve := Mem.retrieve
  delete := Mem.delete
  update := Mem.update
  list := Mem.list
  count := Mem.statCount

/-- `DiskStorage` as a backend. -/
def diskBackend {V M : Type} (env : DiskEnv M) : Backend (Disk V M) V M where
  init := Disk.init
  close := Disk.close
  store := Disk.store env
  retrieve := Disk.retrieve env
  delete := Disk.delete env
  update := Disk.update env
  list := Disk.list env
  count := Disk.statCount

/-- `HybridStorage` as a backend; `get_stats()` nests the disk count, hybrid.py:158-172. -/
def hybBackend {V M : Type} [ByteSize V] [ByteSize M] (env : DiskEnv M) :
    Backend (Hyb V M) V M where
  init := Hyb.init
  close := Hyb.close
  store := Hyb.store env
  retrieve := Hyb.retrieve env
  delete := Hyb.delete env
  update := Hyb.update env
  list := Hyb.list env
  count s := if s.inited then s.disk.statCount else none

namespace Backend
variable {σ V M : Type} (B : Backend σ V M)

/-- Wrap a result as an observable reply. -/
def wrap {α : Type} (f : α → Reply V M) : Res σ α → Reply V M × σ
  | (.ok a, s) => (f a, s)
  | (.error _, s) => (.raised, s)

/-- One call through the interface (harness, not a function of the code). -/
def call (s : σ) : Call V M → Reply V M × σ
  | .init => (.done, B.init s)
  | .close => (.done, B.close s)
  | .store id v m => wrap .flag (B.store s id v m)
  | .update id v m => wrap .flag (B.update s id v m)
  | .delete id => wrap .flag (B.delete s id)
  | .retrieve id => wrap .found (B.retrieve s id)
  | .list limit => wrap .ids (B.list s (limit.map Int.ofNat))
  | .count => (match B.count s with | some n => .num n | none => .notInitialized, s)

/-- A history of calls: replies and final state. -/
def run (s : σ) : List (Call V M) → List (Reply V M) × σ
  | [] => ([], s)
  | c :: cs =>
    let r := B.call s c
    let rs := run r.2 cs
    (r.1 :: rs.1, rs.2)

end Backend
end Valori
