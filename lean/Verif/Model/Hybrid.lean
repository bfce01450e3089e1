import Verif.Model.Memory
import Verif.Model.Disk

/-!
# `HybridStorage` (`/repo/src/valori/storage/hybrid.py`)
-/

namespace Valori

/-- Fields of `HybridStorage`, hybrid.py:26-39. -/
structure Hyb (V M : Type) where
  mem : Mem V M
  disk : Disk V M
  limit : Int
  inited : Bool
deriving DecidableEq, Repr

namespace Hyb
variable {V M : Type} [ByteSize V] [ByteSize M] (env : DiskEnv M)

/-- A new object on a directory, hybrid.py:26-39. -/
def opened (d : Dir V M) (limit : Int) : Hyb V M := ⟨Mem.new, Disk.opened d, limit, false⟩

/-- `initialize`, hybrid.py:41-48. -/
def init (s : Hyb V M) : Hyb V M :=
  { s with mem := s.mem.init, disk := s.disk.init, inited := true }

/-- `_evict_from_memory`, hybrid.py:181-185: delete the first listed id. -/
def evict (m : Mem V M) : Res (Mem V M) Unit :=
  match m.list (some 1) with
  | (.error e, m) => (.error e, m)
  | (.ok [], m) => (.ok (), m)
  | (.ok (x :: _), m) =>
    match m.delete x with
    | (.error e, m) => (.error e, m)
    | (.ok _, m) => (.ok (), m)

/-- Put into memory, evicting first when full, hybrid.py:67-75 and 99-107.
`get_stats().get("vector_count", 0)` is `statCount` with default 0. -/
def remember (m : Mem V M) (limit : Int) (id : Id) (v : V) (md : Option M) :
    Res (Mem V M) Unit :=
  if ((m.statCount.getD 0 : Nat) : Int) < limit then
    match m.store id v md with
    | (.error e, m) => (.error e, m)
    | (.ok _, m) => (.ok (), m)
  else
    match evict m with
    | (.error e, m) => (.error e, m)
    | (.ok _, m) =>
      match m.store id v md with
      | (.error e, m) => (.error e, m)
      | (.ok _, m) => (.ok (), m)

/-- `store_vector`, hybrid.py:50-80. -/
def store (s : Hyb V M) (id : Id) (v : V) (m : Option M) : Res (Hyb V M) Bool :=
  if id = "" then (.ok false, s)
  else if !s.inited then (.error .storage, s)
  else
    match s.disk.store env id v m with
    | (.error _, d) => (.error .storage, { s with disk := d })
    | (.ok false, d) => (.ok false, { s with disk := d })
    | (.ok true, d) =>
      match remember s.mem s.limit id v m with
      | (.error _, mm) => (.error .storage, { s with disk := d, mem := mm })
      | (.ok _, mm) => (.ok true, { s with disk := d, mem := mm })

/-- `retrieve_vector`, hybrid.py:82-112. -/
def retrieve (s : Hyb V M) (id : Id) : Res (Hyb V M) (Option (V × Option M)) :=
  if !s.inited then (.error .storage, s)
  else
    match s.mem.retrieve id with
    | (.error _, mm) => (.error .storage, { s with mem := mm })
    | (.ok (some r), mm) => (.ok (some r), { s with mem := mm })
    | (.ok none, mm) =>
      match s.disk.retrieve env id with
      | (.error _, d) => (.error .storage, { s with mem := mm, disk := d })
      | (.ok none, d) => (.ok none, { s with mem := mm, disk := d })
      | (.ok (some (v, m)), d) =>
        match remember mm s.limit id v m with
        | (.error _, mm) => (.error .storage, { s with disk := d, mem := mm })
        | (.ok _, mm) => (.ok (some (v, m)), { s with disk := d, mem := mm })

/-- `delete_vector`, hybrid.py:114-128. -/
def delete (s : Hyb V M) (id : Id) : Res (Hyb V M) Bool :=
  if !s.inited then (.error .storage, s)
  else
    match s.mem.delete id with
    | (.error _, mm) => (.error .storage, { s with mem := mm })
    | (.ok a, mm) =>
      match s.disk.delete env id with
      | (.error _, d) => (.error .storage, { s with mem := mm, disk := d })
      | (.ok b, d) => (.ok (a || b), { s with mem := mm, disk := d })

/-- `update_vector`, hybrid.py:130-149. -/
def update (s : Hyb V M) (id : Id) (v : V) (m : Option M) : Res (Hyb V M) Bool :=
  if !s.inited then (.error .storage, s)
  else
    match s.disk.update env id v m with
    | (.error _, d) => (.error .storage, { s with disk := d })
    | (.ok false, d) => (.ok false, { s with disk := d })
    | (.ok true, d) =>
      match s.mem.update id v m with
      | (.error _, mm) => (.error .storage, { s with disk := d, mem := mm })
      | (.ok _, mm) => (.ok true, { s with disk := d, mem := mm })

/-- `list_vectors`, hybrid.py:151-156. -/
def list (s : Hyb V M) (limit : Option Int) : Res (Hyb V M) (List Id) :=
  if !s.inited then (.error .storage, s)
  else
    match s.disk.list env limit with
    | (r, d) => (r, { s with disk := d })

/-- `close`, hybrid.py:174-179. -/
def close (s : Hyb V M) : Hyb V M :=
  { s with mem := s.mem.close, disk := s.disk.close, inited := false }

end Hyb
end Valori
