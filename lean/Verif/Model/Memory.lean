import Verif.Model.Py

/-!
# `MemoryStorage` (`/repo/src/valori/storage/memory.py`)

Here there is a single caller; `Model/Threads` adds the lock and threads.  Vectors and metadata are immutable values,
so `.copy()` is the identity.
-/

namespace Valori

variable {V M : Type}

/-- Fields of `MemoryStorage`, memory.py:22-29. -/
structure Mem (V M : Type) where
  vectors : Dict Id V
  metadata : Dict Id M
  count : Nat
  usage : Nat
  inited : Bool
deriving DecidableEq, Repr

namespace Mem

/-- State after the constructor, memory.py:22-29 (`_initialized = False` in the base class). -/
def new : Mem V M := ⟨[], [], 0, 0, false⟩

variable [ByteSize V] [ByteSize M]

/-- The `_memory_usage` expression, memory.py:62-66. -/
def usageOf (vs : Dict Id V) (ms : Dict Id M) : Nat :=
  (vs.vals.map ByteSize.bytes).sum + (ms.vals.map ByteSize.bytes).sum

/-- `initialize`, memory.py:31-38: clears everything. -/
def init (_s : Mem V M) : Mem V M := ⟨[], [], 0, 0, true⟩

/-- Metadata half of a write, memory.py:55-58 and 126-129. -/
def putMeta (ms : Dict Id M) (id : Id) : Option M → Dict Id M
  | some m => ms.set id m
  | none => ms.pop id

/-- `store_vector`, memory.py:40-70. -/
def store (s : Mem V M) (id : Id) (v : V) (m : Option M) : Res (Mem V M) Bool :=
  if id = "" then (.ok false, s)
  else if !s.inited then (.error .storage, s)
  else
    let vs := s.vectors.set id v
    let ms := putMeta s.metadata id m
    (.ok true, { s with vectors := vs, metadata := ms, count := vs.length,
                        usage := usageOf vs ms })

/-- `retrieve_vector`, memory.py:72-83. -/
def retrieve (s : Mem V M) (id : Id) : Res (Mem V M) (Option (V × Option M)) :=
  if !s.inited then (.error .storage, s)
  else match s.vectors.get? id with
    | none => (.ok none, s)
    | some v => (.ok (some (v, s.metadata.get? id)), s)

/-- `delete_vector`, memory.py:85-108. -/
def delete (s : Mem V M) (id : Id) : Res (Mem V M) Bool :=
  if !s.inited then (.error .storage, s)
  else if s.vectors.mem id then
    let vs := s.vectors.pop id
    let ms := s.metadata.pop id
    (.ok true, { s with vectors := vs, metadata := ms, count := vs.length,
                        usage := usageOf vs ms })
  else (.ok false, s)

/-- `update_vector`, memory.py:110-140 (`_vector_count` is not touched). -/
def update (s : Mem V M) (id : Id) (v : V) (m : Option M) : Res (Mem V M) Bool :=
  if !s.inited then (.error .storage, s)
  else if !s.vectors.mem id then (.ok false, s)
  else
    let vs := s.vectors.set id v
    let ms := putMeta s.metadata id m
    (.ok true, { s with vectors := vs, metadata := ms, usage := usageOf vs ms })

/-- `list_vectors`, memory.py:142-151. -/
def list (s : Mem V M) (limit : Option Int) : Res (Mem V M) (List Id) :=
  if !s.inited then (.error .storage, s)
  else match limit with
    | none => (.ok s.vectors.keys, s)
    | some k => (.ok (sliceTo s.vectors.keys k), s)

/-- The `vector_count` entry of `get_stats`, memory.py:153-165; `none` models the
`{"status": "not_initialized"}` answer. -/
def statCount (s : Mem V M) : Option Nat := if s.inited then some s.count else none

/-- The `memory_usage_bytes` entry of `get_stats`, memory.py:153-165. -/
def statUsage (s : Mem V M) : Option Nat := if s.inited then some s.usage else none

/-- `close`, memory.py:167-174. -/
def close (_s : Mem V M) : Mem V M := ⟨[], [], 0, 0, false⟩

end Mem
end Valori
