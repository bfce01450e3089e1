import Verif.Model.Py
import Verif.Spec.Storage

/-!
# `MemoryStorage` with object identity (`/repo/src/valori/storage/memory.py`)

`Model/Memory.lean` treats vectors and metadata as values.  Here they are mutable objects in a
heap shared with the caller, so that `.copy()`, and where it is left out, matters.  Objects are
numbered in order of creation and never freed.  `_memory_usage` is left out.
-/

namespace Valori

variable {A : Type}

/-- What a metadata dictionary holds under a key: an immutable value, or a reference to a
mutable list. -/
inductive HVal (A : Type) where
  | atom (a : A)
  | ref (addr : Nat)
deriving DecidableEq, Repr

/-- A mutable object: a NumPy array or a list, or a dictionary. -/
inductive HCell (A : Type) where
  | arr (l : List A)
  | dict (d : Dict String (HVal A))
deriving DecidableEq, Repr

/-- The heap: object number `i` is entry `i`. -/
abbrev Heap (A : Type) := List (HCell A)

namespace Heap

/-- The content of an array. -/
def readArr (h : Heap A) (a : Nat) : List A :=
  match h[a]? with
  | some (.arr l) => l
  | _ => []

/-- What the caller sees under a key. -/
def readVal (h : Heap A) : HVal A → A ⊕ List A
  | .atom a => .inl a
  | .ref b => .inr (readArr h b)

/-- What the caller sees in a dictionary, references followed. -/
def readDict (h : Heap A) (a : Nat) : Dict String (A ⊕ List A) :=
  match h[a]? with
  | some (.dict d) => d.map (fun e => (e.1, readVal h e.2))
  | _ => []

/-- `x.copy()` of an array or a dictionary: a new object with the same content; references
inside a dictionary are copied as references. -/
def copy (h : Heap A) (a : Nat) : Nat × Heap A :=
  (h.length, h ++ [(h[a]?).getD (.arr [])])

end Heap

/-- Fields of `MemoryStorage`, memory.py:22-29, and the heap.  The two dictionaries hold
references. -/
structure HMem (A : Type) where
  heap : Heap A
  vectors : Dict Id Nat
  metadata : Dict Id Nat
  count : Nat
  inited : Bool
deriving DecidableEq, Repr

/-- What a caller can do: make an object, overwrite an object in place, or call the storage
with references. -/
inductive HCall (A : Type) where
  | new (c : HCell A)
  | write (a : Nat) (c : HCell A)
  | init
  | close
  | store (id : Id) (v : Nat) (m : Option Nat)
  | update (id : Id) (v : Nat) (m : Option Nat)
  | delete (id : Id)
  | retrieve (id : Id)
  | list (limit : Option Nat)
  | count
deriving DecidableEq, Repr

/-- What the storage answers, references not followed. -/
inductive HReply where
  | done
  | flag (b : Bool)
  | found (r : Option (Nat × Option Nat))
  | ids (l : List Id)
  | num (n : Nat)
  | notInitialized
  | raised
deriving DecidableEq, Repr

namespace HMem

/-- State after the constructor, memory.py:22-29, with no objects yet. -/
def new : HMem A := ⟨[], [], [], 0, false⟩

/-- The two assignments of a write, memory.py:51-58 and 122-129: `self.vectors[id] =
vector.copy()`, then `self.metadata[id] = metadata.copy()` or `self.metadata.pop(id, None)`. -/
def put (s : HMem A) (id : Id) (v : Nat) (m : Option Nat) : HMem A :=
  let c := s.heap.copy v
  match m with
  | some a =>
    let d := c.2.copy a
    { s with heap := d.2, vectors := s.vectors.set id c.1, metadata := s.metadata.set id d.1 }
  | none => { s with heap := c.2, vectors := s.vectors.set id c.1, metadata := s.metadata.pop id }

/-- `store_vector`, memory.py:40-70. -/
def store (s : HMem A) (id : Id) (v : Nat) (m : Option Nat) : HReply × HMem A :=
  if id = "" then (.flag false, s)
  else if !s.inited then (.raised, s)
  else
    let s' := s.put id v m
    (.flag true, { s' with count := s'.vectors.length })

/-- `retrieve_vector`, memory.py:72-83: the vector is copied, the metadata is not. -/
def retrieve (s : HMem A) (id : Id) : HReply × HMem A :=
  if !s.inited then (.raised, s)
  else match s.vectors.get? id with
    | none => (.found none, s)
    | some a =>
      let c := s.heap.copy a
      (.found (some (c.1, s.metadata.get? id)), { s with heap := c.2 })

/-- `delete_vector`, memory.py:85-108. -/
def delete (s : HMem A) (id : Id) : HReply × HMem A :=
  if !s.inited then (.raised, s)
  else if s.vectors.mem id then
    let vs := s.vectors.pop id
    (.flag true, { s with vectors := vs, metadata := s.metadata.pop id, count := vs.length })
  else (.flag false, s)

/-- `update_vector`, memory.py:110-140. -/
def update (s : HMem A) (id : Id) (v : Nat) (m : Option Nat) : HReply × HMem A :=
  if !s.inited then (.raised, s)
  else if !s.vectors.mem id then (.flag false, s)
  else (.flag true, s.put id v m)

/-- `list_vectors`, memory.py:142-151 (a limit is a natural number here). -/
def list (s : HMem A) (limit : Option Nat) : HReply :=
  if !s.inited then .raised
  else match limit with
    | none => .ids s.vectors.keys
    | some k => .ids (sliceTo s.vectors.keys k)

/-- One action of the caller.  `initialize` memory.py:31-38, `close` memory.py:167-174 and
`get_stats` memory.py:153-165 are inline; a write replaces the content of an object. -/
def call (s : HMem A) : HCall A → HReply × HMem A
  | .new c => (.done, { s with heap := s.heap ++ [c] })
  | .write a c => (.done, { s with heap := s.heap.set a c })
  | .init => (.done, { s with vectors := [], metadata := [], count := 0, inited := true })
  | .close => (.done, { s with vectors := [], metadata := [], count := 0, inited := false })
  | .store id v m => s.store id v m
  | .update id v m => s.update id v m
  | .delete id => s.delete id
  | .retrieve id => s.retrieve id
  | .list limit => (s.list limit, s)
  | .count => (if s.inited then .num s.count else .notInitialized, s)

end HMem

open Spec (Call Reply)

/-- Vectors and metadata as the caller reads them. -/
abbrev HV (A : Type) := List A
/-- Metadata as the caller reads it. -/
abbrev HM (A : Type) := Dict String (A ⊕ List A)

/-- The call in terms of values, arguments read at the time of the call; actions of the caller
which do not concern the storage give nothing (reading of the model, not code). -/
def HCall.read (h : Heap A) : HCall A → Option (Call (HV A) (HM A))
  | .new _ => none
  | .write _ _ => none
  | .init => some .init
  | .close => some .close
  | .store id v m => some (.store id (h.readArr v) (m.map h.readDict))
  | .update id v m => some (.update id (h.readArr v) (m.map h.readDict))
  | .delete id => some (.delete id)
  | .retrieve id => some (.retrieve id)
  | .list l => some (.list l)
  | .count => some .count

/-- The answer in terms of values, read on return. -/
def HReply.read (h : Heap A) : HReply → Reply (HV A) (HM A)
  | .done => .done
  | .flag b => .flag b
  | .found none => .found none
  | .found (some (v, m)) => .found (some (h.readArr v, m.map h.readDict))
  | .ids l => .ids l
  | .num n => .num n
  | .notInitialized => .notInitialized
  | .raised => .raised

/-- The calls on the storage and its answers in the course of a program, as values. -/
def HMem.trace (s : HMem A) : List (HCall A) → List (Call (HV A) (HM A) × Reply (HV A) (HM A))
  | [] => []
  | c :: cs =>
    let r := s.call c
    match c.read s.heap with
    | none => r.2.trace cs
    | some k => (k, r.1.read r.2.heap) :: r.2.trace cs

/-- The state after a program. -/
def HMem.after (s : HMem A) : List (HCall A) → HMem A
  | [] => s
  | c :: cs => (s.call c).2.after cs

end Valori
