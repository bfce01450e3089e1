import Verif.Model.ClientFull
import Verif.Model.Memory
import Verif.Spec.SharedObjects

/-!
# Clients whose metadata dictionaries are objects

The other client models treat metadata as values.  Here a metadata dictionary is an object shared with the
caller.  A client over memory storage is the same client with references in place of dictionaries: no
component looks into one.  Vectors stay values: storage and indices copy them on the way in
(memory.py:52, 123, flat.py:78, 209, ivf.py:88, 232, hnsw.py:229, 263) and searches do not return them.
-/

namespace Valori
open Spec

/-- What the program around a client does.  `C` is what a dictionary holds; dictionaries are numbered in the
order in which they are made. -/
inductive ObjCall (V C : Type) where
  | new (c : C)
  | write (a : Nat) (c : C)
  | call (x : ClCall (IxCall V Nat))

/-- The dictionaries and the client. -/
structure ObjState (W C : Type) where
  heap : List C
  client : Client W

namespace Obj
variable {W V C D : Type}

/-- The content of a dictionary; `None` stays `None`. -/
def read (h : List C) (m : Option Nat) : Option C := m.bind (h[·]?)

/-- `metadata.copy()` where there is metadata, memory.py:55-56 and 126-127: a new dictionary.  (A reference
that does not exist cannot be passed; it counts as no metadata.) -/
def copy (src h : List C) (m : Option Nat) : Option Nat × List C :=
  match read src m with
  | none => (none, h)
  | some c => (some h.length, h ++ [c])

/-- The copies made by an insert, row by row; `src` are the dictionaries before the insert.  Simplified: copies
are made before the insert starts, and for entries beyond the last row too; nobody can see those. -/
def copyAll (src h : List C) : List (Option Nat) → List (Option Nat) × List C
  | [] => ([], h)
  | m :: ms =>
    let r := copy src h m
    let rest := copyAll src r.2 ms
    (r.1 :: rest.1, rest.2)

/-- A request as it reaches the dictionaries of the memory storage: flat.py:68-75, ivf.py:75-85,
hnsw.py:80-89 pass the dictionary of the row to `store_vector`, the updates (flat.py:205, ivf.py:226,
hnsw.py:224) to `update_vector`, and these copy it. -/
def copyReq (h : List C) : IxCall V Nat → IxCall V Nat × List C
  | .insert nd rows (some ms) =>
    let r := copyAll h h ms
    (.insert nd rows (some r.1), r.2)
  | .insert nd rows none => (.insert nd rows none, h)
  | .update id v m =>
    let r := copy h h m
    (.update id v r.1, r.2)
  | .delete ids => (.delete ids, h)
  | .search nd q k => (.search nd q k, h)

/-- The same for any call. -/
def copyCall (h : List C) : ClCall (IxCall V Nat) → ClCall (IxCall V Nat) × List C
  | .request c => let r := copyReq h c; (.request r.1, r.2)
  | .init => (.init, h)
  | .close => (.close, h)

/-- One action, on a client over memory storage.  `retrieve_vector` returns the stored dictionary itself
(memory.py:82-83), and so does every search (flat.py:147-155, ivf.py:166-173, 385-392,
hnsw.py:172-179): the results hold references. -/
def step (P : Parts W (IxCall V Nat) (FwdReply D Nat)) (s : ObjState W C) :
    ObjCall V C → Option (Client.Answer (FwdReply D Nat)) × ObjState W C
  | .new c => (none, { s with heap := s.heap ++ [c] })
  | .write a c => (none, { s with heap := s.heap.set a c })
  | .call x =>
    let x' := copyCall s.heap x
    let r := Client.ask P s.client x'.1
    (some r.1, ⟨x'.2, r.2⟩)

/-- The state after a program (harness). -/
def after (P : Parts W (IxCall V Nat) (FwdReply D Nat)) (s : ObjState W C) (p : List (ObjCall V C)) :
    ObjState W C := p.foldl (fun s x => (step P s x).2) s

/-- The dictionaries in a result. -/
def made : Client.Answer (FwdReply D C) → List C
  | .reply (.ok (.hits l)) => l.filterMap Hit.md
  | _ => []

/-- One action, on a client over disk storage.  Metadata is pickled when stored (disk.py:65-68, 155-158) and
unpickled whenever it is retrieved (disk.py:97-103), so what goes in is the content at the time of the call and
the dictionaries in a result are new ones. -/
def stepDisk (P : Parts W (IxCall V C) (FwdReply D C)) (s : ObjState W C) :
    ObjCall V C → Option (Client.Answer (FwdReply D C)) × ObjState W C
  | .new c => (none, { s with heap := s.heap ++ [c] })
  | .write a c => (none, { s with heap := s.heap.set a c })
  | .call x =>
    let r := Client.ask P s.client (x.withMd (read s.heap))
    (some r.1, ⟨s.heap ++ made r.1, r.2⟩)

end Obj
end Valori
