import Verif.Lemmas.HeapMem

/-!
# Property C146: what is stored in memory is isolated from the caller's objects
-/

namespace Valori.Props
open Valori.HMem
open Spec (Call Reply Store)

variable {A : Type}

/-- **C146** (partial: the caller must not change metadata dictionaries they were given, and
metadata must hold immutable values; both are needed, see `C146_memory_returned_refuted` and
`C146_memory_nested_refuted`)  A caller shares arrays and dictionaries with a new in-memory
backend, and may at any time overwrite in place every object they made themselves, also after
having stored it, and every vector they were given.  Nevertheless the answers, read on
return, are those of a map of values to which the arguments were passed as they were at the
time of the call. -/
theorem C146_memory_isolated_partial (prog : List (HCall A)) (p : Polite [] new prog) :
    ((new : HMem A).trace prog).map Prod.snd =
      ((Store.empty false).run true id ((new.trace prog).map Prod.fst)).1 :=
  Sep.trace ⟨by simp [new], by simp [new], by simp, by simp [new, Dict.keys],
    by simp [new, Dict.keys]⟩ ⟨rfl, rfl, rfl, rfl⟩ prog p

/-- A caller who overwrites the array and the dictionary they stored, then the vector they got
back, and stores the returned metadata under a second id. -/
def exPolite : List (HCall Nat) :=
  [.init, .new (.arr [1, 2]), .new (.dict [("k", .atom 7)]), .store "a" 0 (some 1),
   .write 0 (.arr [9, 9]), .write 1 (.dict [("k", .ref 0)]), .retrieve "a",
   .write 4 (.arr []), .store "b" 0 (some 3), .retrieve "a", .retrieve "b"]

/-- The hypothesis is met, and the answers show the values as they were when stored. -/
example : Polite [] new exPolite := by
  refine ⟨trivial, trivial, trivial, ⟨⟨_, rfl⟩, ?_⟩, ?_, ?_, trivial, ?_, ⟨⟨_, rfl⟩, ?_⟩,
    trivial, trivial, trivial⟩
  · rintro a ⟨⟩
    exact ⟨_, rfl, by simp⟩
  · show 0 ∈ [1, 0]
    decide
  · show 1 ∈ [1, 0]
    decide
  · show 4 ∈ [4, 1, 0]
    decide
  · rintro a ⟨⟩
    exact ⟨_, rfl, by simp⟩

example : (new.trace exPolite).map Prod.snd =
    [.done, .flag true, .found (some ([1, 2], some [("k", .inl 7)])), .flag true,
     .found (some ([1, 2], some [("k", .inl 7)])),
     .found (some ([9, 9], some [("k", .inl 7)]))] := by decide

/-- **C146** (refuted without the condition on returned metadata)  The dictionary that
`retrieve_vector` returns is the stored one: whatever was stored, if the caller overwrites the
dictionary they were given, the next call returns what they wrote. -/
theorem C146_memory_returned_refuted (id : Id) (hid : id ≠ "") (l : List A)
    (d d' : List (String × A)) :
    ((new : HMem A).trace [.init, .new (.arr l),
        .new (.dict (d.map (fun e => (e.1, .atom e.2)))), .store id 0 (some 1), .retrieve id,
        .write 3 (.dict (d'.map (fun e => (e.1, .atom e.2)))), .retrieve id]).map Prod.snd =
      [.done, .flag true,
       .found (some (l, some (d.map (fun e => (e.1, .inl e.2))))),
       .found (some (l, some (d'.map (fun e => (e.1, .inl e.2)))))] := by
  simp [new, HMem.trace, HMem.call, HCall.read, HReply.read, HMem.store, hid, HMem.put,
    Heap.copy, HMem.retrieve, Dict.set, Dict.get?, Heap.readArr, Heap.readDict, Heap.readVal,
    Function.comp_def]

/-- The overwritten object is the one the first `retrieve` handed out. -/
example : (((new : HMem Nat).after [.init, .new (.arr [1]), .new (.dict [("k", .atom 7)]),
    .store "a" 0 (some 1)]).retrieve "a").1 = .found (some (4, some 3)) := by decide

/-- **C146** (refuted without the condition on nested values)  The stored dictionary is a
shallow copy: a list inside it is the caller's list, and appending to it afterwards changes
what is stored. -/
theorem C146_memory_nested_refuted (id : Id) (hid : id ≠ "") (l x y : List A) (k : String) :
    ((new : HMem A).trace [.init, .new (.arr l), .new (.arr x), .new (.dict [(k, .ref 1)]),
        .store id 0 (some 2), .write 1 (.arr y), .retrieve id]).map Prod.snd =
      [.done, .flag true, .found (some (l, some [(k, .inr y)]))] := by
  simp [new, HMem.trace, HMem.call, HCall.read, HReply.read, HMem.store, hid, HMem.put,
    Heap.copy, HMem.retrieve, Dict.set, Dict.get?, Heap.readArr, Heap.readDict, Heap.readVal]

/-- The caller of the last theorem writes only to an object they made. -/
example : owned [0] (((new : HMem Nat).after [.init, .new (.arr [1])])) (.new (.arr [2])) =
    [1, 0] := by decide

end Valori.Props
