import Verif.Spec.Slots
import Verif.Spec.Client

/-!
# What a database that lives for one session should do

One object that can be opened, closed and asked.  While it is open it holds numbered slots; closing
empties them.  Nothing here mentions indices, hash tables or storage.
-/

namespace Valori.Spec

/-- Requests.  `insert` is given the shape of the array and its rows. -/
inductive SsReq (V M : Type) where
  | insert (ndim cols : Nat) (rows : List V) (mds : Option (List (Option M)))
  | delete (ids : List String)
  | update (id : String) (v : V) (m : Option M)
  | search (q : V) (k : Int)
  | stats
deriving DecidableEq

/-- What a caller sees. -/
inductive SsAns (S M : Type) where
  | done
  | ids (l : List String)
  | flag (b : Bool)
  | hits (l : List (NHit S M))
  | count (n : Nat)
  | refused
  | raised
  | other
deriving DecidableEq

/-- The state: is it open, and the slots. -/
structure Session (V M : Type) where
  isOpen : Bool
  slots : Slots V M

namespace Session
variable {V M S E : Type}

/-- A request as a call on slots; `stats` changes nothing, as a search. -/
def effect (parse : String → Option Int) (ok : Nat → V → Bool) (empty : M) (a : Slots V M) :
    SsReq V M → Slots V M
  | .insert nd cols rows mds => Slots.next (S := Unit) parse ok empty a (.insert nd cols rows mds)
  | .delete ids => Slots.next (S := Unit) parse ok empty a (.delete ids)
  | .update id v m => Slots.next (S := Unit) parse ok empty a (.update id v m)
  | .search _ _ => a
  | .stats => a

/-- The state after a call.  Closing forgets all slots and keeps the dimension. -/
def next (parse : String → Option Int) (ok : Nat → V → Bool) (empty : M) (x : Session V M) :
    ClCall (SsReq V M) → Session V M
  | .init => ⟨true, x.slots⟩
  | .close => ⟨false, ⟨x.slots.dim, []⟩⟩
  | .request c => if x.isOpen then ⟨true, effect parse ok empty x.slots c⟩ else x

/-- Does the string name a live slot? -/
def names (parse : String → Option Int) (a : Slots V M) (id : String) : Bool :=
  match parse id with
  | some (.ofNat n) => (a.at? n).isSome
  | _ => false

/-- The answers that are right.  Ids are the positions, counted up and never given twice within a
session; a delete says yes; an update tells whether there was something to update; a search gives a sound
answer in which equal vectors are considered. -/
def Right [LE S] (parse : String → Option Int) (ok : Nat → V → Bool) (sim : V → V → Except E S)
    (thr : S) (x : Session V M) (c : ClCall (SsReq V M)) (a : SsAns S M) : Prop :=
  match c with
  | .init => a = .done
  | .close => a = .done
  | .request c =>
    if x.isOpen = false then a = .refused
    else match c with
      | .insert nd cols rows mds =>
        if x.slots.accepts ok nd cols rows mds then
          a = .ids ((List.range' x.slots.slots.length rows.length).map toString)
        else rows ≠ [] → a = .raised
      | .delete _ => a = .flag true
      | .update id _ _ => a = .flag (names parse x.slots id)
      | .search q k =>
        match x.slots.dim with
        | none => a = .hits []
        | some d =>
          if ok d q then ∃ l, a = .hits l ∧
            ∀ n : Nat, k = n → Slots.IsAnswer (sim q) (fun v => v = q) thr n x.slots l
          else a = .raised
      | .stats => a = .count x.slots.count

/-- All answers to a history are right. -/
def AllRight [LE S] (parse : String → Option Int) (ok : Nat → V → Bool) (empty : M)
    (sim : V → V → Except E S) (thr : S) :
    Session V M → List (ClCall (SsReq V M)) → List (SsAns S M) → Prop
  | _, [], [] => True
  | x, c :: h, a :: as =>
    Right parse ok sim thr x c a ∧ AllRight parse ok empty sim thr (next parse ok empty x c) h as
  | _, _, _ => False

/-- Assumptions on a request: metadata entries are dictionaries (no `None`), id strings do not denote
negative numbers, updates have the right dimension. -/
def ReqOk (parse : String → Option Int) (dim : V → Nat) (a : Slots V M) : SsReq V M → Prop
  | .insert _ _ _ mds => ∀ l, mds = some l → none ∉ l
  | .delete ids => ∀ s ∈ ids, ∀ i, parse s = some i → 0 ≤ i
  | .update id v _ => (∀ i, parse id = some i → 0 ≤ i) ∧ ∀ d, a.dim = some d → dim v = d
  | .search _ _ => True
  | .stats => True

/-- Assumptions on a history: requests while open are in order, and it is only opened when closed. -/
def HistOk (parse : String → Option Int) (ok : Nat → V → Bool) (empty : M) (dim : V → Nat) :
    Session V M → List (ClCall (SsReq V M)) → Prop
  | _, [] => True
  | x, c :: h =>
    (match c with
      | .request c => x.isOpen = true → ReqOk parse dim x.slots c
      | .init => x.isOpen = false
      | .close => True) ∧ HistOk parse ok empty dim (next parse ok empty x c) h

end Session
end Valori.Spec
