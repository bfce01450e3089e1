import Verif.Spec.Slots

/-!
# What a database should do that can be filled but not searched

Slots as in `Spec/Slots.lean`; a deletion counts only when every string is a number.  Nothing here
mentions the implementation.
-/

namespace Valori.Spec

/-- Requests. -/
inductive LgReq (V M : Type) where
  | insert (ndim cols : Nat) (rows : List V) (mds : Option (List (Option M)))
  | delete (ids : List String)
  | search (q : V) (k : Int)
  | stats
deriving DecidableEq

/-- What a caller sees. -/
inductive LgAns where
  | ids (l : List String)
  | yes
  | count (n : Nat)
  | refused
  | raised
  | other
deriving DecidableEq

namespace Ledger
variable {V M : Type}

/-- Every string is a number. -/
def numbers (parse : String → Option Int) (ids : List String) : Bool := ids.all fun s => (parse s).isSome

/-- The slots after a request. -/
def next (parse : String → Option Int) (ok : Nat → V → Bool) (empty : M) (a : Slots V M) :
    LgReq V M → Slots V M
  | .insert nd cols rows mds => Slots.next (S := Unit) parse ok empty a (.insert nd cols rows mds)
  | .delete ids => if numbers parse ids then a.eraseAll parse ids else a
  | .search _ _ => a
  | .stats => a

/-- The answers that are right: ids are the positions, counted up and never given twice; a deletion is
carried out or refused as a whole; searches are refused; `stats` counts the live slots. -/
def Right (parse : String → Option Int) (ok : Nat → V → Bool) (a : Slots V M) (c : LgReq V M)
    (r : LgAns) : Prop :=
  match c with
  | .insert nd cols rows mds =>
    if a.accepts ok nd cols rows mds then r = .ids ((List.range' a.slots.length rows.length).map toString)
    else rows ≠ [] → r = .raised
  | .delete ids => if numbers parse ids then r = .yes else r = .raised
  | .search _ _ => r = .raised
  | .stats => r = .count a.count

/-- All answers to some requests are right. -/
def AllRight (parse : String → Option Int) (ok : Nat → V → Bool) (empty : M) :
    Slots V M → List (LgReq V M) → List LgAns → Prop
  | _, [], [] => True
  | a, c :: h, r :: rs => Right parse ok a c r ∧ AllRight parse ok empty (next parse ok empty a c) h rs
  | _, _, _ => False

/-- Assumptions on a request: metadata entries are dictionaries, id strings do not denote negative
numbers. -/
def ReqOk (parse : String → Option Int) : LgReq V M → Prop
  | .insert _ _ _ mds => ∀ l, mds = some l → none ∉ l
  | .delete ids => ∀ s ∈ ids, ∀ i, parse s = some i → 0 ≤ i
  | .search _ _ => True
  | .stats => True

end Ledger
end Valori.Spec
