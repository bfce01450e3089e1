import Verif.Spec.Index
import Verif.Spec.Client

/-!
# What a vector database should do

One object that can be opened, closed and asked.  Its state is the list of live items and whether it is
open.  Nothing here mentions indices, storage or caches.
-/

namespace Valori.Spec

/-- The state of the database. -/
structure Db (V M : Type) where
  isOpen : Bool
  live : List (Item V M)

/-- What a caller sees. -/
inductive DbAns (D M : Type) where
  | done
  | ids (l : List String)
  | flag (b : Bool)
  | hits (l : List (Hit D M))
  | refused
  | raised
  | other
deriving DecidableEq

namespace Db
variable {V M D : Type}

/-- How many results a search for `k` gives among `n` items; a negative `k` leaves out the last ones. -/
def wanted (k : Int) (n : Nat) : Nat := if 0 ≤ k then k.toNat else (n + k).toNat

/-- The state after a call.  A volatile database forgets when it is closed and when it is opened. -/
def next (vol : Bool) (db : Db V M) : ClCall (IxCall V M) → Db V M
  | .init => ⟨true, if vol then [] else db.live⟩
  | .close => ⟨false, if vol then [] else db.live⟩
  | .request c => if db.isOpen then ⟨true, Live.next db.live c⟩ else db

/-- The answers that are right.  `fails` tells which searches raise. -/
def Right [LinearOrder D] (dist : V → V → D) (fails : List (Item V M) → V → Bool) (db : Db V M)
    (x : ClCall (IxCall V M)) (a : DbAns D M) : Prop :=
  match x with
  | .init => a = .done
  | .close => a = .done
  | .request c =>
    if db.isOpen = false then a = .refused
    else match c with
      | .insert nd rows _ => a = if nd = 2 then .ids (rows.map Prod.fst) else .raised
      | .delete ids => a = .flag (Live.removeAll db.live ids).1
      | .update id _ _ => a = .flag (Live.has db.live id)
      | .search nd q k =>
        if nd = 1 ∧ fails db.live q = false then
          ∃ l, a = .hits l ∧ IsTopK (dist q) db.live (wanted k db.live.length) l
        else a = .raised

/-- All answers to a history are right. -/
def AllRight [LinearOrder D] (vol : Bool) (dist : V → V → D) (fails : List (Item V M) → V → Bool) :
    Db V M → List (ClCall (IxCall V M)) → List (DbAns D M) → Prop
  | _, [], [] => True
  | db, x :: h, a :: as => Right dist fails db x a ∧ AllRight vol dist fails (next vol db x) h as
  | _, _, _ => False

/-- The assumptions on a history: those of `Live.CallOk` for every request while open. -/
def HistOk (okId : String → Prop) (okM : M → Prop) (vol : Bool) :
    Db V M → List (ClCall (IxCall V M)) → Prop
  | _, [] => True
  | db, x :: h =>
    (match x with
      | .request c => db.isOpen = true → Live.CallOk okId okM db.live c
      | _ => True) ∧ HistOk okId okM vol (next vol db x) h

end Db
end Valori.Spec
