import Verif.Spec.Database

/-!
# What a vector database over an approximate index should do

The same abstract database as in `Spec/Database.lean`; only what a search may answer is weaker: a search
may miss items, but what it gives is right.
-/

namespace Valori.Spec
namespace Db
variable {V M D : Type}

/-- An answer that may miss items but says nothing wrong: for `0 ≤ k` at most `k` results, nearest first,
each of them a live item with its distance and metadata. -/
def Honest [LinearOrder D] (dist : V → V → Option D) (live : List (Item V M)) (q : V) (k : Int)
    (l : List (Hit D M)) : Prop :=
  0 ≤ k → l.length ≤ k.toNat ∧ l.Pairwise (fun a b => a.dist ≤ b.dist) ∧
    ∀ x ∈ l, ∃ y ∈ live, y.id = x.id ∧ dist q y.vec = some x.dist ∧ x.md = y.md

/-- The answers that are right.  `good` tells which results are, `may` which requests may raise although
their arguments have the right shape. -/
def RightBy (may : List (Item V M) → IxCall V M → Prop)
    (good : List (Item V M) → V → Int → List (Hit D M) → Prop) (db : Db V M)
    (x : ClCall (IxCall V M)) (a : DbAns D M) : Prop :=
  match x with
  | .init => a = .done
  | .close => a = .done
  | .request c =>
    if db.isOpen = false then a = .refused
    else match c with
      | .insert nd rows _ =>
        if nd = 2 then a = .ids (rows.map Prod.fst) ∨ (may db.live c ∧ a = .raised) else a = .raised
      | .delete ids => a = .flag (Live.removeAll db.live ids).1
      | .update id _ _ => a = .flag (Live.has db.live id) ∨ (may db.live c ∧ a = .raised)
      | .search nd q k =>
        if nd = 1 then (∃ l, a = .hits l ∧ good db.live q k l) ∨ (may db.live c ∧ a = .raised)
        else a = .raised

/-- All answers to a history are right. -/
def AllRightBy (vol : Bool) (may : List (Item V M) → IxCall V M → Prop)
    (good : List (Item V M) → V → Int → List (Hit D M) → Prop) :
    Db V M → List (ClCall (IxCall V M)) → List (DbAns D M) → Prop
  | _, [], [] => True
  | db, x :: h, a :: as =>
    RightBy may good db x a ∧ AllRightBy vol may good (next vol db x) h as
  | _, _, _ => False

/-- `initialize` is only called on a closed database. -/
def OpensClosed (vol : Bool) : Db V M → List (ClCall (IxCall V M)) → Prop
  | _, [] => True
  | db, x :: h => (x = .init → db.isOpen = false) ∧ OpensClosed vol (next vol db x) h

end Db
end Valori.Spec
