/-!
# What an Annoy-backed index should do

Calls, and when a delete names an id.  Nothing here mentions the implementation.
-/

namespace Valori.Spec

/-- Calls on an Annoy index. -/
inductive AnCall (V M : Type) where
  | insert (ndim cols : Nat) (rows : List V) (mds : Option (List (Option M)))
  | delete (ids : List String)
  | update (id : String) (v : V) (m : Option M)
  | build
  | search (q : V) (k : Int)
  | clear
deriving Repr

/-- One search result. -/
structure AnHit (F M : Type) where
  id : Nat
  score : F
  md : Option M
deriving DecidableEq, Repr

/-- The call is a delete of well-formed ids that include `n`. -/
def AnCall.deletes {V M : Type} (parse : String → Option Int) (n : Nat) : AnCall V M → Prop
  | .delete ids => (∀ s ∈ ids, parse s ≠ none) ∧ ∃ s ∈ ids, parse s = some (n : Int)
  | _ => False

/-- Assumptions on the calls of a plain history: inserts (with metadata dictionaries), builds,
searches, and deletes that name no negative number. -/
def AnCall.Plain {V M : Type} (parse : String → Option Int) : AnCall V M → Prop
  | .insert _ _ _ mds => ∀ l, mds = some l → none ∉ l
  | .delete ids => ∀ s ∈ ids, ∀ i, parse s = some i → 0 ≤ i
  | .update .. => False
  | .build => True
  | .search .. => True
  | .clear => False

end Valori.Spec
