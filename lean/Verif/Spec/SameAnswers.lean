import Verif.Spec.Database

/-!
# When two databases answer the same

Two answers to a search agree if they give the same distances in the same order and name the same items,
except that items exactly as far as the last one may be exchanged for each other.
-/

namespace Valori.Spec
variable {D M : Type}

/-- Everything nearer than the last result of `l` is in `l'`. -/
def NearerIn [LT D] (l l' : List (Hit D M)) : Prop :=
  ∀ x ∈ l, (∃ y ∈ l, x.dist < y.dist) → x ∈ l'

/-- Agreement of two answers. -/
def DbAns.Agree [LT D] : DbAns D M → DbAns D M → Prop
  | .hits l, .hits l' => l.map Hit.dist = l'.map Hit.dist ∧ NearerIn l l' ∧ NearerIn l' l
  | a, b => a = b

/-- No two items are equally far from the query. -/
def NoTies {V : Type} (dist : V → D) (live : List (Item V M)) : Prop :=
  ∀ x ∈ live, ∀ y ∈ live, dist x.vec = dist y.vec → x.id = y.id

/-- A history of requests only: nothing is opened or closed. -/
def OnlyRequests {Q : Type} (h : List (ClCall Q)) : Prop := ∀ x ∈ h, ∃ q, x = .request q

end Valori.Spec
