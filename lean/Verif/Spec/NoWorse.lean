import Verif.Spec.SameAnswers

/-!
# Results that are no worse (C230)
-/

namespace Valori.Spec

/-- The second list of distances is at least as long and in no place greater. -/
def NoWorse {D : Type} [LE D] (a b : List D) : Prop :=
  a.length ≤ b.length ∧ ∀ (i : Nat) (x y : D), a[i]? = some x → b[i]? = some y → y ≤ x

/-- Two answers of a database: search results whose distances are no worse in the second, or equal
answers. -/
def DbAns.NoWorse {D M : Type} [LE D] (a b : DbAns D M) : Prop :=
  a = b ∨ ∃ l l', a = .hits l ∧ b = .hits l' ∧ Spec.NoWorse (l.map Hit.dist) (l'.map Hit.dist)

end Valori.Spec
