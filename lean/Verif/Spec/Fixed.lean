import Mathlib.Algebra.Order.Ring.Int

/-!
# Ranges of integer types
-/

namespace Valori.Spec

/-- The numbers a type of so many bits can hold. -/
def InRange (bits : Nat) (signed : Bool) (x : Int) : Prop :=
  if signed then -2 ^ (bits - 1) ≤ x ∧ x < 2 ^ (bits - 1) else 0 ≤ x ∧ x < 2 ^ bits

instance (bits : Nat) (signed : Bool) (x : Int) : Decidable (InRange bits signed x) := by
  unfold InRange; infer_instance

end Valori.Spec
