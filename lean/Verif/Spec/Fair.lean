import Mathlib.Order.Basic

/-!
# Executions without end
-/

namespace Valori.Spec

/-- The first `n` statements of an execution without end; `f i` is the thread that makes statement `i`. -/
def firstOf (f : Nat → Nat) (n : Nat) : List Nat := (List.range n).map f

/-- Thread `t` gets its turn again and again. -/
def Turns (f : Nat → Nat) (t : Nat) : Prop := ∀ n, ∃ m, n ≤ m ∧ f m = t

end Valori.Spec
