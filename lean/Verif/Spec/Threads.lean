import Mathlib.Data.List.Basic

/-!
# Calls made one after the other
-/

namespace Valori.Spec

/-- Calls made by a single caller: the replies and the state at the end. -/
def oneByOne {σ C R : Type} (call : σ → C → R × σ) : σ → List C → List R × σ
  | x, [] => ([], x)
  | x, c :: cs => ((call x c).1 :: (oneByOne call (call x c).2 cs).1, (oneByOne call (call x c).2 cs).2)

/-- The calls of one thread, with their replies. -/
def ofThread {C R : Type} (t : Nat) (log : List (Nat × C × R)) : List (C × R) :=
  (log.filter fun e => e.1 = t).map fun e => e.2

/-- `log` explains what threads saw: making its calls one after the other gives exactly its replies and
ends in `x'`; and for each thread, its calls appear in the order of its program, with the replies it
got, up to what it still has to do. -/
structure Explains {σ C R : Type} (call : σ → C → R × σ) (x x' : σ) (progs todo : Nat → List C)
    (got : Nat → List R) (log : List (Nat × C × R)) : Prop where
  replies : oneByOne call x (log.map fun e => e.2.1) = (log.map fun e => e.2.2, x')
  order : ∀ t, ((ofThread t log).map fun e => e.1) ++ todo t = progs t
  seen : ∀ t, ((ofThread t log).map fun e => e.2) = got t

end Valori.Spec
