import Verif.Model.Debugging

/-!
# What the debugging tools are expected to do
-/

namespace Valori.Spec

/-- The program without the profiler. -/
def plain {σ : Type} : Body σ → σ → Res σ Unit
  | .act f, q => f q
  | .seq a b, q =>
    match plain a q with
    | (.error e, q') => (.error e, q')
    | (.ok _, q') => plain b q'
  | .measure _ b, q => plain b q

/-- Names of the measured blocks the program leaves, normally or by an exception, in order. -/
def finished {σ : Type} : Body σ → σ → List String
  | .act _, _ => []
  | .seq a b, q =>
    match plain a q with
    | (.error _, _) => finished a q
    | (.ok _, q') => finished a q ++ finished b q'
  | .measure op b, q => finished b q ++ [op]

/-- `s` summarises the numbers `l`. -/
structure IsSummary {F : Type} [Field F] [LinearOrder F] (l : List F) (s : Summary F) : Prop where
  least_mem : s.least ∈ l
  least_le : ∀ x ∈ l, s.least ≤ x
  greatest_mem : s.greatest ∈ l
  le_greatest : ∀ x ∈ l, x ≤ s.greatest
  total_eq : s.total = l.sum
  avg_eq : s.avg * (l.length : F) = l.sum

/-- Number of pairs `i < j` of positions of `l` whose entries are related by `p`. -/
def pairsWith {R : Type} (p : R → R → Bool) : List R → Nat
  | [] => 0
  | x :: l => (l.filter fun y => p x y).length + pairsWith p l

end Valori.Spec
