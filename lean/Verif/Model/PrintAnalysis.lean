import Verif.Model.Debugging

/-!
# `VectorAnalyzer.print_analysis`, utils/debugging.py:261-292
-/

namespace Valori

/-- A block of the printed report.  Simplification: the numbers shown, not their layout; the lines for memory, range, mean and norms
(debugging.py:274-276, 281-283) stand for themselves, as their numbers are not in `Analysis`. -/
inductive ReportBlock (F : Type) where
  | heading
  | basic (count dimension : Nat) (sparsity : F)
  | distribution
  | quality (score : F) (nans infs constant zero : Nat)
deriving DecidableEq, Repr

/-- `print_analysis`, debugging.py:261-292, with what it printed.  The analysis comes first (line 263), so that nothing is printed if it
raises; the heading (lines 265-267) is printed before `analysis["basic_stats"]` is looked up (line 270), which an answer with the key
"error" only does not have. -/
def printAnalysis {F : Type} [Field F] [LinearOrder F] (sim : List (Cell F) → List (Cell F) → Cell F)
    (choice : Nat → List Nat) (vectors : Arr (Cell F)) : Except Err Unit × List (ReportBlock F) :=
  match analyzeVectors sim choice vectors with
  | .error e => (.error e, [])
  | .ok none => (.error .key, [.heading])
  | .ok (some a) =>
    (.ok (), [.heading, .basic a.count a.dimension a.sparsity, .distribution,
      .quality a.score a.nanValues a.infValues a.constantVectors a.zeroVectors])

end Valori
