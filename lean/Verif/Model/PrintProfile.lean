import Verif.Model.Debugging

/-!
# `PerformanceProfiler.print_summary`, utils/debugging.py:91-109
-/

namespace Valori

/-- A block of the printed profile.  Simplification: the numbers shown, not their layout and rounding. -/
inductive ProfileBlock (F : Type) where
  | heading
  | op (name : String) (count : Nat) (durAvg durMin durMax memAvg memMin memMax : F)
deriving DecidableEq, Repr

/-- `print_summary`, debugging.py:91-109, with what it printed: the summary first (line 93), then the heading (lines 95-97) and a block
for every entry of the summary (lines 99-109). -/
def Prof.printSummary {F : Type} [Field F] [LinearOrder F] (p : Prof F) : Except Err Unit × List (ProfileBlock F) :=
  match p.summary with
  | .error e => (.error e, [])
  | .ok summary =>
    (.ok (), .heading :: summary.map fun e =>
      .op e.1 e.2.count e.2.duration.avg e.2.duration.least e.2.duration.greatest
        e.2.memory.avg e.2.memory.least e.2.memory.greatest)

end Valori
