import Verif.Model.Batch
import Mathlib.Data.Rat.Defs
import Mathlib.Algebra.Order.Field.Basic

/-!
# The progress lines of `BatchManager.batch_search`: utils/batch_manager.py:118-173, 254-275
-/

namespace Valori

/-- A progress line of the manager, batch_manager.py:270-275.  Simplification: elapsed time and ETA are left out, and the percentage is
not rounded. -/
structure BLine where
  percent : Rat
  processed : Nat
  total : Nat
  failed : Nat
deriving DecidableEq, Repr

/-- `_print_progress`, batch_manager.py:254-275: nothing if there are no items. -/
def printLine (st : BStats) : List BLine :=
  if st.total = 0 then []
  else [⟨(st.processed : Rat) / st.total * 100, st.processed, st.total, st.failed⟩]

variable {σ V M I Q R : Type}

/-- The lines the loop of `batch_search` prints with `show_progress` (batch_manager.py:139-168): one after each batch (line 162-163),
before the progress callback (lines 165-168).  The branches are those of `searchLoop`. -/
def searchLines (E : BatchEnv σ V M I Q R) (queries : List Q) : List Nat → BState σ (List R) → List BLine
  | [], _ => []
  | i :: is, (s, st, out) =>
    let bq := batchAt queries i E.batchSize
    match searchEach E bq (s, st, []) with
    | (.error _, _, _) => []
    | (.ok rs, s, st) =>
      let st := { st with processed := st.processed + bq.length }
      printLine st ++
        match E.progress st.processed st.total with
        | .error _ => []
        | .ok () => searchLines E queries is (s, st, out ++ rs)

/-- What `batch_search` prints, batch_manager.py:118-173. -/
def batchSearchLines (E : BatchEnv σ V M I Q R) (queries : List Q) (s : σ) (st : BStats) : List BLine :=
  searchLines E queries (starts queries.length E.batchSize) (s, { st with total := queries.length }, [])

end Valori
