import Verif.Model.BatchLines

/-!
# The progress lines of `BatchManager.batch_insert`: utils/batch_manager.py:58-116, 254-275
-/

namespace Valori

variable {σ V M I Q R : Type}

/-- The lines the loop of `batch_insert` prints with `show_progress` (batch_manager.py:83-111): one after each batch the client stored
(lines 95-96), before the progress callback (lines 98-101); none for a batch whose insertion raised.  The branches are those of
`insertLoop`. -/
def insertLines (E : BatchEnv σ V M I Q R) (vectors : List V) (metadata : List M) : List Nat → σ → BStats → List BLine
  | [], _, _ => []
  | i :: is, s, st =>
    let bv := batchAt vectors i E.batchSize
    let bm := batchAt metadata i E.batchSize
    let fail (e : Err) (s : σ) (st : BStats) : List BLine :=
      let st := { st with failed := st.failed + bv.length }
      match E.onError e with
      | .error _ => []
      | .ok () => insertLines E vectors metadata is s st
    match E.insert s bv bm with
    | (.error e, s) => fail e s st
    | (.ok _, s) =>
      let st := { st with processed := st.processed + bv.length }
      printLine st ++
        match E.progress st.processed st.total with
        | .error e => fail e s st
        | .ok () => insertLines E vectors metadata is s st

/-- What `batch_insert` prints as progress, batch_manager.py:58-116; the messages about failed batches (line 111) are left out. -/
def batchInsertLines (E : BatchEnv σ V M I Q R) (vectors : List V) (metadata : List M) (s : σ) (st : BStats) : List BLine :=
  insertLines E vectors metadata (starts vectors.length E.batchSize) s { st with total := vectors.length }

end Valori
