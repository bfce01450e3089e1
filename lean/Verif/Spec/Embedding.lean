import Verif.Spec.Batch

/-!
# Vocabulary for the embedding properties
-/

namespace Valori.Spec

/-- The answer of a loop that stops at the first exception. -/
def allOk {β : Type} : List (Except Err β) → Except Err (List β)
  | [] => .ok []
  | .error e :: _ => .error e
  | .ok v :: rs =>
    match allOk rs with
    | .error e => .error e
    | .ok vs => .ok (v :: vs)

end Valori.Spec
