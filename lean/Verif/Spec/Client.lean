/-!
# What the client promises

The life cycle told from the calls and whether they returned normally.
-/

namespace Valori.Spec

/-- Calls on a client; `Q` is the type of requests (insert, search, delete, update, get_stats). -/
inductive ClCall (Q : Type) where
  | init
  | close
  | request (q : Q)

/-- Whether the client is open, in a history told newest first: calls with "returned normally". -/
def clOpen {Q : Type} : List (ClCall Q × Bool) → Bool
  | [] => false
  | (.init, true) :: _ => true
  | (.close, true) :: _ => false
  | _ :: h => clOpen h

end Valori.Spec
