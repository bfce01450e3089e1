/-!
# What persistence promises

Calls, replies and what a directory should hold, told from the calls and replies alone.
-/

namespace Valori.Spec

/-- What a successful save stores. -/
inductive Stored (S V I : Type) where
  | obj (s : S)
  | arrays (v : V) (ids : I)
deriving DecidableEq

/-- Calls on the tensor persistence manager.  `io = false`: the operating system refuses to create
the directory or to open the file.  `reopen` is a new manager object on the same directory. -/
inductive TpCall (S V I : Type) where
  | saveState (s : S) (p : String) (io : Bool)
  | saveIndex (s : S) (p : String) (io : Bool)
  | saveVecs (v : V) (ids : I) (p : String) (io : Bool)
  | loadState (p : String)
  | loadIndex (p : String)
  | loadVecs (p : String)
  | init
  | close
  | reopen

/-- Replies; a load of a missing path gives `none`. -/
inductive TpReply (S V I : Type) where
  | saved
  | obj (o : Option S)
  | vecs (o : Option (V × I))
  | done
  | raised
deriving DecidableEq

/-- The file a call writes: `np.savez` adds ".npz" unless the path ends in it. -/
def npzName (p : String) : String :=
  if ".npz".toList.isSuffixOf p.toList then p else p ++ ".npz"

variable {S V I : Type}

/-- The file written by a call and what it should then hold. -/
def TpCall.target : TpCall S V I → Option (String × Stored S V I)
  | .saveState s p _ | .saveIndex s p _ => some (p, .obj s)
  | .saveVecs v ids p _ => some (npzName p, .arrays v ids)
  | _ => none

/-- The last thing saved to file `p`, in a history told newest first. -/
def lastSaved (p : String) : List (TpCall S V I × TpReply S V I) → Option (Stored S V I)
  | [] => none
  | (c, _) :: h =>
    match c.target with
    | some (p', x) => if p' = p then some x else lastSaved p h
    | none => lastSaved p h

/-- Whether the manager is open, in a history told newest first. -/
def opened : List (TpCall S V I × TpReply S V I) → Bool
  | [] => false
  | (.init, _) :: _ => true
  | (.reopen, _) :: _ => true
  | (.close, _) :: _ => false
  | _ :: h => opened h

/-- The calls of the current manager object, in a history told newest first. -/
def sinceReopen : List (TpCall S V I × TpReply S V I) → List (TpCall S V I × TpReply S V I)
  | [] => []
  | (.reopen, _) :: _ => []
  | x :: h => x :: sinceReopen h

/-- A reply that acknowledges a save. -/
def TpReply.isSaved : TpReply S V I → Bool
  | .saved => true
  | _ => false

/-- A reply that hands out something. -/
def TpReply.isLoaded : TpReply S V I → Bool
  | .obj (some _) => true
  | .vecs (some _) => true
  | _ => false

end Valori.Spec
