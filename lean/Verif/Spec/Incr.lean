/-!
# What incremental persistence promises

Calls and replies; the state that should be loaded, told from the calls and replies alone.
-/

namespace Valori.Spec

/-- Where a process may die in `save_state`: before anything is written; while the checkpoint file is
written; after it; while the counter file is written; after it; while the log line is written; after
it; while the counter file is written for the second time (only when the interval is reached). -/
inductive StateCrash where
  | start | ckptTorn | ckptDone | infoTorn | infoDone | logTorn | logDone | info2Torn
deriving DecidableEq

/-- Where a process may die in `save_vectors` or `save_index`. -/
inductive FileCrash where
  | start | fileTorn | fileDone | logTorn | logDone | info2Torn
deriving DecidableEq

/-- The crash points of `save_state` that do no lasting harm. -/
def StateCrash.safe : StateCrash → Bool
  | .start | .infoDone | .logTorn | .logDone => true
  | _ => false

/-- Whether the state being saved counts as saved after a (harmless) crash. -/
def StateCrash.kept : StateCrash → Bool
  | .infoDone | .logTorn | .logDone => true
  | _ => false

/-- The crash points of the other saves that do no harm to the state. -/
def FileCrash.safe : FileCrash → Bool
  | .info2Torn => false
  | _ => true

/-- Calls on the incremental manager.  `reopen`: `initialize` on this or a new manager object.  A
crash is always followed by a restart. -/
inductive IpCall (S V I : Type) where
  | saveState (s : S) (p : String)
  | saveVecs (v : V) (ids : I) (p : String)
  | saveIndex (s : S) (p : String)
  | loadState (p : String)
  | loadVecs (p : String)
  | loadIndex (p : String)
  | close
  | reopen
  | crashState (s : S) (p : String) (pt : StateCrash)
  | crashVecs (v : V) (ids : I) (p : String) (pt : FileCrash)
  | crashIndex (s : S) (p : String) (pt : FileCrash)

inductive IpReply (S V I : Type) where
  | saved
  | obj (o : Option S)
  | vecs (o : Option (V × I))
  | done
  | raised
deriving DecidableEq

variable {S V I : Type}

/-- Whether the manager is open, in a history told newest first. -/
def ipOpened : List (IpCall S V I × IpReply S V I) → Bool
  | [] => false
  | (.reopen, _) :: _ => true
  | (.crashState .., _) :: _ => true
  | (.crashVecs .., _) :: _ => true
  | (.crashIndex .., _) :: _ => true
  | (.close, _) :: _ => false
  | _ :: h => ipOpened h

/-- The last state saved (under any path), in a history told newest first.  After a crash the state
being saved counts if the crash was late enough. -/
def lastState : List (IpCall S V I × IpReply S V I) → Option S
  | [] => none
  | (.saveState s _, .saved) :: _ => some s
  | (.crashState s _ pt, _) :: h => if pt.kept && ipOpened h then some s else lastState h
  | _ :: h => lastState h

/-- The last state saved under path `p`, in a history without crashes told newest first. -/
def lastStateAt (p : String) : List (IpCall S V I × IpReply S V I) → Option S
  | [] => none
  | (.saveState s q, .saved) :: h => if q = p then some s else lastStateAt p h
  | _ :: h => lastStateAt p h

/-- A call that is not a crash. -/
def IpCall.noCrash : IpCall S V I → Bool
  | .crashState .. | .crashVecs .. | .crashIndex .. => false
  | _ => true

/-- A call that is a crash at a harmless point, or none at all. -/
def IpCall.safe : IpCall S V I → Bool
  | .crashState _ _ pt => pt.safe
  | .crashVecs _ _ _ pt => pt.safe
  | .crashIndex _ _ pt => pt.safe
  | _ => true

/-- A crash while a log line was being written. -/
def IpCall.cutsLog : IpCall S V I → Bool
  | .crashState _ _ pt => pt = .logTorn
  | .crashVecs _ _ _ pt => pt = .logTorn
  | .crashIndex _ _ pt => pt = .logTorn
  | _ => false

/-- A call that stays within a session. -/
def IpCall.inSession : IpCall S V I → Bool
  | .saveState .. | .saveVecs .. | .saveIndex .. | .loadState .. | .loadVecs .. | .loadIndex .. => true
  | _ => false

/-- The name and path of an acknowledged save, as the log should show it. -/
def IpCall.logged : IpCall S V I × IpReply S V I → Option (String × String)
  | (.saveState _ p, .saved) => some ("save_state", p)
  | (.saveVecs _ _ p, .saved) => some ("save_vectors", p)
  | (.saveIndex _ p, .saved) => some ("save_index", p)
  | _ => none

end Valori.Spec
