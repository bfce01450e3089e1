import Mathlib.Data.Rat.Defs
import Mathlib.Logic.Function.Basic

/-!
# `ResourceMonitor` (`/repo/src/valori/utils/batch_manager.py:357-439`)

The monitor, the threads it has started and the callers of `start_monitoring` and `stop_monitoring`, as a
transition system whose steps are single statements.  What a sample contains, whether reading it or sleeping
raises, and in which order callers and threads run are parts of the action.  Time is not modelled.
-/

namespace Valori

/-- An entry of `resource_data`, batch_manager.py:402-408. -/
structure Sample where
  stamp : Rat
  memory : Rat
  cpu : Rat
deriving DecidableEq, Repr

/-- Next statement of a monitoring thread: `_monitor_loop`, batch_manager.py:388-415. -/
inductive MonPc where
  /-- importing psutil and making the process object, lines 391-393 -/
  | starting
  /-- the test of `while self.monitoring`, line 395 -/
  | test
  /-- reading and appending a sample, lines 397-408 -/
  | sample
  /-- `time.sleep(interval)`, line 410 -/
  | sleep
  /-- the loop was left -/
  | ended
deriving DecidableEq, Repr

/-- Next statement of a caller. -/
inductive CallPc where
  /-- not in a call -/
  | idle
  /-- in `start_monitoring`, after the test of line 368 -/
  | passed
  /-- in `start_monitoring`, after `self.monitoring = True`, line 371 -/
  | flagged
  /-- in `stop_monitoring`, after `self.monitoring = False`, line 380 -/
  | cleared
  /-- in `stop_monitoring`, waiting for this thread, line 382 -/
  | joining (t : Nat)
deriving DecidableEq, Repr

/-- The monitor, batch_manager.py:360-364, with its threads and callers.  `start_time` is never read and
left out. -/
structure Mon where
  monitoring : Bool
  current : Option Nat
  data : List Sample
  threads : List MonPc
  callers : Nat → CallPc

/-- What may happen next. -/
inductive MonAct where
  /-- caller `c` calls `start_monitoring` -/
  | start (c : Nat)
  /-- caller `c` calls `stop_monitoring` -/
  | stop (c : Nat)
  /-- caller `c` executes its next statement -/
  | go (c : Nat)
  /-- thread `t` executes its next statement; what it needs from the operating system is `got`, `none` when
  this raises -/
  | tick (t : Nat) (got : Option Sample)
deriving DecidableEq, Repr

/-- A new monitor. -/
def Mon.new : Mon := ⟨false, none, [], [], fun _ => .idle⟩

/-- Where a thread goes from a statement. -/
def MonPc.next (monitoring : Bool) : MonPc → Option Sample → MonPc
  | .starting, some _ => .test
  | .starting, none => .ended
  | .test, _ => if monitoring then .sample else .ended
  | .sample, some _ => .sleep
  | .sample, none => .ended
  | .sleep, some _ => .test
  | .sleep, none => .ended
  | .ended, _ => .ended

/-- What a thread appends. -/
def MonPc.emits : MonPc → Option Sample → List Sample
  | .sample, some x => [x]
  | _, _ => []

/-- One statement: `none` when it cannot be executed now.  A thread that fails outside the inner `try`
(lines 391-393) ends as well, with a message or a traceback. -/
def Mon.step (s : Mon) : MonAct → Option Mon
  | .start c =>
    match s.callers c with
    | .idle => if s.monitoring then some s
      else some { s with callers := Function.update s.callers c .passed }
    | _ => none
  | .stop c =>
    match s.callers c with
    | .idle => some { s with monitoring := false, callers := Function.update s.callers c .cleared }
    | _ => none
  | .go c =>
    match s.callers c with
    | .idle => none
    | .passed => some { s with monitoring := true, callers := Function.update s.callers c .flagged }
    | .flagged => some { s with current := some s.threads.length, threads := s.threads ++ [.starting]
                                callers := Function.update s.callers c .idle }
    | .cleared =>
      match s.current with
      | none => some { s with callers := Function.update s.callers c .idle }
      | some t => some { s with callers := Function.update s.callers c (.joining t) }
    | .joining t =>
      if s.threads[t]? = some .ended then some { s with callers := Function.update s.callers c .idle }
      else none
  | .tick t got =>
    match s.threads[t]? with
    | some .ended => none
    | some pc => some { s with threads := s.threads.set t (pc.next s.monitoring got)
                               data := s.data ++ pc.emits got }
    | none => none

/-- A whole execution. -/
def Mon.run (s : Mon) : List MonAct → Option Mon
  | [] => some s
  | a :: as => (s.step a).bind fun s' => s'.run as

/-- Sum, for `sum(values)`. -/
def sumR (l : List Rat) : Rat := l.foldl (· + ·) 0

/-- `min`, `max` and average of a list that is not empty. -/
structure Range3 where
  min : Rat
  max : Rat
  avg : Rat
deriving DecidableEq, Repr

/-- batch_manager.py:427-436 for one of the two quantities. -/
def range3 (x : Rat) (xs : List Rat) : Range3 :=
  ⟨xs.foldl (fun a b => if b < a then b else a) x, xs.foldl (fun a b => if a < b then b else a) x,
    sumR (x :: xs) / (xs.length + 1 : Nat)⟩

/-- The answer of `get_summary`, batch_manager.py:417-437. -/
structure MonSummary where
  duration : Rat
  memory : Range3
  cpu : Range3
deriving DecidableEq, Repr

/-- `get_summary`, batch_manager.py:417-437: `none` is the empty dictionary. -/
def Mon.summary (s : Mon) : Option MonSummary :=
  match s.data with
  | [] => none
  | d :: ds => some
    { duration := (ds.getLastD d).stamp - d.stamp
      memory := range3 d.memory (ds.map Sample.memory)
      cpu := range3 d.cpu (ds.map Sample.cpu) }

end Valori
