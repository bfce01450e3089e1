import Verif.Model.Py
import Mathlib.Data.Rat.Defs
import Mathlib.Algebra.Order.Ring.Rat

/-!
# Progress and timing statistics (`/repo/src/valori/utils/batch_manager.py:240-354`)

Times and ratios are exact rationals; the number formats of the printed text are left out.
-/

namespace Valori

/-- What `_print_progress` of the tracker shows, batch_manager.py:336-354: `bar` has `true` for a full
block and `false` for a dash. -/
structure PLine where
  bar : List Bool
  percent : Rat
  current : Int
  total : Int
  elapsed : Rat
  eta : Rat
deriving DecidableEq, Repr

/-- `ProgressTracker`, batch_manager.py:309-315. -/
structure Tracker where
  total : Int
  current : Int
  startTime : Rat
  lastUpdate : Rat
deriving DecidableEq, Repr

/-- `__init__`, batch_manager.py:309-315; `now` and `now'` are the two readings of the clock. -/
def Tracker.new (total : Int) (now now' : Rat) : Tracker := ⟨total, 0, now, now'⟩

/-- `_print_progress`, batch_manager.py:332-354.  A string times a negative number is empty; `int` cuts
towards zero.  Division by zero raises. -/
def Tracker.line (t : Tracker) (now : Rat) : Except Err PLine :=
  if t.total = 0 then .error .other
  else
    let elapsed := now - t.startTime
    let filled := (30 * t.current).tdiv t.total
    .ok { bar := List.replicate filled.toNat true ++ List.replicate (30 - filled).toNat false
          percent := (t.current : Rat) / t.total * 100
          current := t.current
          total := t.total
          elapsed := elapsed
          eta := if t.current > 0 then elapsed / t.current * (t.total - t.current : Int) else 0 }

/-- `update`, batch_manager.py:317-324: the line printed, if any.  `now` is the reading in `update`, `now'`
that in `_print_progress`. -/
def Tracker.update (t : Tracker) (increment : Int) (now now' : Rat) : Res Tracker (Option PLine) :=
  let t := { t with current := t.current + increment }
  if now - t.lastUpdate ≥ 1 then
    match t.line now' with
    | .ok l => (.ok (some l), { t with lastUpdate := now })
    | .error e => (.error e, t)
  else (.ok none, t)

/-- `finish`, batch_manager.py:326-330. -/
def Tracker.finish (t : Tracker) (now : Rat) : Res Tracker PLine :=
  let t := { t with current := t.total }
  (t.line now, t)

/-- A sequence of updates, each with its increment and the two readings; the lines printed with the reading
that let them through.  An exception ends it. -/
def Tracker.updates (t : Tracker) : List (Int × Rat × Rat) → Res Tracker (List (Rat × PLine))
  | [] => (.ok [], t)
  | (inc, now, now') :: rest =>
    match t.update inc now now' with
    | (.error e, t') => (.error e, t')
    | (.ok l, t') =>
      match t'.updates rest with
      | (.error e, t'') => (.error e, t'')
      | (.ok ls, t'') => (.ok ((l.toList.map fun l => (now, l)) ++ ls), t'')

/-- The statistics of `BatchManager` that have to do with time, batch_manager.py:42-48. -/
structure BTimes where
  processed : Nat
  startTime : Option Rat
  endTime : Option Rat
deriving DecidableEq, Repr

/-- What happens to them. -/
inductive BEvent where
  /-- an operation begins, e.g. batch_manager.py:77-78 -/
  | begin (now : Rat)
  /-- a batch was processed, e.g. batch_manager.py:93-95 -/
  | processed (n : Nat)
  /-- an operation ends, e.g. batch_manager.py:117-118 -/
  | done (now : Rat)
  /-- `reset_stats`, batch_manager.py:295-303 -/
  | reset
deriving DecidableEq, Repr

/-- The effect of an event. -/
def BTimes.on (s : BTimes) : BEvent → BTimes
  | .begin now => { s with startTime := some now }
  | .processed n => { s with processed := s.processed + n }
  | .done now => { s with endTime := some now }
  | .reset => ⟨0, none, none⟩

/-- A history of events, from a new manager. -/
def BTimes.after (es : List BEvent) : BTimes := es.foldl BTimes.on ⟨0, none, none⟩

/-- `get_stats`, batch_manager.py:276-293: `total_time` and `items_per_second`.  A time that is zero counts
as absent. -/
def BTimes.rate (s : BTimes) : Rat × Rat :=
  match s.startTime, s.endTime with
  | some a, some b =>
    if a ≠ 0 ∧ b ≠ 0 then
      (b - a, if 0 < s.processed ∧ b - a ≠ 0 then (s.processed : Rat) / (b - a) else 0)
    else (0, 0)
  | _, _ => (0, 0)

end Valori
