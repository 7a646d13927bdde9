import Verif.Spec.Operations

/-! Vocabulary for a task whose removal comes while the scheduler is at it. -/

namespace DelayTimer.Spec

/-- The task the scheduler has taken out of the wheel and not put back. -/
def heldTask : TPC → Option Task
  | .check _ t => some t
  | .spawn _ t _ => some t
  | .append _ t _ => some t
  | .gate _ t _ => some t
  | .rearm _ t _ => some t
  | _ => none

/-- The starts that are still to come of a task `t` held in tick `n`. Before its body is started: one now, then one for
each further alarm. Afterwards: those of the further alarms. The count-down is still to be decremented except just
before the task is put back. -/
def startsAhead (clock : Nat → Nat) (n : Nat) (t : Task) : TPC → Nat → Option Nat
  | .check _ _ | .spawn _ _ _ => cut (runsLeft t) (timetable clock n (fun j => alarm j t))
  | .append _ _ _ | .gate _ _ _ => fun i => cut (runsLeft t) (timetable clock n (fun j => alarm j t)) (i + 1)
  | .rearm _ _ _ => cut (runsLeft t) (nextTable clock n t)
  | _ => fun _ => none

end DelayTimer.Spec
