import Verif.Model.Builder

/-! Alarm sequences, as seen by asking a task repeatedly for its next alarm. -/

namespace DelayTimer.Spec

/-- The `k`-th answer (from 0) when asking `t` for alarms again and again. -/
def alarm : Nat → Task → Option Nat
  | 0, t => t.getNextExecTimestamp.1
  | k + 1, t => alarm k t.getNextExecTimestamp.2

/-- The `j`-th alarm (from 0) of a task with a period in seconds, as a plain number; `none` for cron schedules. -/
def plainAlarm (j : Nat) (t : Task) : Option Nat :=
  let at' (s : SecondsState) := (if s.firstTake then s.start else s.start + s.stepMinusOne) + j * (s.stepMinusOne + 1)
  match t.frequency with
  | .secondsRepeated s => some (at' s)
  | .secondsCountDown _ s => some (at' s)
  | _ => none

/-- The next `n` alarms, and the second after each of them, fit 64 bits. -/
def AlarmsFit (n : Nat) (t : Task) : Prop := ∀ j < n, ∀ a, plainAlarm j t = some a → a + 1 < 2 ^ 64

/-- The alarms of `t` are `a`, `a + p`, `a + 2p`, … as far as they (and the second after) fit 64 bits. -/
def EveryFrom (a p : Nat) (t : Task) : Prop := ∀ j, a + j * p + 1 < 2 ^ 64 → alarm j t = some (a + j * p)

/-- The same when the count-down is decremented `c i` times before the `i`-th question. `none` in
the count-down position is a panic and never happens while the count lasts. -/
def downs (oc : Bool) : Nat → Task → Option Task
  | 0, t => some t
  | c + 1, t => (t.downCountAndSetValid oc).bind fun r => downs oc c r.2

/-- Runs that are left in a task: `none` for a repeating one. -/
def runsLeft : Task → Option Nat
  | t => match t.frequency with
    | .cronRepeated _ => none
    | .secondsRepeated _ => none
    | .cronCountDown n _ => some n
    | .secondsCountDown n _ => some n

/-- Everything about a built task except its alarms. -/
structure Shape where
  id : Nat
  routine : Nat
  runs : Option Nat
  timeLimit : Option Nat
  parallelLimit : Option Nat
deriving DecidableEq

def shape (t : Task) : Shape where
  id := t.taskId
  routine := t.routine
  runs := runsLeft t
  timeLimit := t.maximumRunningTime
  parallelLimit := t.maximumParallelRunnableNum

/-- The kinds of schedule offered by the builder. -/
inductive Kind where
  | once
  | repeated
  | countDown (n : Nat)

def Kind.runs : Kind → Option Nat
  | .once => some 1
  | .repeated => none
  | .countDown n => some n

/-- Duration units of the builder with their documented lengths. -/
inductive Unit' where
  | minutes | hours | days

def Unit'.seconds : Unit' → Nat
  | .minutes => 60
  | .hours => 3600
  | .days => 86400

end DelayTimer.Spec
