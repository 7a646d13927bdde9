import Verif.Spec.Alarm

/-! Chains of calls on a task builder. -/

namespace DelayTimer.Spec

/-- A call of a setter of `TaskBuilder`. -/
inductive TaskCall where
  | id (n : Nat)
  | timeLimit (n : Nat)
  | parallelLimit (n : Nat)
  | zone (z : TimeZone)
  | seconds (secs : Nat) (kind : Kind)
  | units (n : Nat) (u : Unit') (kind : Kind)
  /-- by timestamp `x`, called at time `now` -/
  | timestamp (now x : Nat)
  | cron (s : String) (kind : Kind)
  | candy (s : String) (kind : Kind)

/-- The schedule asked for. -/
inductive Plan where
  | seconds (secs : Nat) (kind : Kind)
  | cron (s : String) (kind : Kind)

def TaskCall.plan : TaskCall → Option Plan
  | .seconds secs kind => some (.seconds secs kind)
  | .units n u kind => some (.seconds (u.seconds * n) kind)
  | .timestamp now x => some (.seconds (if now ≤ x then x - now else 1) .once)
  | .cron s kind => some (.cron s kind)
  | .candy s kind => some (.cron s kind)
  | _ => none

def TaskCall.theId : TaskCall → Option Nat
  | .id n => some n
  | _ => none

def TaskCall.theTimeLimit : TaskCall → Option (Option Nat)
  | .timeLimit n => some (some n)
  | _ => none

def TaskCall.theParallelLimit : TaskCall → Option (Option Nat)
  | .parallelLimit n => some (some n)
  | _ => none

def TaskCall.theZone : TaskCall → Option TimeZone
  | .zone z => some z
  | _ => none

/-- What the last call of a sort asked for, `d` if there was none. -/
def lastAsked {α : Type} (f : TaskCall → Option α) (d : α) (cs : List TaskCall) : α :=
  (cs.reverse.findSome? f).getD d

/-- The number of seconds of the call does not exceed a `u64`. -/
def TaskCall.Fits : TaskCall → Prop
  | .units n u _ => u.seconds * n < 2 ^ 64
  | _ => True

/-- The plan in the end; by default once, in a minute. -/
def planOf (cs : List TaskCall) : Plan := lastAsked TaskCall.plan (.seconds 60 .once) cs

/-- The attributes the task must have in the end. -/
def shapeOf (cs : List TaskCall) (routine : Nat) (kind : Kind) : Shape where
  id := lastAsked TaskCall.theId 0 cs
  routine := routine
  runs := kind.runs
  timeLimit := lastAsked TaskCall.theTimeLimit none cs
  parallelLimit := lastAsked TaskCall.theParallelLimit none cs

end DelayTimer.Spec
