/-!
# Frequencies and tasks

Model of `/repo/src/timer/task.rs`: the alarm iterators, the count-down and the `Task` record.
-/

namespace DelayTimer

/-- `DEFAULT_TIMER_SLOT_COUNT`, src/timer/timer_core.rs:15. -/
notation "SLOT_COUNT" => (3600 : Nat)

/-- `u64::checked_sub`, used at src/timer/event_handle.rs:286, src/timer/timer_core.rs:381 and
src/timer/task.rs:75,1024. -/
def checkedSub (a b : Nat) : Option Nat := if b ≤ a then some (a - b) else none

/-- `SecondsState = StepBy<RangeFrom<u64>>` (src/prelude.rs type alias, built at
src/timer/task.rs:231-252).  The fields are those of `core::iter::StepBy`: the inner range start,
`step - 1`, and the `first_take` flag.
-/
structure SecondsState where
  start : Nat
  stepMinusOne : Nat
  firstTake : Bool
deriving Repr, DecidableEq

/-- `(start..).step_by(step)`; `step_by` panics on 0, which the callers exclude
(src/timer/task.rs:227-232, 236-241, 246-251). -/
def SecondsState.new (start step : Nat) : SecondsState :=
  { start := start, stepMinusOne := step - 1, firstTake := true }

/-- `StepBy::next` over `RangeFrom::next` / `RangeFrom::nth` on `u64`; used at src/timer/task.rs:408,411.
`RangeFrom::nth(n)` computes `Step::forward(start, n)` and then `Step::forward(_, 1)` for the new start. This is the
behaviour without overflow checks, when `Step::forward` wraps around. -/
def SecondsState.next (s : SecondsState) : Nat × SecondsState :=
  let x := if s.firstTake then s.start else (s.start + s.stepMinusOne) % 18446744073709551616
  (x, { s with start := (x + 1) % 18446744073709551616, firstTake := false })

/-- Whether one of the two additions of `SecondsState.next` overflows; `Step::forward` panics then if overflow checks
are compiled in. -/
def SecondsState.overflows (s : SecondsState) : Bool :=
  decide (18446744073709551616 ≤ (if s.firstTake then s.start else s.start + s.stepMinusOne) + 1)

/-- A parsed cron schedule in a time zone.  `cron_clock::Schedule` is outside the crate: all that is
used of it is "the first matching instant strictly after a given one", in seconds since the epoch. -/
structure CronSchedule where
  nextAfter : Int → Option Int

/-- `ScheduleIteratorOwned` (cron_clock) as wrapped by `DelayTimerScheduleIteratorOwned`,
src/timer/task.rs:303-308: a schedule and the previously returned instant. -/
structure CronIter where
  sched : CronSchedule
  prev : Int

/-- `DelayTimerScheduleIteratorOwned::next`, src/timer/task.rs:347-353. -/
def CronIter.next (c : CronIter) : Option Int × CronIter :=
  match c.sched.nextAfter c.prev with
  | some t => (some t, { c with prev := t })
  | none => (none, c)

/-- `FrequencyInner`, src/timer/task.rs:188-198. -/
inductive FrequencyInner where
  | cronRepeated (c : CronIter)
  | cronCountDown (n : Nat) (c : CronIter)
  | secondsRepeated (s : SecondsState)
  | secondsCountDown (n : Nat) (s : SecondsState)

/-- `u64::MAX` -/
def U64_MAX : Nat := 18446744073709551615

/-- `FrequencyInner::residual_time`, src/timer/task.rs:394-401. -/
def FrequencyInner.residualTime : FrequencyInner → Nat
  | .cronRepeated _ => U64_MAX
  | .secondsRepeated _ => U64_MAX
  | .cronCountDown n _ => n
  | .secondsCountDown n _ => n

/-- `i as u64` for `i : i64` (src/timer/task.rs:1115): two's complement reinterpretation. -/
def asU64 (i : Int) : Nat := (i % 18446744073709551616).toNat

/-- `FrequencyInner::next_alarm_timestamp` composed with the `as u64` of
`Task::get_next_exec_timestamp`, src/timer/task.rs:403-414 and 1114-1116.
Simplification: for the seconds variants the round trip `u64 as i64 as u64` is the identity
(theorem `u64_i64_roundtrip` in `Proofs/Frequency`), so it is not written out. -/
def FrequencyInner.nextAlarm : FrequencyInner → Option Nat × FrequencyInner
  | .cronCountDown n c => let (t, c') := c.next; (t.map asU64, .cronCountDown n c')
  | .cronRepeated c => let (t, c') := c.next; (t.map asU64, .cronRepeated c')
  | .secondsRepeated s => let (t, s') := s.next; (some t, .secondsRepeated s')
  | .secondsCountDown n s => let (t, s') := s.next; (some t, .secondsCountDown n s')

/-- `u64` subtraction `x -= 1` as compiled: with overflow checks it panics (`none`), without it
wraps to `u64::MAX`. -/
def decU64 (overflowChecks : Bool) (n : Nat) : Option Nat :=
  if n = 0 then (if overflowChecks then none else some U64_MAX) else some (n - 1)

/-- `FrequencyInner::down_count`, src/timer/task.rs:417-424; `none` is a panic. -/
def FrequencyInner.downCount (overflowChecks : Bool) : FrequencyInner → Option FrequencyInner
  | .cronRepeated c => some (.cronRepeated c)
  | .secondsRepeated s => some (.secondsRepeated s)
  | .cronCountDown n c => (decU64 overflowChecks n).map (.cronCountDown · c)
  | .secondsCountDown n s => (decU64 overflowChecks n).map (.secondsCountDown · s)

/-- `FrequencyInner::is_down_over`, src/timer/task.rs:426-431. -/
def FrequencyInner.isDownOver : FrequencyInner → Bool
  | .cronCountDown 0 _ => true
  | .secondsCountDown 0 _ => true
  | _ => false

/-- `Task`, src/timer/task.rs:682-698.  `routine` is an opaque tag naming the user's closure. -/
structure Task where
  taskId : Nat
  routine : Nat
  frequency : FrequencyInner
  maximumRunningTime : Option Nat
  cylinderLine : Nat
  valid : Bool
  maximumParallelRunnableNum : Option Nat

/-- `Task::is_already`, src/timer/task.rs:1093-1095. -/
def Task.isAlready (t : Task) : Bool := t.cylinderLine == 0

/-- `Task::is_can_running`, src/timer/task.rs:1099-1104. -/
def Task.isCanRunning (t : Task) : Bool := if t.valid then t.isAlready else false

/-- `Task::check_arrived`, src/timer/task.rs:1080-1089 (with `sub_cylinder_line`, 1069-1071; the
subtraction cannot underflow here). -/
def Task.checkArrived (t : Task) : Bool × Task :=
  if t.cylinderLine = 0 then (t.isCanRunning, t)
  else (false, { t with cylinderLine := t.cylinderLine - 1 })

/-- `Task::get_maximum_running_time`, src/timer/task.rs:1062-1064, without overflow checks: the sum is
taken in `u64`. -/
def Task.getMaximumRunningTime (t : Task) (startTime : Nat) : Option Nat :=
  t.maximumRunningTime.map (fun m => (m + startTime) % 18446744073709551616)

/-- Whether the addition in `get_maximum_running_time` overflows; it panics then if overflow checks are
compiled in. -/
def Task.limitOverflows (t : Task) (startTime : Nat) : Bool :=
  match t.maximumRunningTime with
  | none => false
  | some m => decide (18446744073709551616 ≤ m + startTime)

/-- `Task::get_next_exec_timestamp`, src/timer/task.rs:1114-1116. -/
def Task.getNextExecTimestamp (t : Task) : Option Nat × Task :=
  let (a, f) := t.frequency.nextAlarm
  (a, { t with frequency := f })

/-- Whether `get_next_exec_timestamp` overflows; it panics then if overflow checks are compiled in. -/
def Task.alarmOverflows (t : Task) : Bool :=
  match t.frequency with
  | .secondsRepeated s => s.overflows
  | .secondsCountDown _ s => s.overflows
  | _ => false

/-- `Task::down_count_and_set_vaild`, src/timer/task.rs:1035-1051; `none` is a panic. -/
def Task.downCountAndSetValid (overflowChecks : Bool) (t : Task) : Option (Bool × Task) :=
  match t.frequency.downCount overflowChecks with
  | none => none
  | some f =>
    let t' := { t with frequency := f, valid := !f.isDownOver }
    some (t'.valid, t')

end DelayTimer
