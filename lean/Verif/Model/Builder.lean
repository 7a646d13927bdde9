import Verif.Model.Frequency

/-!
# Building tasks

Model of `TaskBuilder` and of the conversion of a user-facing frequency into the internal iterator,
`/repo/src/timer/task.rs:139-257, 663-1031`, with the constants of `/repo/src/prelude.rs:86-89` and
the candies of `/repo/src/utils/convenience.rs:112-186`.
-/

namespace DelayTimer

/-- Outcome of a Rust call: value, `Err`, or panic. -/
inductive Outcome (α : Type) where
  | ok (a : α)
  | error
  | panic

/-- Monadic bind, the `?` of Rust. -/
def Outcome.bind {α β : Type} : Outcome α → (α → Outcome β) → Outcome β
  | .ok a, f => f a
  | .error, _ => .error
  | .panic, _ => .panic

/-- `u64` value range. -/
def U64_SIZE : Nat := 18446744073709551616

/-- `a * b` on `u64`: panics with overflow checks, wraps without. -/
def mulU64 (overflowChecks : Bool) (a b : Nat) : Outcome Nat :=
  if a * b < U64_SIZE then .ok (a * b)
  else if overflowChecks then .panic else .ok (a * b % U64_SIZE)

/-- `a + b` on `u64`. -/
def addU64 (overflowChecks : Bool) (a b : Nat) : Outcome Nat :=
  if a + b < U64_SIZE then .ok (a + b)
  else if overflowChecks then .panic else .ok ((a + b) % U64_SIZE)

/-- `StepBy<RangeFrom<u64>>::next` with and without overflow checks. -/
def SecondsState.nextU64 (oc : Bool) (s : SecondsState) : Outcome (Nat × SecondsState) :=
  if oc && s.overflows then .panic else .ok s.next

/-- The `k`-th answer (from 0) of the 64-bit iterator. -/
def SecondsState.nthU64 (oc : Bool) : Nat → SecondsState → Outcome Nat
  | 0, s => (s.nextU64 oc).bind fun r => .ok r.1
  | k + 1, s => (s.nextU64 oc).bind fun r => SecondsState.nthU64 oc k r.2

/-- `ONE_SECOND`, `ONE_MINUTE`, `ONE_HOUR`, `ONE_DAY`, src/prelude.rs:86-89. -/
def ONE_SECOND : Nat := 1
def ONE_MINUTE : Nat := ONE_SECOND * 60
def ONE_HOUR : Nat := ONE_MINUTE * 60
def ONE_DAY : Nat := ONE_HOUR * 24

/-- `FrequencyCronStr`, src/timer/task.rs:153-161. -/
inductive FrequencyCronStr where
  | once (s : String)
  | repeated (s : String)
  | countDown (n : Nat) (s : String)
deriving DecidableEq

/-- `FrequencySeconds`, src/timer/task.rs:165-172. -/
inductive FrequencySeconds where
  | once (secs : Nat)
  | repeated (secs : Nat)
  | countDown (n secs : Nat)
deriving DecidableEq

/-- `FrequencyUnify`, src/timer/task.rs:140-144. -/
inductive FrequencyUnify where
  | cron (f : FrequencyCronStr)
  | seconds (f : FrequencySeconds)
deriving DecidableEq

/-- `ScheduleIteratorTimeZone`, src/timer/task.rs:261-269 (offset in seconds). -/
inductive TimeZone where
  | utc
  | local
  | fixedOffset (offset : Int)
deriving DecidableEq, Repr

/-- `TaskBuilder`, src/timer/task.rs:663-680. -/
structure TaskBuilder where
  frequency : FrequencyUnify
  taskId : Nat
  maximumRunningTime : Option Nat
  maximumParallelRunnableNum : Option Nat
  timeZone : TimeZone
  buildByCandyStr : Bool
deriving DecidableEq

/-- `TaskBuilder::default` (derived): `FrequencySeconds::default` is `Once(ONE_MINUTE)`,
src/timer/task.rs:146-150, 180-184; the default time zone is `Local`. -/
def TaskBuilder.default : TaskBuilder where
  frequency := .seconds (.once ONE_MINUTE)
  taskId := 0
  maximumRunningTime := none
  maximumParallelRunnableNum := none
  timeZone := .local
  buildByCandyStr := false

/-- `set_task_id`, src/timer/task.rs:752-756. -/
def TaskBuilder.setTaskId (b : TaskBuilder) (id : Nat) : TaskBuilder := { b with taskId := id }

/-- `set_maximum_running_time`, src/timer/task.rs:759-763. -/
def TaskBuilder.setMaximumRunningTime (b : TaskBuilder) (n : Nat) : TaskBuilder :=
  { b with maximumRunningTime := some n }

/-- `set_maximum_parallel_runnable_num`, src/timer/task.rs:766-773. -/
def TaskBuilder.setMaximumParallelRunnableNum (b : TaskBuilder) (n : Nat) : TaskBuilder :=
  { b with maximumParallelRunnableNum := some n }

/-- `set_schedule_iterator_time_zone`, src/timer/task.rs:776-783. -/
def TaskBuilder.setTimeZone (b : TaskBuilder) (z : TimeZone) : TaskBuilder := { b with timeZone := z }

/-! ### Setters by cron string, src/timer/task.rs:845-868 -/

def TaskBuilder.onceByCronStr (b : TaskBuilder) (s : String) : TaskBuilder :=
  { b with frequency := .cron (.once s) }
def TaskBuilder.repeatedByCronStr (b : TaskBuilder) (s : String) : TaskBuilder :=
  { b with frequency := .cron (.repeated s) }
def TaskBuilder.countDownByCronStr (b : TaskBuilder) (s : String) (n : Nat) : TaskBuilder :=
  { b with frequency := .cron (.countDown n s) }

/-! ### Setters by seconds, src/timer/task.rs:874-902 -/

def TaskBuilder.onceBySeconds (b : TaskBuilder) (secs : Nat) : TaskBuilder :=
  { b with frequency := .seconds (.once secs) }
def TaskBuilder.repeatedBySeconds (b : TaskBuilder) (secs : Nat) : TaskBuilder :=
  { b with frequency := .seconds (.repeated secs) }
def TaskBuilder.countDownBySeconds (b : TaskBuilder) (secs n : Nat) : TaskBuilder :=
  { b with frequency := .seconds (.countDown n secs) }

/-! ### Setters by minutes, hours and days, src/timer/task.rs:907-1013 -/

def TaskBuilder.onceByMinutes (oc : Bool) (b : TaskBuilder) (k : Nat) : Outcome TaskBuilder :=
  (mulU64 oc ONE_MINUTE k).bind fun x => .ok { b with frequency := .seconds (.once x) }
def TaskBuilder.repeatedByMinutes (oc : Bool) (b : TaskBuilder) (k : Nat) : Outcome TaskBuilder :=
  (mulU64 oc ONE_MINUTE k).bind fun x => .ok { b with frequency := .seconds (.repeated x) }
def TaskBuilder.countDownByMinutes (oc : Bool) (b : TaskBuilder) (k n : Nat) : Outcome TaskBuilder :=
  (mulU64 oc ONE_MINUTE k).bind fun x => .ok { b with frequency := .seconds (.countDown n x) }
def TaskBuilder.onceByHours (oc : Bool) (b : TaskBuilder) (k : Nat) : Outcome TaskBuilder :=
  (mulU64 oc ONE_HOUR k).bind fun x => .ok { b with frequency := .seconds (.once x) }
def TaskBuilder.repeatedByHours (oc : Bool) (b : TaskBuilder) (k : Nat) : Outcome TaskBuilder :=
  (mulU64 oc ONE_HOUR k).bind fun x => .ok { b with frequency := .seconds (.repeated x) }
def TaskBuilder.countDownByHours (oc : Bool) (b : TaskBuilder) (k n : Nat) : Outcome TaskBuilder :=
  (mulU64 oc ONE_HOUR k).bind fun x => .ok { b with frequency := .seconds (.countDown n x) }
def TaskBuilder.onceByDays (oc : Bool) (b : TaskBuilder) (k : Nat) : Outcome TaskBuilder :=
  (mulU64 oc ONE_DAY k).bind fun x => .ok { b with frequency := .seconds (.once x) }
def TaskBuilder.repeatedByDays (oc : Bool) (b : TaskBuilder) (k : Nat) : Outcome TaskBuilder :=
  (mulU64 oc ONE_DAY k).bind fun x => .ok { b with frequency := .seconds (.repeated x) }
def TaskBuilder.countDownByDays (oc : Bool) (b : TaskBuilder) (k n : Nat) : Outcome TaskBuilder :=
  (mulU64 oc ONE_DAY k).bind fun x => .ok { b with frequency := .seconds (.countDown n x) }

/-- `set_frequency_once_by_timestamp_seconds` called at time `now`, src/timer/task.rs:1019-1027. -/
def TaskBuilder.onceByTimestampSeconds (b : TaskBuilder) (now x : Nat) : TaskBuilder :=
  { b with frequency := .seconds (.once ((checkedSub x now).getD ONE_SECOND)) }

/-- `CandyCron` and its conversion, src/utils/convenience.rs:131-163. -/
inductive CandyCron where
  | secondly | minutely | hourly | daily | weekly | monthly | yearly
deriving DecidableEq

def CandyCron.str : CandyCron → String
  | .secondly => "@secondly"
  | .minutely => "@minutely"
  | .hourly => "@hourly"
  | .daily => "@daily"
  | .weekly => "@weekly"
  | .monthly => "@monthly"
  | .yearly => "@yearly"

/-- `CandyFrequency`, src/utils/convenience.rs:167-174, with the candy already converted into its
string (`Into<CandyCronStr>` is user-extensible). `CountDown` carries a `u32`. -/
inductive CandyFrequency where
  | once (s : String)
  | repeated (s : String)
  | countDown (n : Nat) (s : String)

/-- `set_frequency_by_candy`, src/timer/task.rs:728-750. `exec_count as u64` widens. -/
def TaskBuilder.byCandy (b : TaskBuilder) (f : CandyFrequency) : TaskBuilder :=
  { b with
    buildByCandyStr := true
    frequency := .cron (match f with
      | .once s => .once s
      | .repeated s => .repeated s
      | .countDown n s => .countDown n s) }

/-- `((timestamp() + seconds)..).step_by(seconds as usize)` after the zero check,
src/timer/task.rs:225-252. 64-bit `usize`. -/
def secondsState (oc : Bool) (now secs : Nat) : Outcome SecondsState :=
  if secs = 0 then .error
  else (addU64 oc now secs).bind fun x => .ok (SecondsState.new x secs)

/-- `FrequencyInner::try_from`, src/timer/task.rs:200-257. `analyze` stands for
`analyze_cron_expression` (`none` is `Err`), modelled in `Model/CronCache`. -/
def buildFrequency (oc : Bool) (now : Nat) (analyze : TimeZone → String → Option CronIter)
    (z : TimeZone) : FrequencyUnify → Outcome FrequencyInner
  | .cron (.once s) =>
    match analyze z s with
    | some c => .ok (.cronCountDown 1 c)
    | none => .error
  | .cron (.repeated s) =>
    match analyze z s with
    | some c => .ok (.cronRepeated c)
    | none => .error
  | .cron (.countDown n s) =>
    match analyze z s with
    | some c => .ok (.cronCountDown n c)
    | none => .error
  | .seconds (.once secs) => (secondsState oc now secs).bind fun x => .ok (.secondsCountDown 1 x)
  | .seconds (.repeated secs) => (secondsState oc now secs).bind fun x => .ok (.secondsRepeated x)
  | .seconds (.countDown n secs) =>
    (secondsState oc now secs).bind fun x => .ok (.secondsCountDown n x)

/-- `spawn_routine` / `spawn_async_routine`, src/timer/task.rs:786-826, called at time `now`. -/
def TaskBuilder.spawn (oc : Bool) (now : Nat) (analyze : TimeZone → String → Option CronIter)
    (b : TaskBuilder) (routine : Nat) : Outcome Task :=
  (buildFrequency oc now analyze b.timeZone b.frequency).bind fun f => .ok {
    taskId := b.taskId
    routine := routine
    frequency := f
    maximumRunningTime := b.maximumRunningTime
    cylinderLine := 0
    valid := true
    maximumParallelRunnableNum := b.maximumParallelRunnableNum }

end DelayTimer
