import Verif.Model.System
import Verif.Spec.Alarm

/-!
Specification vocabulary for schedules. A log is newest first; the lists of ticks below are oldest
first.
-/

namespace DelayTimer.Spec

/-- The ticks at which a start of `k` was attempted. -/
def attempts (k : Nat) : List Obs → List Nat
  | [] => []
  | .attempted id n :: log => if id = k then attempts k log ++ [n] else attempts k log
  | _ :: log => attempts k log

/-- The ticks at which a body of `k` was started. -/
def startTicks (k : Nat) : List Obs → List Nat
  | [] => []
  | .started id _ _ n _ :: log => if id = k then startTicks k log ++ [n] else startTicks k log
  | _ :: log => startTicks k log

/-- The routines of the bodies of `k` that were started, oldest first. -/
def startRoutines (k : Nat) : List Obs → List Nat
  | [] => []
  | .started id r _ _ _ :: log => if id = k then startRoutines k log ++ [r] else startRoutines k log
  | _ :: log => startRoutines k log

/-- The tick of the attempt that follows one at tick `n` when the next alarm is `a`: as many ticks as
there are seconds left, plus one; two ticks if the alarm is already over. -/
def rearm (clock : Nat → Nat) (n a : Nat) : Nat :=
  if clock n ≤ a then n + (a - clock n) + 1 else n + 2

/-- The ticks of all attempts, given the first one and the alarms that follow. -/
def timetable (clock : Nat → Nat) (first : Nat) (alarms : Nat → Option Nat) : Nat → Option Nat
  | 0 => some first
  | j + 1 =>
    match timetable clock first alarms j, alarms j with
    | some n, some a => some (rearm clock n a)
    | _, _ => none

/-- The time table of a task that has just been run in tick `n`: its alarms, starting with the next. -/
def nextTable (clock : Nat → Nat) (n : Nat) (t : Task) (i : Nat) : Option Nat :=
  match alarm 0 t with
  | none => none
  | some a => timetable clock (rearm clock n a) (fun j => alarm (j + 1) t) i

/-- API calls that concern the scheduling of task `k`. -/
def Touches (k : Nat) : Label → Prop
  | .uSend (.add t) => t.taskId = k
  | .uSend (.update t) => t.taskId = k
  | .uSend (.remove id) => id = k
  | .uSend (.advance id) => id = k
  | .uInsert t => t.taskId = k
  | _ => False

instance (k : Nat) (l : Label) : Decidable (Touches k l) := by
  unfold Touches; split <;> infer_instance

/-- Events that concern the scheduling of task `k`. -/
def EventTouches (k : Nat) : TimerEvent → Prop
  | .addTask t => t.taskId = k
  | .insertTask t _ => t.taskId = k
  | .updateTask t => t.taskId = k
  | .removeTask id => id = k
  | .advanceTask id => id = k
  | _ => False

/-- The event thread is in the middle of an event that concerns the scheduling of `k` and may still
touch the wheel. -/
def BusyWith (k : Nat) : EPC → Prop
  | .add1 t _ _ => t.taskId = k
  | .add2 t _ _ _ _ => t.taskId = k
  | .adv1 t => t.taskId = k
  | .adv2 t _ => t.taskId = k
  | .remove id _ => id = k
  | _ => False

/-- No operation on `k` is queued or being processed. -/
structure Quiet (k : Nat) (s : St) : Prop where
  chan : ∀ e ∈ s.chan, ¬ EventTouches k e
  epc : ¬ BusyWith k s.epc

/-- A copy of `k` waits in the wheel. -/
def Waiting (k : Nat) (s : St) : Prop := ∃ i sl t, s.wheel i = some sl ∧ t ∈ sl ∧ t.taskId = k

/-- The scheduler is going to handle, or handling, `k` in its current iteration. -/
def Handling (k : Nat) : TPC → Prop
  | .batch p => k ∈ p
  | .check p t => t.taskId = k ∨ k ∈ p
  | .spawn p t _ => t.taskId = k ∨ k ∈ p
  | .append p t _ => t.taskId = k ∨ k ∈ p
  | .gate p t _ => t.taskId = k ∨ k ∈ p
  | .rearm p t _ => t.taskId = k ∨ k ∈ p
  | .mark p _ _ _ => k ∈ p
  | _ => False

/-- `k` is not scheduled. -/
structure Absent (k : Nat) (s : St) : Prop where
  wheel : ¬ Waiting k s
  sched : ¬ Handling k s.tpc

/-- The current iteration of the scheduler has not yet looked at its slot. -/
def BeforeLook : TPC → Prop
  | .head => True
  | .store => True
  | .arrive => True
  | .halted => True
  | _ => False

instance (p : TPC) : Decidable (BeforeLook p) := by unfold BeforeLook; split <;> infer_instance

/-- Between `s` and `s'` the first start attempt of `k` is at tick `D`: the wheel does not get past
`D` without it. -/
def NextAttemptAt (k D : Nat) (s s' : St) : Prop :=
  ∃ ns, attempts k s'.log = attempts k s.log ++ ns ∧ (ns = [] ∧ s'.ticks ≤ D ∨ ns.head? = some D ∧ D ≤ s'.ticks)

/-- The attempts made between `s` and `s'` are an initial part of the time table `T`. -/
def Following (k : Nat) (T : Nat → Option Nat) (s s' : St) : Prop :=
  ∃ ns, attempts k s'.log = attempts k s.log ++ ns ∧ ∀ i n, ns[i]? = some n → T i = some n

/-- The attempts made between `s` and `s'` are exactly the entries of the time table `T` that are due:
none is missing, none is extra, none is off. -/
def OnSchedule (k : Nat) (T : Nat → Option Nat) (s s' : St) : Prop :=
  ∃ ns, attempts k s'.log = attempts k s.log ++ ns ∧
    (∀ i n, ns[i]? = some n → T i = some n ∧ n ≤ s'.ticks) ∧
    ∀ i n, T i = some n → n < s'.ticks → ns[i]? = some n

/-- The starts made between `s` and `s'` are exactly the entries of the time table `T` that are due. -/
def StartsOnSchedule (k : Nat) (T : Nat → Option Nat) (s s' : St) : Prop :=
  ∃ ns, startTicks k s'.log = startTicks k s.log ++ ns ∧
    (∀ i n, ns[i]? = some n → T i = some n ∧ n ≤ s'.ticks) ∧
    ∀ i n, T i = some n → n < s'.ticks → ns[i]? = some n

/-- The first `r` entries of a time table, all of them for `none`. -/
def cut (r : Option Nat) (T : Nat → Option Nat) : Nat → Option Nat :=
  match r with
  | none => T
  | some r => fun i => if i < r then T i else none

/-- The parallel limit cannot interfere: there is none, or the task repeats forever and is known. -/
def NeverHeldBack (t : Task) (s : St) : Prop :=
  t.maximumParallelRunnableNum = none ∨ (runsLeft t = none ∧ s.flags t.taskId ≠ none)

/-- The tick of the first attempt of a task that is inserted in tick `n` (the hand being at `n % 3600`)
and whose first alarm is `d` seconds ahead. `before`: the wheel has not looked at its slot in this tick
yet. -/
def firstDue (n d : Nat) (before : Bool) : Nat :=
  if d % 3600 + n % 3600 + 1 < 3600 ∨ (d % 3600 = 3599 ∧ before = true) then n + d + 1
  else n + d + 1 + 3600

/-- The API call that hands `t` to the timer. -/
def HandsIn (t : Task) (l : Label) : Prop := l = .uSend (.add t) ∨ l = .uInsert t

/-- The scheduler has started (or skipped) a run of `k` in the current tick and is about to schedule `t`,
the only copy of `k`, anew; no operation on `k` is under way. -/
structure JustRun (k : Nat) (t : Task) (s : St) : Prop where
  tpc : ∃ p upd, s.tpc = .rearm p t upd
  id : t.taskId = k
  valid : t.valid = true
  alone : ¬ Waiting k s
  quiet : Quiet k s

/-- `add_task`/`insert_task` of the absent `k` has read the hand position `hand` and the time `ts`, and
is about to put `t`, whose first alarm is `exec`, into the wheel; no other operation on `k` is under
way. -/
structure AboutToInsert (k : Nat) (t : Task) (hand exec ts : Nat) (s : St) : Prop where
  epc : ∃ chain, s.epc = .add2 t chain hand exec ts
  id : t.taskId = k
  valid : t.valid = true
  absent : Absent k s
  quiet : ∀ e ∈ s.chan, ¬ EventTouches k e

/-- The clock shows one second more at every tick. -/
def Steady (clock : Nat → Nat) : Prop := ∀ n, clock (n + 1) = clock n + 1

/-- The wheel never ticks faster than the clock: any `m` ticks take at least `m - 1` seconds. -/
def Paced (clock : Nat → Nat) : Prop := ∀ n m, clock n + m ≤ clock (n + m) + 1

/-- The label is an API call that brings a task with id `k` into the timer. -/
def Brings (k : Nat) : Label → Prop
  | .uSend (.add t) => t.taskId = k
  | .uSend (.update t) => t.taskId = k
  | .uInsert t => t.taskId = k
  | _ => False

/-- The tasks with id `k` that an API call brings. -/
def broughtBy (k : Nat) : Label → List Task
  | .uSend (.add t) => if t.taskId = k then [t] else []
  | .uSend (.update t) => if t.taskId = k then [t] else []
  | .uInsert t => if t.taskId = k then [t] else []
  | _ => []

/-- The tasks with id `k` handed to the timer by a list of actions, by adding, inserting or updating. -/
def handed (k : Nat) (ls : List Label) : List Task := ls.flatMap (broughtBy k)

/-- The scheduler thread has panicked because the deadline of a run (see `tAppend`) or the next alarm of a task (see
`tSlot`) overflowed. -/
def Crashed (env : Env) (s : St) : Prop :=
  env.overflowChecks = true ∧
    ((∃ p t box m, s.tpc = .append p t box ∧ t.maximumRunningTime = some m ∧ 2 ^ 64 ≤ box.startTime + m) ∨
      ∃ p t upd, s.tpc = .rearm p t upd ∧ ¬ AlarmsFit 1 t)

/-- Running `t` cannot make the scheduler thread panic on an overflow, whatever the time, until it has been asked
for `n` alarms. -/
def Safe (env : Env) (n : Nat) (t : Task) : Prop :=
  env.overflowChecks = true → runsLeft t ≠ some 0 ∧
    (∀ m, t.maximumRunningTime = some m → ∀ n, env.clock n + m < 2 ^ 64) ∧ AlarmsFit n t

/-- Actions of the scheduler thread. -/
def ByScheduler : Label → Bool
  | .tLoad | .tStore | .tArrive | .tPop _ | .tCheck _ | .tSpawn _ | .tAppend | .tGate | .tSlot | .tMark | .tLapse => true
  | _ => false

/-- Whatever else happens, the scheduler thread never does anything any more. -/
def Gone (env : Env) (s : St) : Prop :=
  ∀ ls s', run env s ls = some s' → ∀ l, ByScheduler l = true → step env s' l = none

/-- What kills the scheduler thread: a closure panicked when it was called; or, in a build with overflow checks,
a task was started that had been handed in with a count of zero, or with a running time limit that could not be added
to the time of the start; or a task was attempted `n` times that had been handed in with `n + 1` alarms that do not all
fit 64 bits. -/
def Killed (env : Env) (ls : List Label) (log : List Obs) : Prop :=
  .tSpawn true ∈ ls ∨ (env.overflowChecks = true ∧
    ((∃ k rtn rec n ts, .started k rtn rec n ts ∈ log ∧
      ∃ t ∈ handed k ls, runsLeft t = some 0 ∨ ∃ m, t.maximumRunningTime = some m ∧ 2 ^ 64 ≤ ts + m) ∨
    ∃ k, attempts k log ≠ [] ∧ ∃ t ∈ handed k ls, ¬ AlarmsFit ((attempts k log).length + 1) t))

/-- The task that an API call adds. -/
def addedBy : Label → List Task
  | .uSend (.add t) => [t]
  | .uInsert t => [t]
  | _ => []

/-- The tasks added by a list of actions, with `add_task` or `insert_task`. -/
def added (ls : List Label) : List Task := ls.flatMap addedBy

/-- In a build with overflow checks every task added has a first alarm that, with the second after it, fits 64 bits. -/
def Addable (env : Env) (ls : List Label) : Prop := env.overflowChecks = true → ∀ t ∈ added ls, AlarmsFit 1 t

/-- Actions of the event thread. -/
def ByEvents : Label → Bool
  | .eRecv | .eNext => true
  | _ => false

/-- Whatever else happens, the event thread never does anything any more. -/
def Deaf (env : Env) (s : St) : Prop :=
  ∀ ls s', run env s ls = some s' → ∀ l, ByEvents l = true → step env s' l = none

/-- Every running time limit handed in under `k` can be added to every start time of `k` in 64 bits. -/
def LimitsFit (k : Nat) (ls : List Label) (log : List Obs) : Prop :=
  ∀ t ∈ handed k ls, ∀ m, t.maximumRunningTime = some m →
    ∀ rtn rec n ts, .started k rtn rec n ts ∈ log → ts + m < 2 ^ 64

end DelayTimer.Spec
