import Verif.Model.Slot

/-!
# The running timer as a transition system

Scheduler thread, event thread, running bodies, sweeper and API callers of
`/repo/src/timer/{timer_core,event_handle,task}.rs`, `/repo/src/entity.rs` and
`/repo/src/timer/runtime_trace/*.rs`.

`step env s l` performs the atomic action `l`; `none` means that the action is not enabled.
-/

namespace DelayTimer

/-! ## Constants -/

/-- `state::instance::*`, src/timer/runtime_trace/state.rs. -/
def RUNNING : Nat := 2
def COMPLETED : Nat := 4
def CANCELLED : Nat := 8
def TIMEOUT : Nat := 16

/-- `state::instance_chain::*`, src/timer/runtime_trace/state.rs. -/
def LIVING : Nat := 2
def DROPPED : Nat := 4
def ABANDONED : Nat := 8

/-! ## Data -/

/-- Point update of a map. `DashMap`/`HashMap` with integer keys are modelled as functions. -/
def set {α : Type} (f : Nat → α) (k : Nat) (v : α) : Nat → α := fun x => if x = k then v else f x

/-- Point update of a map with `i64` keys. -/
def setI {α : Type} (f : Int → α) (k : Int) (v : α) : Int → α := fun x => if x = k then v else f x

/-- `Instance`, src/timer/runtime_trace/task_instance.rs:14-21.  `hdr` is the identity of the shared
`Arc<InstanceHeader>`; its contents are `St.hdrState`. -/
structure Instance where
  hdr : Nat
  taskId : Nat
  recordId : Int
deriving DecidableEq, Repr

/-- `TaskInstancesChainMaintainer`, src/timer/runtime_trace/task_instance.rs:78-82.  `chain` is the
identity of the chain (its shared `inner_state` is `St.chainState`, its channel `St.chainQueue`). -/
structure Maintainer where
  chain : Nat
  innerList : List Instance

/-- `TaskMark`, src/timer/task.rs:20-30. -/
structure TaskMark where
  taskId : Nat
  slotMark : Nat
  parallelRunnableNum : Nat
  maintainer : Option Maintainer

/-- `DelayTaskHandlerBox`, src/timer/runtime_trace/task_handle.rs:149-161, without the handler
object (an instance is identified by its record id). -/
structure HandlerBox where
  taskId : Nat
  recordId : Int
  startTime : Nat
  endTime : Option Nat
deriving DecidableEq, Repr

/-- `RecycleUnit`, src/timer/runtime_trace/sweeper.rs:16-25. -/
structure RecycleUnit where
  deadline : Nat
  taskId : Nat
  recordId : Int
deriving DecidableEq, Repr

/-- `FinishTaskBody`, src/timer/timer_core.rs:105-110; `finish_output` is always `None` in the crate
(src/timer/task.rs:593,612,649,669) and omitted. -/
structure FinishTaskBody where
  taskId : Nat
  recordId : Int
  finishTime : Nat
deriving DecidableEq, Repr

/-- `TimerEvent`, src/timer/timer_core.rs:124-146.  The maintainer travelling with `InsertTask` is
always fresh, hence given by its chain identity. -/
inductive TimerEvent where
  | stopTimer
  | addTask (t : Task)
  | insertTask (t : Task) (chain : Nat)
  | updateTask (t : Task)
  | removeTask (id : Nat)
  | cancelTask (id : Nat) (rec : Int)
  | timeoutTask (id : Nat) (rec : Int)
  | finishTask (b : FinishTaskBody)
  | appendTaskHandle (id : Nat) (box : HandlerBox)
  | advanceTask (id : Nat)

/-- The observable part of an event, used in the ghost log only. -/
inductive Tag where
  | stop
  | add (id : Nat)
  | insert (id : Nat) (chain : Nat)
  | update (id : Nat)
  | remove (id : Nat)
  | advance (id : Nat)
  | cancel (id : Nat) (rec : Int)
  | timeout (id : Nat) (rec : Int)
  | finish (id : Nat) (rec : Int)
  | append (id : Nat) (rec : Int)
deriving DecidableEq, Repr

def TimerEvent.tag : TimerEvent → Tag
  | .stopTimer => .stop
  | .addTask t => .add t.taskId
  | .insertTask t c => .insert t.taskId c
  | .updateTask t => .update t.taskId
  | .removeTask id => .remove id
  | .cancelTask id r => .cancel id r
  | .timeoutTask id r => .timeout id r
  | .finishTask b => .finish b.taskId b.recordId
  | .appendTaskHandle id b => .append id b.recordId
  | .advanceTask id => .advance id

/-- `PublicEvent`, src/utils/status_report.rs:117-126. -/
inductive PublicEvent where
  | removeTask (id : Nat)
  | runningTask (id : Nat) (rec : Int)
  | finishTask (b : FinishTaskBody)
  | timeoutTask (id : Nat) (rec : Int)
deriving DecidableEq, Repr

/-- `PublicEvent::try_from(&TimerEvent)`, src/utils/status_report.rs:128-149. -/
def publicOf : TimerEvent → Option PublicEvent
  | .removeTask id => some (.removeTask id)
  | .appendTaskHandle _ b => some (.runningTask b.taskId b.recordId)
  | .finishTask b => some (.finishTask b)
  | .timeoutTask id r => some (.timeoutTask id r)
  | _ => none

/-- Effects visible from outside, newest first in `St.log` (ghost).

* `queued` — an event was put on the event channel (an accepted API call, or an internal one)
* `attempted id tick` — the scheduler took the task out of the wheel to run it
* `started id routine rec tick ts` — a body was started, at scheduler iteration `tick`, whose
  `timestamp()` reading is `ts`
* `skipped id tick` — the parallel limit suppressed a run
* `bodyEnded id rec` — the body of a run returned
* `bodyPanicked id rec` — the body of a run panicked
* `stopped id rec` — the instance's handler was taken out of the books and told to quit
* `dispatched tag res` — an event was dispatched with result `res` (`none` is `Err`)
* `swept u now` — the sweeper emitted the time-out of `u` at clock `now`
* `stateSet hdr old new` — an instance state cell was written
* `delivered chain inst` — `TaskInstancesChain::next*` returned an instance
* `expired chain` — `TaskInstancesChain::next*` returned `Expired`
* `halted` — the scheduler left its loop -/
inductive Obs where
  | queued (t : Tag)
  | attempted (id tick : Nat)
  | started (id routine : Nat) (rec : Int) (tick ts : Nat)
  | skipped (id tick : Nat)
  | bodyEnded (id : Nat) (rec : Int)
  | bodyPanicked (id : Nat) (rec : Int)
  | stopped (id : Nat) (rec : Int)
  | dispatched (t : Tag) (res : Option Bool)
  | swept (u : RecycleUnit) (now : Nat)
  | stateSet (hdr old new : Nat)
  | delivered (chain : Nat) (i : Instance)
  | expired (chain : Nat)
  | halted
deriving DecidableEq, Repr

/-- Program counter of the scheduler thread. `pending` are the ids still to be handled in this
iteration. -/
inductive TPC where
  /-- loop head, src/timer/timer_core.rs:200-204 -/
  | head
  /-- about to store `global_time`, timer_core.rs:206-208 -/
  | store
  /-- about to run `arrival_time_tasks` on the current slot, timer_core.rs:218-223 -/
  | arrive
  /-- the `for task_id in task_ids` loop, timer_core.rs:235-253 -/
  | batch (pending : List Nat)
  /-- start of `maintain_task`, timer_core.rs:296-324 -/
  | check (pending : List Nat) (t : Task)
  /-- about to spawn the body, timer_core.rs:326-344 -/
  | spawn (pending : List Nat) (t : Task) (rec : Int)
  /-- about to send `AppendTaskHandle`, timer_core.rs:346 -/
  | append (pending : List Nat) (t : Task) (box : HandlerBox)
  /-- about to open the finish gate, timer_core.rs:348-353 -/
  | gate (pending : List Nat) (t : Task) (rec : Int)
  /-- start of `handle_task`, timer_core.rs:368-394 -/
  | rearm (pending : List Nat) (t : Task) (updateRunnableNum : Bool)
  /-- second half of `handle_task`, timer_core.rs:396-407 -/
  | mark (pending : List Nat) (id slot : Nat) (updateRunnableNum : Bool)
  /-- the loop was left, timer_core.rs:203 -/
  | halted
  /-- the scheduler thread panicked -/
  | panicked

/-- Program counter of the event thread. -/
inductive EPC where
  /-- waiting in `recv`, src/timer/event_handle.rs:170,194 -/
  | idle
  /-- `add_task` after reading the second hand, event_handle.rs:276 -/
  | add1 (t : Task) (chain : Option Nat) (hand : Nat)
  /-- `add_task` after reading `global_time`, event_handle.rs:282 -/
  | add2 (t : Task) (chain : Option Nat) (hand exec ts : Nat)
  /-- `add_task` after inserting into the slot, event_handle.rs:297-311 -/
  | add3 (tag : Tag) (mark : TaskMark)
  /-- `RemoveTask` between the two maps, event_handle.rs:232-234 -/
  | remove (id : Nat) (ok : Bool)
  /-- `advance_task` after taking the task out, event_handle.rs:361 -/
  | adv1 (t : Task)
  /-- `advance_task` after reading the second hand, event_handle.rs:363 -/
  | adv2 (t : Task) (hand : Nat)

/-- Program counter of the sweeper task, src/timer/runtime_trace/sweeper.rs:91-132. -/
inductive SPC where
  /-- sleeping in `yield_for_while` until the given time -/
  | idle (wake : Nat)
  /-- inside the loop with the heap locked: clock reading and remaining iterations -/
  | active (now budget : Nat)
deriving DecidableEq, Repr

/-- A caller of `TaskInstance::cancel_with_wait*`,
src/timer/runtime_trace/task_instance.rs:147-179. -/
inductive Waiter where
  | none
  /-- after `cancel()` returned `Ok`, before `listen()` -/
  | sent (hdr : Nat)
  /-- after `listen()`, blocked in `wait` -/
  | listening (hdr : Nat)
  /-- notified, about to read the state -/
  | woken (hdr : Nat)
  /-- returned `Ok(state)` -/
  | returned (state : Nat)
  /-- `cancel_with_wait_timeout` returned `DisCancelTimeOut` -/
  | timedOut
deriving DecidableEq, Repr

/-- A spawned run: the future built by `Routine::spawn_by_*` (src/timer/task.rs:580-678). `gate` is
the `could_send_finish_event` channel (timer_core.rs:326,348). `bodyDone`: the future has got past the
user's body; `lost`: a panic of the body has unwound the future, which therefore never continues. -/
structure RtInst where
  taskId : Nat
  routine : Nat
  gate : Bool
  bodyDone : Bool
  finishSent : Bool
  lost : Bool
deriving DecidableEq, Repr

/-- The two implementors of `Routine`, src/timer/task.rs:564-570. -/
inductive RoutineKind where
  | asyncFn
  | syncFn
deriving DecidableEq, Repr

/-- `RuntimeKind`, src/entity.rs:136-145. -/
inductive RuntimeKind where
  | smol
  | tokio
deriving DecidableEq, Repr

/-- Does the future spawned for a run get past a panic of the user's body?
`AsyncFn`, both runtimes: `user_future.await` runs inside the future, the panic unwinds it (task.rs:592,611).
`SyncFn` on tokio: the join handle yields an `Err`, which is logged (task.rs:646-648).
`SyncFn` on smol: awaiting the handle of a panicked blocking task panics in turn (task.rs:668). -/
def survivesPanic : RoutineKind → RuntimeKind → Bool
  | .asyncFn, .tokio => false
  | .asyncFn, .smol => false
  | .syncFn, .tokio => true
  | .syncFn, .smol => false

/-- The environment. -/
structure Env where
  /-- `timestamp()` as read for the n-th scheduler iteration, timer_core.rs:198,267 -/
  clock : Nat → Nat
  /-- `timestamp()` at construction, src/entity.rs:192 -/
  boot : Nat
  /-- integer overflow checks compiled in (debug profile) -/
  overflowChecks : Bool
  /-- `enable_status_report` was called, src/entity.rs:481 -/
  statusReport : Bool
  /-- built with `RUSTC_IS_NIGHTLY`, src/timer/runtime_trace/task_handle.rs:43,86 -/
  nightly : Bool
  /-- the runtime chosen in the builder, src/entity.rs:136-153; tokio unless changed -/
  runtime : RuntimeKind := .tokio
  /-- whether a routine was set by `spawn_async_routine` or `spawn_routine`, task.rs:788-830 -/
  kind : Nat → RoutineKind := fun _ => .asyncFn

/-- The whole state. -/
structure St where
  /-- `SharedHeader`, src/entity.rs:101-116 -/
  wheel : Nat → Option Slot
  flags : Nat → Option TaskMark
  secondHand : Nat
  globalTime : Nat
  motivation : Bool
  /-- ids produced by `id_generator` so far, newest first -/
  recs : List Int
  /-- the timer event channel -/
  chan : List TimerEvent
  /-- scheduler and event threads -/
  tpc : TPC
  epc : EPC
  /-- `TaskTrace`, src/timer/runtime_trace/task_handle.rs:14-16. A missing entry and an empty list
  behave alike (both make `quit_one_task_handler` fail) and are identified. -/
  trace : Nat → List HandlerBox
  /-- instance headers -/
  hdrState : Nat → Nat
  nextHdr : Nat
  /-- chains: shared state, channel contents, is the user's half still held -/
  chainState : Nat → Nat
  chainQueue : Nat → List Instance
  chainHeld : Nat → Bool
  nextChain : Nat
  /-- spawned runs by record id -/
  rt : Int → Option RtInst
  /-- sweeper -/
  unitChan : List RecycleUnit
  heap : List RecycleUnit
  spc : SPC
  /-- blocked callers -/
  waiters : Nat → Waiter
  /-- the public event channel -/
  reports : List PublicEvent
  /-- ghost: number of completed `lapse` calls -/
  ticks : Nat
  /-- ghost: history, newest first -/
  log : List Obs

/-- `SharedHeader::default`, src/entity.rs:187-207, `init_task_wheel`,
src/timer/event_handle.rs:520-528, and empty channels. -/
def init (env : Env) : St where
  wheel := fun i => if i < SLOT_COUNT then some [] else none
  flags := fun _ => none
  secondHand := 0
  globalTime := env.boot
  motivation := true
  recs := []
  chan := []
  tpc := .head
  epc := .idle
  trace := fun _ => []
  hdrState := fun _ => RUNNING
  nextHdr := 0
  chainState := fun _ => LIVING
  chainQueue := fun _ => []
  chainHeld := fun _ => false
  nextChain := 0
  rt := fun _ => none
  unitChan := []
  heap := []
  spc := .idle 0
  waiters := fun _ => .none
  reports := []
  ticks := 0
  log := []

/-! ## Scheduler thread -/

/-- Send on the timer event channel (`seed_timer_event`, src/entity.rs:388-390; `send_timer_event`,
src/timer/timer_core.rs:277-286, sweeper.rs:134-139). The channel is unbounded and its receiver
lives as long as the event thread, so sending never fails. -/
def push (s : St) (e : TimerEvent) : St :=
  { s with chan := s.chan ++ [e], log := .queued e.tag :: s.log }

/-- Loop head: `shared_motivation.load`, src/timer/timer_core.rs:202-204. -/
def tLoad (s : St) : Option St :=
  match s.tpc with
  | .head =>
    if s.motivation then some { s with tpc := .store }
    else some { s with tpc := .halted, log := .halted :: s.log }
  | _ => none

/-- `global_time.store(current_timestamp)`, src/timer/timer_core.rs:206-208. -/
def tStore (env : Env) (s : St) : Option St :=
  match s.tpc with
  | .store => some { s with globalTime := env.clock s.ticks, tpc := .arrive }
  | _ => none

/-- `arrival_time_tasks` on the current slot, src/timer/timer_core.rs:218-223; a missing slot makes
the loop `continue` without lapsing. -/
def tArrive (s : St) : Option St :=
  match s.tpc with
  | .arrive =>
    match s.wheel s.secondHand with
    | some sl =>
      some { s with
        wheel := set s.wheel s.secondHand (some sl.arrivalTimeTasks.2)
        tpc := .batch sl.arrivalTimeTasks.1 }
    | none => some { s with tpc := .head }
  | _ => none

/-- One turn of the `for task_id in task_ids` loop, src/timer/timer_core.rs:235-247. The order of
`task_ids` is the unspecified iteration order of a `HashMap`, so any pending id may be next. -/
def tPop (s : St) (id : Nat) : Option St :=
  match s.tpc with
  | .batch pending =>
    if id ∈ pending then
      match s.wheel s.secondHand with
      | some sl =>
        match sl.removeTask id with
        | (some t, sl') =>
          some { s with
            wheel := set s.wheel s.secondHand (some sl')
            tpc := .check (pending.erase id) t
            log := .attempted id s.ticks :: s.log }
        | (none, _) => some { s with tpc := .batch (pending.erase id) }
      | none => some { s with tpc := .batch (pending.erase id) }
    else none
  | _ => none

/-- What is assumed of the id `rec` that the generator returns after having returned `recs`
(`SharedHeader::id_generator`, src/entity.rs:115,195, a snowflake generator of another crate): it is none of the earlier
ones. A wall clock that is set back, and `update_id_generator_conf` (src/entity.rs:380-385), can make it smaller
than earlier ones, so an increasing sequence is assumed of nightly builds only, whose `quit_one_task_handler`
relies on it (see `C37_unsorted_differs`). -/
def freshId (env : Env) (recs : List Int) (rec : Int) : Bool :=
  recs.all fun r => decide (r ≠ rec) && (!env.nightly || decide (r < rec))

/-- `maintain_task` up to the decision to run, src/timer/timer_core.rs:296-324. `rec` is the id
drawn from the generator. -/
def tCheck (env : Env) (s : St) (rec : Int) : Option St :=
  match s.tpc with
  | .check pending t =>
    if freshId env s.recs rec then
      match t.maximumParallelRunnableNum with
      | none => some { s with recs := rec :: s.recs, tpc := .spawn pending t rec }
      | some m =>
        match s.flags t.taskId with
        | none => some { s with recs := rec :: s.recs, tpc := .batch pending }
        | some mark =>
          if m ≤ mark.parallelRunnableNum then
            some { s with
              recs := rec :: s.recs, tpc := .rearm pending t false
              log := .skipped t.taskId s.ticks :: s.log }
          else some { s with recs := rec :: s.recs, tpc := .spawn pending t rec }
    else none
  | _ => none

/-- `routine_exec` and building of the handler box, src/timer/timer_core.rs:326-344 and
src/timer/task.rs:584-677. `panics`: the user's closure itself (called on the scheduler thread for
async routines, task.rs:586,605) panics. -/
def tSpawn (env : Env) (s : St) (panics : Bool) : Option St :=
  match s.tpc with
  | .spawn pending t rec =>
    let ts := env.clock s.ticks
    if panics then some { s with tpc := .panicked }
    else
      some { s with
        tpc := .append pending t
          { taskId := t.taskId, recordId := rec, startTime := ts,
            endTime := t.getMaximumRunningTime ts }
        rt := setI s.rt rec
          (some { taskId := t.taskId, routine := t.routine, gate := false, bodyDone := false,
                  finishSent := false, lost := false })
        log := .started t.taskId t.routine rec s.ticks ts :: s.log }
  | _ => none

/-- `send_timer_event(AppendTaskHandle)`, src/timer/timer_core.rs:346. If the deadline overflowed and
overflow checks are on, building the box has panicked (src/timer/timer_core.rs:343, task.rs:1063) and the
scheduler thread is gone: it stays at this point for ever. Simplification: dropping the handler during the
unwinding cancels the run on smol; on tokio the run goes on, but its completion event is for a run that was
never registered and changes nothing (C33), so it is left out (the gate stays shut). -/
def tAppend (env : Env) (s : St) : Option St :=
  match s.tpc with
  | .append pending t box =>
    if env.overflowChecks && t.limitOverflows box.startTime then none
    else some { push s (.appendTaskHandle t.taskId box) with tpc := .gate pending t box.recordId }
  | _ => none

/-- `s.try_send(())` and `down_count_and_set_vaild`, src/timer/timer_core.rs:348-353. -/
def tGate (env : Env) (s : St) : Option St :=
  match s.tpc with
  | .gate pending t rec =>
    let rt := setI s.rt rec ((s.rt rec).map (fun r => { r with gate := true }))
    match t.downCountAndSetValid env.overflowChecks with
    | none => some { s with rt := rt, tpc := .panicked }
    | some (true, t') => some { s with rt := rt, tpc := .rearm pending t' true }
    | some (false, _) => some { s with rt := rt, tpc := .batch pending }
  | _ => none

/-- `next_second_hand` of the current iteration, src/timer/timer_core.rs:197,266 (in the first
iteration it is `second_hand + 1` without the modulus, the same value as the hand is 0). -/
def nextSecondHand (s : St) : Nat := (s.secondHand + 1) % SLOT_COUNT

/-- First half of `handle_task`, src/timer/timer_core.rs:368-394. If the alarm overflows and overflow checks are on,
asking for it has panicked (timer_core.rs:377) and the scheduler thread is gone: it stays at this point for ever. The
sum of steps and hand fits 64 bits as long as the clock shows more than 3600. -/
def tSlot (env : Env) (s : St) : Option St :=
  match s.tpc with
  | .rearm pending t upd =>
    if env.overflowChecks && t.alarmOverflows then none else
    match t.getNextExecTimestamp with
    | (none, _) => some { s with tpc := .batch pending }
    | (some exec, t') =>
      let step := (checkedSub exec (env.clock s.ticks)).getD 1
      let slot := (step + nextSecondHand s) % SLOT_COUNT
      match s.wheel slot with
      | none => some { s with tpc := .batch pending }
      | some sl =>
        some { s with
          wheel := set s.wheel slot (some (sl.addTask { t' with cylinderLine := step / SLOT_COUNT }))
          tpc := .mark pending t.taskId slot upd }
  | _ => none

/-- Second half of `handle_task`, src/timer/timer_core.rs:396-407; `set_slot_mark`,
src/timer/task.rs:45-48; `inc_parallel_runnable_num`, task.rs:66-69. -/
def tMark (s : St) : Option St :=
  match s.tpc with
  | .mark pending id slot upd =>
    match s.flags id with
    | none => some { s with tpc := .batch pending }
    | some m =>
      let m' := { m with
        slotMark := slot
        parallelRunnableNum := if upd then m.parallelRunnableNum + 1 else m.parallelRunnableNum }
      some { s with flags := set s.flags id (some m'), tpc := .batch pending }
  | _ => none

/-- End of an iteration: `shrink` (no effect on contents), `lapse` and the re-reading of the hand
and the clock, src/timer/timer_core.rs:255-267; `SencondHand::next`, src/entity.rs:59-64. -/
def tLapse (s : St) : Option St :=
  match s.tpc with
  | .batch [] =>
    some { s with
      secondHand := (s.secondHand + 1) % SLOT_COUNT
      ticks := s.ticks + 1
      tpc := .head }
  | _ => none

/-! ## Event thread -/

/-- Drop of a `TaskInstancesChainMaintainer`, src/timer/runtime_trace/task_instance.rs:268-273. -/
def dropMaintainer (s : St) (m : Option Maintainer) : St :=
  match m with
  | some m => { s with chainState := set s.chainState m.chain ABANDONED }
  | none => s

/-- Drop of a `TaskMark` removed from or overwritten in `task_flag_map`. -/
def dropMark (s : St) (m : Option TaskMark) : St :=
  match m with
  | some m => dropMaintainer s m.maintainer
  | none => s

/-- `TaskTrace::quit_one_task_handler`, stable version, on the list of one task id,
src/timer/runtime_trace/task_handle.rs:87-118. `none` is `Err`. -/
def quitStable (l : List HandlerBox) (rec : Int) : Option (List HandlerBox) :=
  match l.findIdx? (fun b => b.recordId == rec) with
  | none => none
  | some i =>
    match l.drop i with
    | [] => none
    | _ :: rest => some (l.take i ++ rest)

/-- `TaskTrace::quit_one_task_handler`, nightly version, task_handle.rs:44-84. -/
def quitNightly : List HandlerBox → Int → Option (List HandlerBox)
  | [], _ => none
  | b :: rest, rec =>
    if rec < b.recordId then none
    else if b.recordId = rec then some rest
    else (quitNightly rest rec).map (b :: ·)

/-- The version compiled in. -/
def quitOne (env : Env) (l : List HandlerBox) (rec : Int) : Option (List HandlerBox) :=
  if env.nightly then quitNightly l rec else quitStable l rec

/-- `Instance::notify_cancel_finish`, src/timer/runtime_trace/task_instance.rs:120-123: store the
state, wake all current listeners of the header's event. -/
def notifyInstance (s : St) (hdr st : Nat) : St :=
  { s with
    hdrState := set s.hdrState hdr st
    waiters := fun w => if s.waiters w = .listening hdr then .woken hdr else s.waiters w
    log := .stateSet hdr (s.hdrState hdr) st :: s.log }

/-- `TaskMark::notify_cancel_finish` on the mark `m` of `id` whose maintainer is `mt`,
src/timer/task.rs:105-137, including `get_task_instances_chain_maintainer`, task.rs:90-103. The
mark is written back. Returns whether the result is `Ok`. -/
def notifyMark (s : St) (id : Nat) (m : TaskMark) (mt : Maintainer) (rec : Int) (st : Nat) :
    Bool × St :=
  if s.chainState mt.chain = DROPPED then
    (false, { dropMaintainer s (some mt) with
      flags := set s.flags id (some { m with maintainer := none }) })
  else
    match mt.innerList.findIdx? (fun i => i.recordId == rec) with
    | none => (false, { s with flags := set s.flags id (some m) })
    | some k =>
      match mt.innerList.drop k with
      | [] => (false, { s with flags := set s.flags id (some m) })
      | inst :: rest =>
        let mt' := { mt with innerList := mt.innerList.take k ++ rest }
        (true, notifyInstance
          { s with flags := set s.flags id (some { m with maintainer := some mt' }) } inst.hdr st)

/-- `cancel_task::<INITIATIVE>`, src/timer/event_handle.rs:412-454. Result `none` is `Err`. -/
def cancelTask (env : Env) (initiative : Bool) (s : St) (id : Nat) (rec : Int) (st : Nat) :
    Option Bool × St :=
  match quitOne env (s.trace id) rec with
  | none => (if initiative then none else some false, s)
  | some l =>
    let s := { s with trace := set s.trace id l, log := .stopped id rec :: s.log }
    match s.flags id with
    | none => (if initiative then none else some false, s)
    | some m =>
      let m := { m with parallelRunnableNum := m.parallelRunnableNum - 1 }
      match m.maintainer with
      | none => (some true, { s with flags := set s.flags id (some m) })
      | some mt =>
        match notifyMark s id m mt rec st with
        | (true, s) => (some true, s)
        | (false, s) => (none, s)

/-- `finish_task`, src/timer/event_handle.rs:456-479. Note the early return (`?`) before the
decrement when the notification fails. -/
def finishTask (env : Env) (s : St) (id : Nat) (rec : Int) : Option Bool × St :=
  match quitOne env (s.trace id) rec with
  | none => (none, s)
  | some l =>
    let s := { s with trace := set s.trace id l, log := .stopped id rec :: s.log }
    match s.flags id with
    | none => (some true, s)
    | some m =>
      match m.maintainer with
      | none =>
        (some true, { s with
          flags := set s.flags id (some { m with parallelRunnableNum := m.parallelRunnableNum - 1 }) })
      | some mt =>
        match notifyMark s id m mt rec COMPLETED with
        | (true, s) =>
          (some true, { s with
            flags := set s.flags id
              ((s.flags id).map (fun m => { m with parallelRunnableNum := m.parallelRunnableNum - 1 })) })
        | (false, s) => (none, s)

/-- First part of `maintain_task_status`, src/timer/event_handle.rs:486-505, with
`get_task_instances_chain_maintainer`, src/timer/task.rs:90-103, and `push_instance`,
src/timer/runtime_trace/task_instance.rs:195-204. -/
def registerInstance (s : St) (id : Nat) (rec : Int) : St :=
  match s.flags id with
  | none => s
  | some m =>
    match m.maintainer with
    | none => s
    | some mt =>
      if s.chainState mt.chain = DROPPED then
        { dropMaintainer s (some mt) with
          flags := set s.flags id (some { m with maintainer := none }) }
      else
        let inst : Instance := { hdr := s.nextHdr, taskId := id, recordId := rec }
        { s with
          nextHdr := s.nextHdr + 1
          hdrState := set s.hdrState s.nextHdr RUNNING
          chainQueue := set s.chainQueue mt.chain (s.chainQueue mt.chain ++ [inst])
          flags := set s.flags id
            (some { m with maintainer := some { mt with innerList := mt.innerList ++ [inst] } }) }

/-- The recycle units sent for a handler box, src/timer/event_handle.rs:507-515. -/
def unitsOf (box : HandlerBox) : List RecycleUnit :=
  match box.endTime with
  | some d => [{ deadline := d, taskId := box.taskId, recordId := box.recordId }]
  | none => []

/-- `maintain_task_status`, src/timer/event_handle.rs:481-518, with `TaskTrace::insert`,
src/timer/runtime_trace/task_handle.rs:20-26. -/
def maintainTaskStatus (s : St) (id : Nat) (box : HandlerBox) : St :=
  let s := registerInstance s id box.recordId
  { s with
    unitChan := s.unitChan ++ unitsOf box
    trace := set s.trace id (s.trace id ++ [box]) }

/-- End of one turn of the `handle_event` loop, src/timer/event_handle.rs:173-188: the public event
is sent only if the dispatch result is `Ok(true)`. -/
def done (env : Env) (s : St) (tag : Tag) (pub : Option PublicEvent) (res : Option Bool) : St :=
  { s with
    epc := .idle
    reports :=
      match env.statusReport, res, pub with
      | true, some true, some p => s.reports ++ [p]
      | _, _, _ => s.reports
    log := .dispatched tag res :: s.log }

/-- Receiving an event and dispatching it up to the first access of state shared with the
scheduler, src/timer/event_handle.rs:166-263. -/
def eRecv (env : Env) (s : St) : Option St :=
  match s.epc, s.chan with
  | .idle, e :: rest =>
    let s := { s with chan := rest }
    match e with
    | .stopTimer => some (done env { s with motivation := false } e.tag (publicOf e) (some true))
    | .addTask t => some { s with epc := .add1 t none s.secondHand }
    | .insertTask t c => some { s with epc := .add1 t (some c) s.secondHand }
    | .updateTask t =>
      -- `update_task`, event_handle.rs:322-332
      let s' :=
        match s.flags t.taskId with
        | none => s
        | some m =>
          match s.wheel m.slotMark with
          | none => s
          | some sl => { s with wheel := set s.wheel m.slotMark (some (sl.updateTask t)) }
      some (done env s' e.tag (publicOf e) (some true))
    | .advanceTask id =>
      -- `advance_task`, event_handle.rs:335-361
      match s.flags id with
      | none => some (done env s e.tag (publicOf e) none)
      | some m =>
        match s.wheel m.slotMark with
        | none => some (done env s e.tag (publicOf e) none)
        | some sl =>
          match sl.removeTask id with
          | (none, _) => some (done env s e.tag (publicOf e) none)
          | (some t, sl') =>
            some { s with
              wheel := set s.wheel m.slotMark (some sl')
              epc := .adv1 { t with cylinderLine := 0 } }
    | .removeTask id =>
      -- `remove_task`, event_handle.rs:377-400
      match s.flags id with
      | none => some { s with epc := .remove id false }
      | some m =>
        match s.wheel m.slotMark with
        | none => some { s with epc := .remove id false }
        | some sl =>
          some { s with
            wheel := set s.wheel m.slotMark (some (sl.removeTask id).2)
            epc := .remove id true }
    | .cancelTask id rec =>
      let (r, s') := cancelTask env true s id rec CANCELLED
      some (done env s' e.tag (publicOf e) r)
    | .timeoutTask id rec =>
      let (r, s') := cancelTask env false s id rec TIMEOUT
      some (done env s' e.tag (publicOf e) r)
    | .appendTaskHandle id box =>
      some (done env (maintainTaskStatus s id box) e.tag (publicOf e) (some true))
    | .finishTask b =>
      let (r, s') := finishTask env s b.taskId b.recordId
      some (done env s' e.tag (publicOf e) r)
  | _, _ => none

/-- The maintainer that came with an `InsertTask`, src/timer/runtime_trace/task_instance.rs:57-61. -/
def freshMaintainer (chain : Option Nat) : Option Maintainer :=
  chain.map (fun c => { chain := c, innerList := [] })

/-- The tag of the add or insert being processed. -/
def addTag (t : Task) : Option Nat → Tag
  | none => .add t.taskId
  | some c => .insert t.taskId c

/-- Continuation of a dispatch after its first shared access, src/timer/event_handle.rs:211-235,
275-312, 361-374. If the first alarm overflows and overflow checks are on, `add_task` has panicked and the event thread
is gone: it stays at this point for ever. Simplification: the channel is closed then, so that later calls return errors
and later events of the other threads are dropped with a log line (timer_core.rs:281-284); here they are queued and never
looked at. -/
def eNext (env : Env) (s : St) : Option St :=
  match s.epc with
  | .idle => none
  | .add1 t chain hand =>
    -- `add_task` has panicked in `get_next_exec_timestamp` (event_handle.rs:279)
    if env.overflowChecks && t.alarmOverflows then none else
    match t.getNextExecTimestamp with
    | (none, _) =>
      -- `Err`: the maintainer that came with `InsertTask` is dropped
      some (done env (dropMaintainer s (freshMaintainer chain)) (addTag t chain) none none)
    | (some exec, t') => some { s with epc := .add2 t' chain hand exec s.globalTime }
  | .add2 t chain hand exec ts =>
    let timeSeed := (checkedSub exec ts).getD (t.taskId % SLOT_COUNT) + hand + 1
    let slot := timeSeed % SLOT_COUNT
    let t' := { t with cylinderLine := timeSeed / SLOT_COUNT }
    let wheel :=
      match s.wheel slot with
      | some sl => set s.wheel slot (some (sl.addTask t'))
      | none => s.wheel
    some { s with
      wheel := wheel
      epc := .add3 (addTag t chain)
        { taskId := t.taskId, slotMark := slot, parallelRunnableNum := 0,
          maintainer := freshMaintainer chain } }
  | .add3 tag m =>
    -- `record_task_mark`, event_handle.rs:315-319
    let s' := dropMark s (s.flags m.taskId)
    some (done env { s' with flags := set s'.flags m.taskId (some m) } tag none (some true))
  | .remove id ok =>
    -- `task_flag_map.remove`, event_handle.rs:234
    let s' := dropMark s (s.flags id)
    some (done env { s' with flags := set s'.flags id none } (.remove id) (some (.removeTask id))
      (if ok then some true else none))
  | .adv1 t => some { s with epc := .adv2 t s.secondHand }
  | .adv2 t hand =>
    match s.wheel (hand + 1) with
    | some sl =>
      some (done env { s with wheel := set s.wheel (hand + 1) (some (sl.addTask t)) }
        (.advance t.taskId) none (some true))
    | none => some (done env s (.advance t.taskId) none none)

/-! ## Running bodies -/

/-- The body of the run `rec` returns, src/timer/task.rs:592,611,646,668. -/
def rBody (s : St) (rec : Int) : Option St :=
  match s.rt rec with
  | some r =>
    if r.bodyDone || r.lost then none
    else some { s with
      rt := setI s.rt rec (some { r with bodyDone := true })
      log := .bodyEnded r.taskId rec :: s.log }
  | none => none

/-- The body of the run `rec` panics, src/timer/task.rs:592,611,646-648,668 (see `survivesPanic`). -/
def rPanic (env : Env) (s : St) (rec : Int) : Option St :=
  match s.rt rec with
  | some r =>
    if r.bodyDone || r.lost then none
    else if survivesPanic (env.kind r.routine) env.runtime then
      some { s with
        rt := setI s.rt rec (some { r with bodyDone := true })
        log := .bodyPanicked r.taskId rec :: s.log }
    else
      some { s with
        rt := setI s.rt rec (some { r with lost := true })
        log := .bodyPanicked r.taskId rec :: s.log }
  | none => none

/-- `TaskContext::finish_task`, src/timer/task.rs:518-534: waits for the gate, then sends. -/
def rFinish (s : St) (rec : Int) (now : Nat) : Option St :=
  match s.rt rec with
  | some r =>
    if r.bodyDone && r.gate && !r.finishSent then
      let b : FinishTaskBody := { taskId := r.taskId, recordId := rec, finishTime := now }
      let s' := push s (.finishTask b)
      some { s' with
        rt := setI s.rt rec (some { r with finishSent := true }) }
    else none
  | none => none

/-! ## Sweeper -/

/-- `add_recycle_unit`, src/timer/runtime_trace/sweeper.rs:149-154; needs the heap lock. -/
def sAdd (s : St) : Option St :=
  match s.spc, s.unitChan with
  | .idle _, u :: rest => some { s with unitChan := rest, heap := u :: s.heap }
  | _, _ => none

/-- Start of a round of `recycle`: lock, read the clock, sweeper.rs:98-103. Enabled once the sleep
of the previous round is over. -/
def sWake (s : St) (now : Nat) : Option St :=
  match s.spc with
  | .idle wake => if wake ≤ now then some { s with spc := .active now 200 } else none
  | .active _ _ => none

/-- One iteration that pops an expired unit and sends its time-out, sweeper.rs:103-120. The unit
must be a minimum of the heap; ties are broken arbitrarily (`RecycleUnit::cmp` compares deadlines
only, sweeper.rs:37-41). -/
def sPop (s : St) (u : RecycleUnit) : Option St :=
  match s.spc with
  | .active now (n + 1) =>
    if u ∈ s.heap ∧ (∀ v ∈ s.heap, u.deadline ≤ v.deadline) ∧ u.deadline ≤ now then
      let s' := push s (.timeoutTask u.taskId u.recordId)
      some { s' with
        heap := s.heap.erase u
        spc := .active now n
        log := .swept u now :: s'.log }
    else none
  | _ => none

/-- Smallest deadline in the heap (`peek`). -/
def heapMin : List RecycleUnit → Option Nat
  | [] => none
  | u :: rest =>
    match heapMin rest with
    | none => some u.deadline
    | some d => some (min u.deadline d)

/-- Leaving the loop and going to sleep, sweeper.rs:104-111,123-130 and `yield_for_while`,
sweeper.rs:167-178: until the smallest deadline when the loop stopped on an unexpired unit, else
three seconds. -/
def sRest (s : St) : Option St :=
  match s.spc with
  | .active now 0 => some { s with spc := .idle (now + 3) }
  | .active now (_ + 1) =>
    match heapMin s.heap with
    | none => some { s with spc := .idle (now + 3) }
    | some d => if d ≤ now then none else some { s with spc := .idle (now + (d - now)) }
  | .idle _ => none

/-! ## API callers -/

/-- `DelayTimer::{add_task, update_task, remove_task, advance_task, cancel_task, stop_delay_timer}`,
src/entity.rs:333-375. -/
inductive UserOp where
  | add (t : Task)
  | update (t : Task)
  | remove (id : Nat)
  | advance (id : Nat)
  | cancel (id : Nat) (rec : Int)
  | stop

def UserOp.event : UserOp → TimerEvent
  | .add t => .addTask t
  | .update t => .updateTask t
  | .remove id => .removeTask id
  | .advance id => .advanceTask id
  | .cancel id r => .cancelTask id r
  | .stop => .stopTimer

/-- `DelayTimer::insert_task`, src/entity.rs:339-349, with `task_instance_chain_pair`,
src/timer/runtime_trace/task_instance.rs:47-64. -/
def uInsert (s : St) (t : Task) : St :=
  let c := s.nextChain
  { push s (.insertTask t c) with
    nextChain := c + 1
    chainState := set s.chainState c LIVING
    chainQueue := set s.chainQueue c []
    chainHeld := set s.chainHeld c true }

/-- `TaskInstancesChain::next` and the non-blocking core of `next_with_wait` /
`next_with_async_wait`, task_instance.rs:208-242, 250-258. An empty queue blocks the waiting
variants and gives `DisGetEvent` in `next`: no observable effect, hence not enabled. -/
def uNext (s : St) (c : Nat) : Option St :=
  if s.chainHeld c then
    if s.chainState c = ABANDONED then some { s with log := .expired c :: s.log }
    else
      match s.chainQueue c with
      | [] => none
      | i :: rest =>
        some { s with chainQueue := set s.chainQueue c rest, log := .delivered c i :: s.log }
  else none

/-- Drop of a `TaskInstancesChain`, task_instance.rs:261-266. -/
def uDropChain (s : St) (c : Nat) : Option St :=
  if s.chainHeld c then
    some { s with chainState := set s.chainState c DROPPED, chainHeld := set s.chainHeld c false }
  else none

/-- `TaskInstance::cancel`, task_instance.rs:182-191; `none` is `DisCancel`. -/
def cancelInstance (s : St) (i : Instance) : Option St :=
  if s.hdrState i.hdr ≠ RUNNING then none else some (push s (.cancelTask i.taskId i.recordId))

/-- First statement of `cancel_with_wait*`, task_instance.rs:148,161,175, called by caller `w`. -/
def uCancel (s : St) (w : Nat) (i : Instance) : Option St :=
  match s.waiters w with
  | .none =>
    match cancelInstance s i with
    | none => none
    | some s' => some { s' with waiters := set s'.waiters w (.sent i.hdr) }
  | _ => none

/-- `event.listen()`, task_instance.rs:150,163-166,177. -/
def uListen (s : St) (w : Nat) : Option St :=
  match s.waiters w with
  | .sent h => some { s with waiters := set s.waiters w (.listening h) }
  | _ => none

/-- Return of `wait`, then `get_state`, task_instance.rs:150-151,167-168,177-178. -/
def uReturn (s : St) (w : Nat) : Option St :=
  match s.waiters w with
  | .woken h => some { s with waiters := set s.waiters w (.returned (s.hdrState h)) }
  | _ => none

/-- `wait_timeout` expires, task_instance.rs:167-169. -/
def uGiveUp (s : St) (w : Nat) : Option St :=
  match s.waiters w with
  | .listening _ => some { s with waiters := set s.waiters w .timedOut }
  | _ => none

/-! ## The system -/

inductive Label where
  | tLoad | tStore | tArrive | tPop (id : Nat) | tCheck (rec : Int) | tSpawn (panics : Bool)
  | tAppend | tGate | tSlot | tMark | tLapse
  | eRecv | eNext
  | rBody (rec : Int) | rPanic (rec : Int) | rFinish (rec : Int) (now : Nat)
  | sAdd | sWake (now : Nat) | sPop (u : RecycleUnit) | sRest
  | uSend (op : UserOp) | uInsert (t : Task)
  | uNext (c : Nat) | uDropChain (c : Nat)
  | uCancel (w : Nat) (i : Instance) | uListen (w : Nat) | uReturn (w : Nat) | uGiveUp (w : Nat)

/-- One atomic action. -/
def step (env : Env) (s : St) : Label → Option St
  | .tLoad => tLoad s
  | .tStore => tStore env s
  | .tArrive => tArrive s
  | .tPop id => tPop s id
  | .tCheck rec => tCheck env s rec
  | .tSpawn p => tSpawn env s p
  | .tAppend => tAppend env s
  | .tGate => tGate env s
  | .tSlot => tSlot env s
  | .tMark => tMark s
  | .tLapse => tLapse s
  | .eRecv => eRecv env s
  | .eNext => eNext env s
  | .rBody rec => rBody s rec
  | .rPanic rec => rPanic env s rec
  | .rFinish rec now => rFinish s rec now
  | .sAdd => sAdd s
  | .sWake now => sWake s now
  | .sPop u => sPop s u
  | .sRest => sRest s
  | .uSend op => some (push s op.event)
  | .uInsert t => some (uInsert s t)
  | .uNext c => uNext s c
  | .uDropChain c => uDropChain s c
  | .uCancel w i => uCancel s w i
  | .uListen w => uListen s w
  | .uReturn w => uReturn s w
  | .uGiveUp w => uGiveUp s w

/-- Performing a list of actions; `none` if one of them is not enabled. -/
def run (env : Env) (s : St) : List Label → Option St
  | [] => some s
  | l :: ls =>
    match step env s l with
    | some s' => run env s' ls
    | none => none

/-- Reachable states: those of any execution from the initial state. -/
def Reachable (env : Env) (s : St) : Prop := ∃ ls, run env (init env) ls = some s

end DelayTimer
