/-!
The locks of the timer and the order in which its threads take them.

`wheel_queue` and `task_flag_map` are `DashMap`s (src/entity.rs:44-46): arrays of shards, each behind a
reader-writer lock; a key belongs to one shard. `get` returns a `Ref` that holds the shard's read lock, `get_mut` a
`RefMut` that holds its write lock; `insert` and `remove` hold the write lock while they run. If the key is missing,
`get`/`get_mut` release the lock before they return. `id_generator` and `recycle_unit_heap` are async mutexes.

Not modelled: locks inside the channels and event listeners (`async-channel`, `event-listener`); they are leaves,
no code of the timer runs while they are held. All channels used while a lock is held are unbounded
(src/entity.rs:313, event_handle.rs:556, task_instance.rs:48), so sending never waits.
-/

namespace DelayTimer.Locks

inductive Lock where
  /-- `id_generator`, src/entity.rs:195 -/
  | idGen
  /-- `recycle_unit_heap`, src/timer/runtime_trace/sweeper.rs:59 -/
  | heap
  /-- a shard of `task_flag_map`, src/entity.rs:190 -/
  | flag (shard : Nat)
  /-- a shard of `wheel_queue`, src/timer/event_handle.rs:520-528 -/
  | wheel (shard : Nat)
deriving DecidableEq, Repr

inductive Mode where
  | read
  | write
deriving DecidableEq, Repr

inductive Op where
  | acq (l : Lock) (m : Mode)
  | rel (l : Lock)
deriving DecidableEq, Repr

/-- To which shard a key belongs; any assignment. -/
structure Shards where
  flag : Nat → Nat
  wheel : Nat → Nat

/-- `f` runs while the lock is held. -/
def holding (l : Lock) (m : Mode) (f : List Op) : List Op := .acq l m :: f ++ [.rel l]

/-! ## Event thread -/

/-- `add_task` and `record_task_mark`, src/timer/event_handle.rs:274-319, dispatched at 209-221. `slot`: the slot of
the first alarm, `none` if there is none (278-280). -/
def addTask (sh : Shards) (id : Nat) : Option Nat → List Op
  | none => []
  | some slot => holding (.wheel (sh.wheel slot)) .write [] ++ holding (.flag (sh.flag id)) .write []

/-- `update_task`, src/timer/event_handle.rs:322-332: the `Ref` lives to the end of the function. `slot`: the slot
mark, `none` if the id has no mark. -/
def updateTask (sh : Shards) (id : Nat) (slot : Option Nat) : List Op :=
  holding (.flag (sh.flag id)) .read (match slot with
    | none => []
    | some slot => holding (.wheel (sh.wheel slot)) .write [])

/-- `advance_task`, src/timer/event_handle.rs:335-374: the `Ref` lives to the end of the function, the first `RefMut`
to the end of the block (355). `found`: the task is in the slot. `hand`: the second hand. -/
def advanceTask (sh : Shards) (id : Nat) (slot : Option Nat) (found : Bool) (hand : Nat) : List Op :=
  holding (.flag (sh.flag id)) .read (match slot with
    | none => []
    | some slot =>
      holding (.wheel (sh.wheel slot)) .write [] ++
        if found then holding (.wheel (sh.wheel (hand + 1))) .write [] else [])

/-- `remove_task`, src/timer/event_handle.rs:377-400, and the removal of the mark after its return, 230-236. -/
def removeTask (sh : Shards) (id : Nat) (slot : Option Nat) : List Op :=
  holding (.flag (sh.flag id)) .read (match slot with
    | none => []
    | some slot => holding (.wheel (sh.wheel slot)) .write []) ++
  holding (.flag (sh.flag id)) .write []

/-- `cancel_task` (412-454), `finish_task` (456-480) and `maintain_task_status` (482-518): one `get_mut` on
`task_flag_map`, under which an instance is notified or pushed to an unbounded channel; nothing at all if the run is
unknown to `task_trace` (424-430, 458). -/
def touchMark (sh : Shards) (id : Nat) (known : Bool) : List Op :=
  if known then holding (.flag (sh.flag id)) .write [] else []

/-! ## Scheduler thread -/

/-- One access of `async_schedule` to its current slot, src/timer/timer_core.rs:217-224, 237-244 and 255-261. -/
def atSlot (sh : Shards) (slot : Nat) : List Op := holding (.wheel (sh.wheel slot)) .write []

/-- `handle_task`, src/timer/timer_core.rs:361-410: both guards live in their own block. `slot`: `none` if there is no
next alarm (371-373). -/
def handleTask (sh : Shards) (id : Nat) : Option Nat → List Op
  | none => []
  | some slot => holding (.wheel (sh.wheel slot)) .write [] ++ holding (.flag (sh.flag id)) .write []

/-- `maintain_task`, src/timer/timer_core.rs:290-356: the id generator's guard is a temporary (296-301), the `Ref` of
the parallel limit lives in its own block (307-317). `slot`: see `handleTask`; `none` also for a task that has run for
the last time (352). -/
def maintainTask (sh : Shards) (id : Nat) (limited : Bool) (slot : Option Nat) : List Op :=
  holding .idGen .write [] ++ (if limited then holding (.flag (sh.flag id)) .read [] else []) ++ handleTask sh id slot

/-! ## Sweeper and callers -/

/-- One round of `recycle`, src/timer/runtime_trace/sweeper.rs:98-129: time-outs are sent under the lock, on an
unbounded channel. -/
def recycle : List Op := holding .heap .write []

/-- One unit of `add_recycle_unit`, src/timer/runtime_trace/sweeper.rs:149-154. -/
def addRecycleUnit : List Op := holding .heap .write []

/-- `update_id_generator_conf`, src/entity.rs:380-385; the only function of the API that takes a lock. -/
def updateIdGenerator : List Op := holding .idGen .write []

/-! ## The system -/

inductive Role where
  | event
  | scheduler
  | sweeper
  | feeder
  | caller
deriving DecidableEq, Repr

/-- What a thread does between two points at which it holds no lock. -/
inductive Runs (sh : Shards) : Role → List Op → Prop where
  | add (id : Nat) (slot : Option Nat) : Runs sh .event (addTask sh id slot)
  | update (id : Nat) (slot : Option Nat) : Runs sh .event (updateTask sh id slot)
  | advance (id : Nat) (slot : Option Nat) (found : Bool) (hand : Nat) :
      Runs sh .event (advanceTask sh id slot found hand)
  | remove (id : Nat) (slot : Option Nat) : Runs sh .event (removeTask sh id slot)
  | touch (id : Nat) (known : Bool) : Runs sh .event (touchMark sh id known)
  | slot (slot : Nat) : Runs sh .scheduler (atSlot sh slot)
  | maintain (id : Nat) (limited : Bool) (slot : Option Nat) : Runs sh .scheduler (maintainTask sh id limited slot)
  | recycle : Runs sh .sweeper recycle
  | feed : Runs sh .feeder addRecycleUnit
  | conf : Runs sh .caller updateIdGenerator

/-- For every thread what is left of its current function, and the locks it holds. -/
structure LSt where
  rest : Nat → List Op
  held : Nat → List (Lock × Mode)

/-- All threads at rest. -/
def start : LSt := ⟨fun _ => [], fun _ => []⟩

def setAt {α : Type} (f : Nat → α) (t : Nat) (v : α) : Nat → α := fun u => if u = t then v else f u

/-- Two holders get in each other's way. -/
def conflict : Mode → Mode → Bool
  | .read, .read => false
  | _, _ => true

/-- One step. A request is granted at the earliest when no holder conflicts; it may wait longer (a waiting writer keeps
new readers out), which is why `Waits` in the property below does not look at the modes. -/
inductive LStep (sh : Shards) (role : Nat → Role) (s : LSt) : LSt → Prop where
  | begin (t : Nat) (p : List Op) (h : s.rest t = []) (hp : Runs sh (role t) p) :
      LStep sh role s { s with rest := setAt s.rest t p }
  | acq (t : Nat) (l : Lock) (m : Mode) (r : List Op) (h : s.rest t = .acq l m :: r)
      (hf : ∀ u m', (l, m') ∈ s.held u → conflict m m' = false) :
      LStep sh role s { rest := setAt s.rest t r, held := setAt s.held t ((l, m) :: s.held t) }
  | rel (t : Nat) (l : Lock) (r : List Op) (h : s.rest t = .rel l :: r) :
      LStep sh role s { rest := setAt s.rest t r, held := setAt s.held t ((s.held t).filter (fun x => x.1 ≠ l)) }

inductive LReachable (sh : Shards) (role : Nat → Role) : LSt → Prop where
  | start : LReachable sh role start
  | step {s s' : LSt} (h : LReachable sh role s) (hs : LStep sh role s s') : LReachable sh role s'

end DelayTimer.Locks
