import Verif.Model.System
import Verif.Model.Locks

/-!
# The event thread, access by access

`Model/System.lean` lets the event thread do in one step what the code does in several accesses to shared memory, most
of them under a guard of `task_flag_map`. Here every such access is a step of its own, the guards are held from `get` or
`get_mut` to where they are dropped, and a thread that asks for a shard which another one holds has to wait. The steps of
all other threads are those of `Model/System.lean`: each of them is a single access, but for the two of the scheduler that
look into `task_flag_map`, which leave a guard to be dropped.

Simplifications. A `RefMut` gives exclusive access to its value, so that several writes to one value under one guard may
be taken together where no other shared memory is touched in between. An entry that is taken out of or replaced in
`task_flag_map` is dropped in the step that takes it out (`remove`, `insert`; event_handle.rs:234, 317). The entry of the ghost
log for the end of a dispatch is made when the last access to memory shared with the scheduler, the callers or the runs has
been made, that of `stopped` when the dispatch gets to the mark.
-/

namespace DelayTimer.Fine

open Locks (Shards Mode conflict)

/-- A guard of `task_flag_map`: the key asked for, and whether it came from `get` or `get_mut`. -/
structure Guard where
  id : Nat
  mode : Mode

/-- Does the guard of the other thread keep this one from getting the key? -/
def clash (sh : Shards) (g : Option Guard) (id : Nat) (m : Mode) : Bool :=
  match g with
  | none => false
  | some g => sh.flag g.id == sh.flag id && conflict g.mode m

/-- The three events that end a run, src/timer/event_handle.rs:237-262. -/
inductive How where
  | cancel
  | timeout
  | finish
deriving DecidableEq, Repr

/-- The state the instance is put into, event_handle.rs:238, 251, 466. -/
def How.state : How → Nat
  | .cancel => CANCELLED
  | .timeout => TIMEOUT
  | .finish => COMPLETED

/-- The result if the run is not in `task_trace`, event_handle.rs:424-430, 458. -/
def How.unknown : How → Option Bool
  | .cancel => none
  | .timeout => some false
  | .finish => none

/-- The result if the task has no mark, event_handle.rs:445-454, 473-478. -/
def How.unmarked : How → Option Bool
  | .cancel => none
  | .timeout => some false
  | .finish => some true

/-- `cancel_task` gives the place back before the notification, `finish_task` after it, event_handle.rs:435, 469. -/
def How.early : How → Bool
  | .cancel => true
  | .timeout => true
  | .finish => false

/-- An event that ends a run. -/
structure Stop where
  ev : TimerEvent
  id : Nat
  record : Int
  how : How

/-- `dec_parallel_runnable_num`, src/timer/task.rs:72-79. -/
def dec (m : TaskMark) : TaskMark := { m with parallelRunnableNum := m.parallelRunnableNum - 1 }

/-- Where the event thread is inside of a dispatch. -/
inductive Pos where
  /-- where `St.epc` says -/
  | level
  /-- an event is out of the channel, event_handle.rs:170 -/
  | took (e : TimerEvent)
  /-- `get` has returned a `Ref`, the slot mark is read, event_handle.rs:323-325, 336-347, 378-389 -/
  | looked (e : TimerEvent) (slot : Nat)
  /-- the handler is out of `task_trace`, event_handle.rs:422, 458; `old` was there before -/
  | quitted (k : Stop) (old : List HandlerBox)
  /-- `get_mut` has returned a `RefMut` on a mark with a maintainer, and an early decrement is made, event_handle.rs:432-437,
  460-463; the mark was `m` -/
  | locked (k : Stop) (old : List HandlerBox) (m : TaskMark) (mt : Maintainer)
  /-- the state of the chain was `cs`, the instance is out of the list, src/timer/task.rs:93-132 -/
  | found (k : Stop) (old : List HandlerBox) (m : TaskMark) (mt : Maintainer) (cs : Nat) (inst : Instance)
  /-- the state of the instance is stored, task_instance.rs:121; it was `was` -/
  | stored (k : Stop) (old : List HandlerBox) (m : TaskMark) (mt : Maintainer) (cs : Nat) (inst : Instance) (was : Nat)
  /-- notified; the late decrement is to be made, event_handle.rs:469 -/
  | uncounted (k : Stop)
  /-- `maintain_task_status` has a mark with a maintainer, event_handle.rs:488-491 -/
  | registering (id : Nat) (box : HandlerBox) (m : TaskMark) (mt : Maintainer)
  /-- the state of the chain was `cs`, task.rs:93-101 -/
  | pushing (id : Nat) (box : HandlerBox) (m : TaskMark) (mt : Maintainer) (cs : Nat)
  /-- the instance is sent, task_instance.rs:197-202 -/
  | listing (id : Nat) (box : HandlerBox) (m : TaskMark) (mt : Maintainer) (inst : Instance)
  /-- the block with the guard is left or about to be left, event_handle.rs:505 -/
  | units (id : Nat) (box : HandlerBox)
  /-- the recycle unit is sent, event_handle.rs:514 -/
  | tracing (id : Nat) (box : HandlerBox)
  /-- the dispatch is over, but for the guard and the report, event_handle.rs:175-182 -/
  | report (ps : List PublicEvent)

/-- The state: memory and threads as in `Model/System.lean`, the position inside of the dispatch, and the guards. -/
structure FSt where
  core : St
  pos : Pos
  /-- guard held by the event thread -/
  gE : Option Guard
  /-- guard held by the scheduler thread -/
  gT : Option Guard

/-- No guard, no dispatch. -/
def finit (env : Env) : FSt := { core := init env, pos := .level, gE := none, gT := none }

/-- The ghost entry for the end of a dispatch. -/
def logged (s : St) (e : TimerEvent) (res : Option Bool) : St := { s with log := .dispatched e.tag res :: s.log }

/-- What is still to be reported, event_handle.rs:173-182. -/
def late (env : Env) (e : TimerEvent) (res : Option Bool) : List PublicEvent :=
  match env.statusReport, res, publicOf e with
  | true, some true, some p => [p]
  | _, _, _ => []

/-- The end of a dispatch with the result `res`. -/
def ends (env : Env) (f : FSt) (s : St) (e : TimerEvent) (res : Option Bool) : FSt :=
  { f with core := logged s e res, pos := .report (late env e res) }

/-- The first access of `update_task`, `advance_task` and `remove_task`: `task_flag_map.get`. -/
def look (env : Env) (sh : Shards) (f : FSt) (e : TimerEvent) (id : Nat) : Option FSt :=
  if clash sh f.gT id .read then none
  else
    match f.core.flags id with
    | some m => some { f with pos := .looked e m.slotMark, gE := some ⟨id, .read⟩ }
    | none =>
      match e with
      | .updateTask _ => some (ends env f f.core e (some true))
      | .removeTask id => some { f with core := { f.core with epc := .remove id false }, pos := .level }
      | _ => some (ends env f f.core e none)

/-- The second one: `wheel_queue.get_mut`, event_handle.rs:327-329, 350-360, 391-394. -/
def atWheel (env : Env) (f : FSt) (e : TimerEvent) (slot : Nat) : Option FSt :=
  let s := f.core
  match e with
  | .updateTask t =>
    match s.wheel slot with
    | none => some (ends env f s e (some true))
    | some sl => some (ends env f { s with wheel := set s.wheel slot (some (sl.updateTask t)) } e (some true))
  | .advanceTask id =>
    match s.wheel slot with
    | none => some (ends env f s e none)
    | some sl =>
      match sl.removeTask id with
      | (none, _) => some (ends env f s e none)
      | (some t, sl') =>
        some { f with
          core := { s with wheel := set s.wheel slot (some sl'), epc := .adv1 { t with cylinderLine := 0 } }
          pos := .level }
  | .removeTask id =>
    match s.wheel slot with
    | none => some { f with core := { s with epc := .remove id false }, pos := .level }
    | some sl =>
      some { f with
        core := { s with wheel := set s.wheel slot (some (sl.removeTask id).2), epc := .remove id true }
        pos := .level }
  | _ => none

/-- `quit_one_task_handler`, on the event thread's own `task_trace`. -/
def quit (env : Env) (f : FSt) (k : Stop) : FSt :=
  match quitOne env (f.core.trace k.id) k.record with
  | none => ends env f f.core k.ev k.how.unknown
  | some l =>
    { f with core := { f.core with trace := set f.core.trace k.id l }, pos := .quitted k (f.core.trace k.id) }

/-- The entry for a run taken out of the books. -/
def stoppedLog (s : St) (k : Stop) : St := { s with log := .stopped k.id k.record :: s.log }

/-- `task_flag_map.get_mut` of `cancel_task` and `finish_task`. -/
def lockMark (env : Env) (sh : Shards) (f : FSt) (k : Stop) (old : List HandlerBox) : Option FSt :=
  if clash sh f.gT k.id .write then none
  else
    match f.core.flags k.id with
    | none => some (ends env f (stoppedLog f.core k) k.ev k.how.unmarked)
    | some m =>
      let g := { f with gE := some ⟨k.id, .write⟩ }
      match m.maintainer with
      | none =>
        some (ends env g (stoppedLog { f.core with flags := set f.core.flags k.id (some (dec m)) } k) k.ev (some true))
      | some mt =>
        some { g with
          core := { f.core with flags := set f.core.flags k.id (some (if k.how.early then dec m else m)) }
          pos := .locked k old m mt }

/-- `get_task_instances_chain_maintainer` and the search in the list, src/timer/task.rs:90-130. `m` is the mark as it was;
an early decrement is made already. -/
def loadChain (env : Env) (f : FSt) (k : Stop) (old : List HandlerBox) (m : TaskMark) (mt : Maintainer) : FSt :=
  let s := f.core
  let m' := if k.how.early then dec m else m
  if s.chainState mt.chain = DROPPED then
    ends env f (stoppedLog { s with
      chainState := set s.chainState mt.chain ABANDONED
      flags := set s.flags k.id (some { m' with maintainer := none }) } k) k.ev none
  else
    match mt.innerList.findIdx? (fun i => i.recordId == k.record) with
    | none => ends env f (stoppedLog s k) k.ev none
    | some n =>
      match mt.innerList.drop n with
      | [] => ends env f (stoppedLog s k) k.ev none
      | inst :: rest =>
        { f with
          core := { s with
            flags := set s.flags k.id
              (some { m' with maintainer := some { mt with innerList := mt.innerList.take n ++ rest } }) }
          pos := .found k old m mt (s.chainState mt.chain) inst }

/-- `set_state`, task_instance.rs:121. -/
def storeState (f : FSt) (k : Stop) (old : List HandlerBox) (m : TaskMark) (mt : Maintainer) (cs : Nat)
    (inst : Instance) : FSt :=
  { f with
    core := { f.core with hdrState := set f.core.hdrState inst.hdr k.how.state }
    pos := .stored k old m mt cs inst (f.core.hdrState inst.hdr) }

/-- `event.notify(usize::MAX)`, task_instance.rs:122. -/
def notifyAll (env : Env) (f : FSt) (k : Stop) (inst : Instance) (was : Nat) : FSt :=
  let s := stoppedLog f.core k
  let s := { s with
    waiters := fun w => if s.waiters w = .listening inst.hdr then .woken inst.hdr else s.waiters w
    log := .stateSet inst.hdr was k.how.state :: s.log }
  if k.how.early then ends env f s k.ev (some true)
  else { f with core := logged s k.ev (some true), pos := .uncounted k }

/-- The decrement of `finish_task`, event_handle.rs:469. -/
def decLate (env : Env) (f : FSt) (k : Stop) : FSt :=
  { f with
    core := { f.core with flags := set f.core.flags k.id ((f.core.flags k.id).map dec) }
    pos := .report (late env k.ev (some true)) }

/-- The end of the dispatch of `AppendTaskHandle` as far as the log is concerned. -/
def registered (f : FSt) (s : St) (id : Nat) (box : HandlerBox) : FSt :=
  { f with core := logged s (.appendTaskHandle id box) (some true), pos := .units id box }

/-- `task_flag_map.get_mut` of `maintain_task_status`, event_handle.rs:488. -/
def lockRegister (sh : Shards) (f : FSt) (id : Nat) (box : HandlerBox) : Option FSt :=
  if clash sh f.gT id .write then none
  else
    match f.core.flags id with
    | none => some (registered f f.core id box)
    | some m =>
      let g := { f with gE := some ⟨id, .write⟩ }
      match m.maintainer with
      | none => some (registered g f.core id box)
      | some mt => some { g with pos := .registering id box m mt }

/-- `get_task_instances_chain_maintainer` there, task.rs:90-103. -/
def loadRegister (f : FSt) (id : Nat) (box : HandlerBox) (m : TaskMark) (mt : Maintainer) : FSt :=
  let s := f.core
  if s.chainState mt.chain = DROPPED then
    registered f { s with
      chainState := set s.chainState mt.chain ABANDONED
      flags := set s.flags id (some { m with maintainer := none }) } id box
  else { f with pos := .pushing id box m mt (s.chainState mt.chain) }

/-- The instance is made and sent on the chain, event_handle.rs:496-502, task_instance.rs:197. Sending on a chain that was
dropped meanwhile fails (198-201); nobody can look at that queue any more, here it is extended all the same. -/
def pushInstance (f : FSt) (id : Nat) (box : HandlerBox) (m : TaskMark) (mt : Maintainer) : FSt :=
  let s := f.core
  let inst : Instance := { hdr := s.nextHdr, taskId := id, recordId := box.recordId }
  { f with
    core := logged { s with
      nextHdr := s.nextHdr + 1
      hdrState := set s.hdrState s.nextHdr RUNNING
      chainQueue := set s.chainQueue mt.chain (s.chainQueue mt.chain ++ [inst]) } (.appendTaskHandle id box) (some true)
    pos := .listing id box m mt inst }

/-- `inner_list.push_back`, task_instance.rs:203. -/
def listInstance (f : FSt) (id : Nat) (box : HandlerBox) (m : TaskMark) (mt : Maintainer) (inst : Instance) : FSt :=
  { f with
    core := { f.core with
      flags := set f.core.flags id
        (some { m with maintainer := some { mt with innerList := mt.innerList ++ [inst] } }) }
    pos := .units id box }

/-- Dropping the guard. -/
def release (f : FSt) : FSt := { f with gE := none }

/-- The next access of the event thread. -/
def micro (env : Env) (sh : Shards) (f : FSt) : Option FSt :=
  match f.pos with
  | .level =>
    match f.core.epc with
    | .idle =>
      if f.gE.isSome then some (release f)
      else
        match f.core.chan with
        | [] => none
        | e :: rest => some { f with core := { f.core with chan := rest }, pos := .took e }
    | .remove id _ =>
      -- `task_flag_map.remove` takes the shard for writing, event_handle.rs:234
      if f.gE.isSome then some (release f)
      else if clash sh f.gT id .write then none
      else (eNext env f.core).map fun s => { f with core := s }
    | .add3 _ m =>
      -- so does `insert`, event_handle.rs:317
      if clash sh f.gT m.taskId .write then none
      else (eNext env f.core).map fun s => { f with core := s }
    | _ => (eNext env f.core).map fun s => { f with core := s }
  | .took e =>
    match e with
    | .stopTimer => some (ends env f { f.core with motivation := false } e (some true))
    | .addTask t => some { f with core := { f.core with epc := .add1 t none f.core.secondHand }, pos := .level }
    | .insertTask t c => some { f with core := { f.core with epc := .add1 t (some c) f.core.secondHand }, pos := .level }
    | .updateTask t => look env sh f e t.taskId
    | .advanceTask id => look env sh f e id
    | .removeTask id => look env sh f e id
    | .cancelTask id r => some (quit env f ⟨e, id, r, .cancel⟩)
    | .timeoutTask id r => some (quit env f ⟨e, id, r, .timeout⟩)
    | .finishTask b => some (quit env f ⟨e, b.taskId, b.recordId, .finish⟩)
    | .appendTaskHandle id box => lockRegister sh f id box
  | .looked e slot => atWheel env f e slot
  | .quitted k old => lockMark env sh f k old
  | .locked k old m mt => some (loadChain env f k old m mt)
  | .found k old m mt cs inst => some (storeState f k old m mt cs inst)
  | .stored k _ _ _ _ inst was => some (notifyAll env f k inst was)
  | .uncounted k => some (decLate env f k)
  | .registering id box m mt => some (loadRegister f id box m mt)
  | .pushing id box m mt _ => some (pushInstance f id box m mt)
  | .listing id box m mt inst => some (listInstance f id box m mt inst)
  | .units id box =>
    if f.gE.isSome then some (release f)
    else some { f with core := { f.core with unitChan := f.core.unitChan ++ unitsOf box }, pos := .tracing id box }
  | .tracing id box =>
    some { f with
      core := { f.core with trace := set f.core.trace id (f.core.trace id ++ [box]) }
      pos := .report (late env (.appendTaskHandle id box) (some true)) }
  | .report ps =>
    if f.gE.isSome then some (release f)
    else some { f with core := { f.core with reports := f.core.reports ++ ps }, pos := .level }

/-- Which mark a step of the scheduler looks at, and how: `maintain_task` if there is a limit, src/timer/timer_core.rs:304-317,
and the second half of `handle_task`, 396-407. -/
def asks (s : St) : Label → Option Guard
  | .tCheck _ =>
    match s.tpc with
    | .check _ t => t.maximumParallelRunnableNum.map fun _ => ⟨t.taskId, .read⟩
    | _ => none
  | .tMark =>
    match s.tpc with
    | .mark _ id _ _ => some ⟨id, .write⟩
    | _ => none
  | _ => none

/-- The steps of the scheduler. -/
def ofScheduler : Label → Bool
  | .tLoad | .tStore | .tArrive | .tPop _ | .tCheck _ | .tSpawn _ | .tAppend | .tGate | .tSlot | .tMark | .tLapse => true
  | _ => false

/-- The steps of the event thread in `Model/System.lean`; here replaced by `micro`. -/
def ofEvents : Label → Bool
  | .eRecv | .eNext => true
  | _ => false

inductive FLabel where
  /-- the next access of the event thread -/
  | event
  /-- the scheduler drops its guard, src/timer/timer_core.rs:317, 407 -/
  | drop
  /-- a step of another thread -/
  | other (l : Label)

/-- One step. The scheduler does nothing else while it holds a guard; there is none to drop if the key is missing. -/
def fstep (env : Env) (sh : Shards) (f : FSt) : FLabel → Option FSt
  | .event => micro env sh f
  | .drop => if f.gT.isSome then some { f with gT := none } else none
  | .other l =>
    if ofEvents l then none
    else if ofScheduler l && f.gT.isSome then none
    else
      match asks f.core l with
      | none => (step env f.core l).map fun s => { f with core := s }
      | some g =>
        if clash sh f.gE g.id g.mode then none
        else
          (step env f.core l).map fun s => { f with core := s, gT := if (f.core.flags g.id).isSome then some g else none }

/-- Performing a list of steps. -/
def frun (env : Env) (sh : Shards) (f : FSt) : List FLabel → Option FSt
  | [] => some f
  | l :: ls =>
    match fstep env sh f l with
    | some f' => frun env sh f' ls
    | none => none

/-- The states reached from the start. -/
def FReachable (env : Env) (sh : Shards) (f : FSt) : Prop := ∃ ls, frun env sh (finit env) ls = some f

end DelayTimer.Fine
