import Verif.Model.System

/-! Building a timer: `DelayTimerBuilder`, src/entity.rs:79-310 and 396-500.

Runtimes, channels and shared headers are objects with an identity, here a number. Simplification: starting
an OS thread succeeds (`expect` at src/entity.rs:262,275,417,436 otherwise panics). -/

namespace DelayTimer

/-- `DelayTimerBuilder` with its `RuntimeInstance`, src/entity.rs:79-88, 131-136. -/
structure TimerBuilder where
  kind : RuntimeKind
  /-- `runtime_instance.inner`. -/
  inner : Option Nat
  /-- `timer_event_channel`. -/
  channel : Option Nat
  statusReport : Bool

/-- `DelayTimerBuilder::default`, src/entity.rs:79, 148-154. -/
def TimerBuilder.default : TimerBuilder := { kind := .tokio, inner := none, channel := none, statusReport := false }

/-- The calls that configure a builder. -/
inductive TimerCall where
  | smolByDefault
  | tokioByDefault
  | tokioByCustom (rt : Nat)
  | tokioSharedByCustom (rt : Nat)
  | enableStatusReport

/-- src/entity.rs:440-470, 481-484. -/
def TimerBuilder.call (b : TimerBuilder) : TimerCall → TimerBuilder
  | .smolByDefault => { b with kind := .smol, inner := none }
  | .tokioByDefault => { b with kind := .tokio, inner := none }
  | .tokioByCustom rt => { b with kind := .tokio, inner := some rt }
  | .tokioSharedByCustom rt => { b with kind := .tokio, inner := some rt }
  | .enableStatusReport => { b with statusReport := true }

/-- A builder after a chain of calls. -/
def TimerBuilder.calls (cs : List TimerCall) : TimerBuilder := cs.foldl .call .default

/-- Numbers not given out yet. -/
structure Fresh where
  runtime : Nat
  channel : Nat
  header : Nat

/-- The executor in whose context code runs, or on which it is spawned. -/
inductive Executor where
  /-- smol: `block_on` in a thread of its own, the global executor for spawned tasks. -/
  | smol
  | tokio (rt : Nat)
  deriving DecidableEq

inductive ThreadRole where
  | scheduler
  | events
  deriving DecidableEq

/-- A thread started by `build`: what it runs, in which context, and the header, channel and kind it works
with. -/
structure LaunchedThread where
  role : ThreadRole
  context : Executor
  channel : Nat
  header : Nat
  kind : RuntimeKind
  deriving DecidableEq

/-- Where tasks spawned by a thread go: `async_spawn_by_smol` uses the global executor,
`async_spawn_by_tokio` and `tokio::task::spawn*` the runtime of the calling thread and panic without one
(`none`). For the event thread these are the two sweeper tasks, src/timer/event_handle.rs:126-164, for the
scheduler thread the bodies, src/timer/timer_core.rs:425-428. The clock of the scheduler,
src/timer/timer_core.rs:36-47, needs the same context. -/
def LaunchedThread.spawnsOn (t : LaunchedThread) : Option Executor :=
  match t.kind, t.context with
  | .smol, _ => some .smol
  | .tokio, .tokio rt => some (.tokio rt)
  | .tokio, .smol => none

/-- A timer that has been built: its threads and what the `DelayTimer` handle holds. -/
structure BuiltTimer where
  threads : List LaunchedThread
  sender : Nat
  header : Nat
  reporter : Bool
  /-- Whether the event thread has been given a sender for public events. -/
  reports : Bool

/-- `get_timer_event_sender` / `get_timer_event_receiver`, src/entity.rs:312-324. -/
def TimerBuilder.getChannel (b : TimerBuilder) (f : Fresh) : Nat × TimerBuilder × Fresh :=
  match b.channel with
  | some c => (c, b, f)
  | none => (f.channel, { b with channel := some f.channel }, { f with channel := f.channel + 1 })

/-- `EventHandleBuilder::build`, src/timer/event_handle.rs:58-79: fails unless all parts are there. -/
def buildEventHandle (header receiver sender : Option Nat) : Option (Nat × Nat × Nat) :=
  match header, sender, receiver with
  | some h, some s, some r => some (h, s, r)
  | _, _, _ => none

/-- `lauch` with `assign_task` / `assign_task_by_tokio`, src/entity.rs:222-277, 401-438. `inner` and `kind`
are those of the header's `runtime_instance`. `none` is the panic of `expect`. -/
def TimerBuilder.launch (b : TimerBuilder) (f : Fresh) (header : Nat) :
    Option (List LaunchedThread × Bool × TimerBuilder × Fresh) :=
  let (rx, b, f) := b.getChannel f
  let (tx, b, f) := b.getChannel f
  match buildEventHandle (some header) (some rx) (some tx) with
  | none => none
  | some (h, _, rx) =>
    match b.kind with
    | .smol =>
      let (tx', b, f) := b.getChannel f
      some ([⟨.scheduler, .smol, tx', header, b.kind⟩, ⟨.events, .smol, rx, h, b.kind⟩], b.statusReport, b, f)
    | .tokio =>
      let (tx', b, f) := b.getChannel f
      match b.inner with
      | some rt => some ([⟨.scheduler, .tokio rt, tx', header, b.kind⟩, ⟨.events, .tokio rt, rx, h, b.kind⟩], b.statusReport, b, f)
      | none => some ([], b.statusReport, b, f)

/-- `init_delay_timer`, src/entity.rs:279-310. `canRuntime` tells whether `tokio_support` succeeds; `none`
is a panic. -/
def TimerBuilder.build (canRuntime : Bool) (b : TimerBuilder) (f : Fresh) : Option (BuiltTimer × Fresh) :=
  let r : Option (TimerBuilder × Fresh) :=
    match b.kind, b.inner with
    | .tokio, none =>
      if canRuntime then
        some ({ b with kind := .tokio, inner := some f.runtime }, { f with runtime := f.runtime + 1 })
      else none
    | _, _ => some (b, f)
  match r with
  | none => none
  | some (b, f) =>
    let header := f.header
    let f := { f with header := f.header + 1 }
    let (tx, b, f) := b.getChannel f
    match b.launch f header with
    | none => none
    | some (threads, reports, b, f) =>
      some ({ threads := threads, sender := tx, header := header, reporter := b.statusReport, reports := reports }, f)

/-- A process that builds one timer after the other, each from its own chain of calls. Builders are
`Clone`, src/entity.rs:79; a clone is a builder with the same chain of calls behind it. -/
def buildAll (canRuntime : Bool) : List (List TimerCall) → Fresh → Option (List BuiltTimer × Fresh)
  | [], f => some ([], f)
  | cs :: rest, f =>
    match (TimerBuilder.calls cs).build canRuntime f with
    | none => none
    | some (t, f) =>
      match buildAll canRuntime rest f with
      | none => none
      | some (ts, f) => some (t :: ts, f)

end DelayTimer
