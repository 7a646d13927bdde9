import Verif.Model.System

/-!
# What the bodies of runs do

`Model.System` has of the body of a run only its end (`rBody`, `rPanic`) and the event sent then (`rFinish`). Here the
body is a program that runs step by step on the runtime, and stopping a run reaches it the way it does in the code:
through the handle kept for it. All other steps are those of `Model.System`.

What is assumed of the runtimes, from their documentation:

* a future is polled only when it is ready, by one thread at a time, and runs until it suspends itself or is over;
* tokio `JoinHandle::abort` and smol `Task::cancel` mark the task; a marked task is not polled any more, its future is
  dropped as soon as it is not being polled;
* dropping a tokio `JoinHandle` detaches the task, dropping a smol `Task` cancels it;
* a function given to `spawn_blocking` or `smol::unblock` runs on a thread of its own and cannot be interrupted there;
  `smol::unblock` drops it if it is cancelled before it was begun.

Simplifications: effects of dropping a future are left out (C54 has them for shell commands); so is what the closure of
`spawn_async_routine` does before it returns its future; a future that was marked while it is suspended in
`finish_task` may still send its event until it is dropped.
-/

namespace DelayTimer

/-- What a body does next. -/
inductive Move (σ : Type) where
  /-- something visible outside -/
  | effect (e : Nat) (next : σ)
  /-- it waits (`.await`, or a call that blocks, in a synchronous body); the value it waits for decides how it goes on -/
  | await (resume : Nat → σ)
  | finish
  | panic

/-- The bodies: where each routine starts and what a body does in a given state. -/
structure Bodies (σ : Type) where
  start : Nat → σ
  move : σ → Move σ

/-- Where a body is. -/
inductive Place (σ : Type) where
  /-- it could go on, but is not being executed -/
  | ready (x : σ)
  /-- a thread of the runtime is executing it -/
  | active (x : σ)
  /-- it waits -/
  | blocked (resume : Nat → σ)
  /-- it returned or panicked -/
  | over
  /-- it was dropped -/
  | gone

/-- A body and the future spawned for it, src/timer/task.rs:585-677. For `AsyncFn` the body is part of the future, for
`SyncFn` it is a job of its own that the future waits for. -/
structure Job (σ : Type) where
  routine : Nat
  place : Place σ
  /-- `quit` was called, but the task it spawns has not run yet -/
  quitting : Bool := false
  /-- the future is marked as cancelled -/
  cancelled : Bool := false
  /-- the future was dropped -/
  dropped : Bool := false

/-- `DelayTaskHandler::quit` of the handle, src/timer/runtime_trace/task_handle.rs:269-278 (smol: a task that will
cancel is spawned) and 281-292 (tokio: `abort`). -/
def Job.quit {σ : Type} (rt : RuntimeKind) (x : Job σ) : Job σ :=
  match rt with
  | .smol => { x with quitting := true }
  | .tokio => { x with cancelled := true }

/-- The runtime begins to execute: it polls the future (`AsyncFn`), or a thread for blocking jobs takes up the job
(`SyncFn`). -/
def Job.poll {σ : Type} (k : RoutineKind) (x : Job σ) : Option (Job σ) :=
  match x.place with
  | .ready y => if k = .asyncFn ∧ x.cancelled = true then none else some { x with place := .active y }
  | _ => none

/-- What the body waits for comes. A future is then queued; a blocked thread goes on. -/
def Job.wake {σ : Type} (k : RoutineKind) (v : Nat) (x : Job σ) : Option (Job σ) :=
  match x.place with
  | .blocked r => some { x with place := match k with | .asyncFn => .ready (r v) | .syncFn => .active (r v) }
  | _ => none

/-- The task spawned by `quit` of a smol handle runs: `Task::cancel`. -/
def Job.cancel {σ : Type} (x : Job σ) : Option (Job σ) :=
  if x.quitting = true then some { x with quitting := false, cancelled := true } else none

/-- The runtime drops a future that is marked and not being polled. With it goes the body of an `AsyncFn`, and on smol
the job of a `SyncFn` that was not begun; on tokio that job is detached. -/
def Job.reap {σ : Type} (rt : RuntimeKind) (k : RoutineKind) (x : Job σ) : Option (Job σ) :=
  if x.cancelled = true ∧ x.dropped = false then
    match k, rt, x.place with
    | .asyncFn, _, .active _ => none
    | _, _, .over => some { x with dropped := true }
    | .asyncFn, _, _ => some { x with dropped := true, place := .gone }
    | .syncFn, .smol, .ready _ => some { x with dropped := true, place := .gone }
    | .syncFn, _, _ => some { x with dropped := true }
  else none

/-- The state of the system with its bodies. -/
structure BSt (σ : Type) where
  base : St
  /-- the bodies by record id -/
  exec : Int → Option (Job σ)
  /-- ghost: the effects, last first -/
  effects : List (Int × Nat)

inductive BLabel where
  /-- a step of the system that is not the end of a body -/
  | base (l : Label)
  | poll (rec : Int)
  /-- a move of a body that is being executed -/
  | move (rec : Int)
  | wake (rec : Int) (v : Nat)
  | cancel (rec : Int)
  | reap (rec : Int)

variable {σ : Type}

def BSt.init (σ : Type) (env : Env) : BSt σ :=
  { base := DelayTimer.init env, exec := fun _ => none, effects := [] }

/-- What the starts and stops among the things that happened do to the bodies: `Routine::spawn_by_*` queues the body
(task.rs:585-677), `quit_one_task_handler` calls `quit` (task_handle.rs:44-120). -/
def observe (B : Bodies σ) (env : Env) (ex : Int → Option (Job σ)) : List Obs → Int → Option (Job σ)
  | [] => ex
  | .started _ rtn rec _ _ :: os => setI (observe B env ex os) rec (some { routine := rtn, place := .ready (B.start rtn) })
  | .stopped _ rec :: os => setI (observe B env ex os) rec ((observe B env ex os rec).map (·.quit env.runtime))
  | _ :: os => observe B env ex os

/-- What happened in a step. -/
def happened (s s' : St) : List Obs := s'.log.take (s'.log.length - s.log.length)

/-- The end of a body is not a step of the system here, and a future that was dropped sends nothing. -/
def BSt.allows (w : BSt σ) : Label → Bool
  | .rBody _ => false
  | .rPanic _ => false
  | .rFinish rec _ => match w.exec rec with
    | some x => !x.dropped
    | none => false
  | _ => true

/-- A step of `Model.System`. -/
def BSt.baseStep (B : Bodies σ) (env : Env) (w : BSt σ) (l : Label) : Option (BSt σ) :=
  if w.allows l = true then
    (DelayTimer.step env w.base l).map fun s => { w with base := s, exec := observe B env w.exec (happened w.base s) }
  else none

/-- One move of the body of the run `rec`, task.rs:592, 611, 639, 661. A future that suspends itself and is marked is not
queued again, but dropped (`reap`). -/
def BSt.moveStep (B : Bodies σ) (env : Env) (w : BSt σ) (rec : Int) : Option (BSt σ) :=
  match w.exec rec with
  | some x =>
    match x.place with
    | .active y =>
      match B.move y with
      | .effect e z => some { w with
          exec := setI w.exec rec (some { x with place := .active z }), effects := (rec, e) :: w.effects }
      | .await r => some { w with exec := setI w.exec rec (some { x with place := .blocked r }) }
      | .finish => (rBody w.base rec).map fun s => { w with
          base := s, exec := setI w.exec rec (some { x with place := .over }) }
      | .panic => (rPanic env w.base rec).map fun s => { w with
          base := s, exec := setI w.exec rec (some { x with place := .over }) }
    | _ => none
  | none => none

/-- A step of the runtime with the body of the run `rec`. -/
def BSt.on (w : BSt σ) (env : Env) (rec : Int) (f : RoutineKind → Job σ → Option (Job σ)) : Option (BSt σ) :=
  match w.exec rec with
  | some x => (f (env.kind x.routine) x).map fun y => { w with exec := setI w.exec rec (some y) }
  | none => none

def BSt.step (B : Bodies σ) (env : Env) (w : BSt σ) : BLabel → Option (BSt σ)
  | .base l => w.baseStep B env l
  | .poll rec => w.on env rec Job.poll
  | .move rec => w.moveStep B env rec
  | .wake rec v => w.on env rec (fun k => Job.wake k v)
  | .cancel rec => w.on env rec (fun _ => Job.cancel)
  | .reap rec => w.on env rec (Job.reap env.runtime)

def BSt.run (B : Bodies σ) (env : Env) (w : BSt σ) : List BLabel → Option (BSt σ)
  | [] => some w
  | l :: ls =>
    match w.step B env l with
    | some w' => w'.run B env ls
    | none => none

def BSt.Reachable (B : Bodies σ) (env : Env) (w : BSt σ) : Prop := ∃ ls, (BSt.init σ env).run B env ls = some w

end DelayTimer
