import Verif.Model.Body

/-!
# The end of the event thread

In `Model.System` a thread that panicked is one that takes no steps any more. Here is what else happens when the event
thread does (C64 has when it does): the unwinding drops its `EventHandle`, and with that the receiver of the channel and
the `TaskTrace`. Dropping the only receiver closes the channel (documentation of async-channel): from then on `try_send`
and `send` fail and give the event back, which is dropped. Dropping the handle of a run calls its `quit`.

Simplifications: what threads and runs send after that is still kept in `chan` and logged as queued by `Model.System`;
nobody ever looks at it. The maintainer of the chain of the request that ended the thread is dropped in the unwinding,
and the sender of the status reports is, too; both are left out.
-/

namespace DelayTimer

variable {σ : Type}

/-- The state of the system with its bodies, and whether the event thread is gone. -/
structure DSt (σ : Type) where
  w : BSt σ
  /-- the event thread has panicked, the channel is closed -/
  closed : Bool
  /-- ghost: calls of the API that returned an error, last first -/
  errors : List Label

inductive DLabel where
  | inner (l : BLabel)
  /-- the panicking event thread unwinds -/
  | die
  /-- a call of the API returns an error -/
  | refuse (l : Label)

def DSt.init (σ : Type) (env : Env) : DSt σ := { w := BSt.init σ env, closed := false, errors := [] }

/-- The event thread panics: it asks for a first alarm that overflows, src/timer/event_handle.rs:278-280. -/
def fatal (env : Env) (s : St) : Bool :=
  match s.epc with
  | .add1 t _ _ => env.overflowChecks && t.alarmOverflows
  | _ => false

/-- Calls that send an event: `DelayTimer::seed_timer_event`, src/entity.rs:388-390, and `Instance::send_cancel_event`,
src/timer/runtime_trace/task_instance.rs:186-191. -/
def isCall : Label → Bool
  | .uSend _ => true
  | .uInsert _ => true
  | .uCancel _ _ => true
  | _ => false

/-- The handle of the run is in the `TaskTrace`, src/timer/runtime_trace/task_handle.rs:14-16 (the handle of a run is
kept under the id of its task). -/
def registered (s : St) (rec : Int) : Bool :=
  match s.rt rec with
  | some r => (s.trace r.taskId).any fun b => b.recordId == rec
  | none => false

/-- `Drop` of a `DelayTaskHandlerBox` that still has its handler, src/timer/runtime_trace/task_handle.rs:163-174. -/
def BSt.dropHandle (env : Env) (w : BSt σ) (rec : Int) : BSt σ :=
  { w with exec := setI w.exec rec ((w.exec rec).map (·.quit env.runtime)) }

/-- Drop of the `TaskTrace`: all handles in it are dropped. -/
def BSt.dropTrace (env : Env) (w : BSt σ) : BSt σ :=
  { w with exec := fun rec => if registered w.base rec = true then (w.exec rec).map (·.quit env.runtime) else w.exec rec }

/-- What the closed channel adds to a step: the event that registers a run cannot be sent, and is dropped with the
handle in it, src/timer/timer_core.rs:277-286. (The other events have nothing in them that does something when it is
dropped.) -/
def BSt.lose (env : Env) (w w' : BSt σ) : BLabel → BSt σ
  | .base .tAppend =>
    match w.base.tpc with
    | .append _ _ box => w'.dropHandle env box.recordId
    | _ => w'
  | _ => w'

/-- A step needs the open channel. -/
def needsChannel : BLabel → Bool
  | .base l => isCall l
  | _ => false

def DSt.step (B : Bodies σ) (env : Env) (d : DSt σ) : DLabel → Option (DSt σ)
  | .inner l =>
    if d.closed = true then
      if needsChannel l = true then none
      else (d.w.step B env l).map fun w' => { d with w := d.w.lose env w' l }
    else (d.w.step B env l).map fun w' => { d with w := w' }
  | .die =>
    if d.closed = false ∧ fatal env d.w.base = true then some { d with w := d.w.dropTrace env, closed := true } else none
  | .refuse l => if d.closed = true ∧ isCall l = true then some { d with errors := l :: d.errors } else none

def DSt.run (B : Bodies σ) (env : Env) (d : DSt σ) : List DLabel → Option (DSt σ)
  | [] => some d
  | l :: ls =>
    match d.step B env l with
    | some d' => d'.run B env ls
    | none => none

def DSt.Reachable (B : Bodies σ) (env : Env) (d : DSt σ) : Prop := ∃ ls, (DSt.init σ env).run B env ls = some d

end DelayTimer
