import Verif.Model.System

/-! Several timers in one process and the status reporter they share.

`GLOBAL_STATUS_REPORTER`, src/utils/status_report.rs:9-12, is one static channel per process. Every timer
built with `enable_status_report` sends its public events into it (`get_status_report_sender`,
src/entity.rs:486-490, src/timer/event_handle.rs:169-190) and every `StatusReporter` receives from it
(`get_status_report_receiver`, src/entity.rs:492-496). Nothing else is shared by two timers: each has its
own `SharedHeader`, event channel and threads (`init_delay_timer`, src/entity.rs:279-310).

Simplification: sending the public event and the rest of the dispatch are one step, as in `step`. -/

namespace DelayTimer

/-- Somebody who asks for public events: a `StatusReporter` or `DelayTimer::get_public_event`,
src/entity.rs:502-513, of timer `timer`; `who` tells clones apart (both types are `Clone`). -/
structure Consumer where
  timer : Nat
  who : Nat
  deriving DecidableEq

/-- An event obtained by a consumer; `origin` is the timer that reported it (not visible to the consumer). -/
structure Delivery where
  to : Consumer
  origin : Nat
  event : PublicEvent

/-- All timers of a process, by number. A timer not built yet is in its initial state. -/
structure Fleet where
  timers : Nat → St
  /-- Content of the static channel, oldest first, each event with the timer it comes from. -/
  queue : List (Nat × PublicEvent)
  /-- What has been obtained, oldest first. -/
  got : List Delivery

def Fleet.init (env : Nat → Env) : Fleet where
  timers := fun i => DelayTimer.init (env i)
  queue := []
  got := []

inductive FleetLabel where
  /-- An action of timer `i`, of one of its bodies or of a caller of its API. -/
  | inner (i : Nat) (l : Label)
  /-- `next_public_event`, `next_public_event_with_wait`, `next_public_event_with_async_wait`,
  src/utils/status_report.rs:25-39, or `get_public_event` gets an event. -/
  | take (c : Consumer)

/-- One atomic action. `status_report_sender.send`, src/timer/event_handle.rs:178-182, is the growth of
`reports`. A consumer exists only for a timer with reporting on, src/entity.rs:297-301. -/
def Fleet.step (env : Nat → Env) (f : Fleet) : FleetLabel → Option Fleet
  | .inner i l =>
    match DelayTimer.step (env i) (f.timers i) l with
    | none => none
    | some s => some { f with
        timers := fun j => if j = i then s else f.timers j
        queue := f.queue ++ (s.reports.drop (f.timers i).reports.length).map (fun e => (i, e)) }
  | .take c =>
    if (env c.timer).statusReport then
      match f.queue with
      | [] => none
      | (i, e) :: rest => some { f with queue := rest, got := f.got ++ [⟨c, i, e⟩] }
    else none

def Fleet.run (env : Nat → Env) : Fleet → List FleetLabel → Option Fleet
  | f, [] => some f
  | f, l :: ls =>
    match f.step env l with
    | none => none
    | some f' => Fleet.run env f' ls

end DelayTimer
