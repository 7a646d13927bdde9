import Verif.Model.System

/-!
# Callers waiting in `next_with_wait` and `next_with_async_wait`

`Model.System` has the `next*` functions of a chain as one step, `uNext`. Here each call is what it is in the
code: the check of the state of the chain, then the reception from its channel, which may wait, with anything
else happening in between. All other steps are those of `Model.System`.

Not modelled: the wake-up mechanism inside the channel library. A call that waits may go on as soon as there is
something to receive or the sender is gone (`async_channel::Recv`), which call goes first is left open.
-/

namespace DelayTimer

/-- What a `next*` call returns, src/timer/runtime_trace/task_instance.rs:208-258: an instance, `Expired` from the
check at the beginning, or `InternalChannelAnomaly` (in `next`: `DisGetEvent`) from a channel without a sender. -/
inductive NextResult where
  | instance (i : Instance)
  | expired
  | anomaly
deriving DecidableEq, Repr

/-- The state of the system with the `next*` calls under way. -/
structure WSt where
  base : St
  /-- The calls under way: caller and chain. The check is behind them, `recv` ahead. -/
  waiting : List (Nat × Nat)
  /-- How many instances were received from the channel of a chain after its sender was gone. Nothing is put on
  such a channel any more, so its content is `base.chainQueue` without these. -/
  taken : Nat → Nat
  /-- The calls that have returned, last first: caller, chain, result. -/
  results : List (Nat × Nat × NextResult)

inductive WLabel where
  /-- a step of the system that is not a `next*` call -/
  | base (l : Label)
  /-- a caller calls a `next*` function of a chain: check of the state -/
  | call (r c : Nat)
  /-- `recv` or `try_recv` returns -/
  | wake (r c : Nat)
  /-- `try_recv` finds nothing, or the future of `next_with_async_wait` is dropped -/
  | giveUp (r c : Nat)


def WSt.init (env : Env) : WSt :=
  { base := DelayTimer.init env, waiting := [], taken := fun _ => 0, results := [] }

/-- The call returns. -/
def WSt.answer (w : WSt) (r c : Nat) (x : NextResult) : WSt :=
  { w with waiting := w.waiting.erase (r, c), results := (r, c, x) :: w.results }

/-- `get_timer_event_sender`, task_instance.rs:250-258 (called first in lines 209, 222 and 234). The sender is set by
`insert_task` before it gives the chain away, src/entity.rs:339-349, so that `MisEventSender` does not occur. -/
def WSt.call (w : WSt) (r c : Nat) : Option WSt :=
  if w.base.chainHeld c = true ∧ w.waiting.all (fun p => decide (p.1 ≠ r)) = true then
    if w.base.chainState c = ABANDONED then some { w with results := (r, c, .expired) :: w.results }
    else some { w with waiting := (r, c) :: w.waiting }
  else none

/-- `recv`, task_instance.rs:213, 224, 236. The sender of the channel is a field of the maintainer, whose `drop` sets
the state of the chain to `ABANDONED`, task_instance.rs:268-273, before its fields are dropped: a channel is closed
if and only if the state is `ABANDONED`. A closed channel still yields what is on it. -/
def WSt.wake (w : WSt) (r c : Nat) : Option WSt :=
  if (r, c) ∈ w.waiting then
    if w.base.chainState c = ABANDONED then
      match (w.base.chainQueue c).drop (w.taken c) with
      | i :: _ => some { w.answer r c (.instance i) with taken := set w.taken c (w.taken c + 1) }
      | [] => some (w.answer r c .anomaly)
    else
      match w.base.chainQueue c with
      | i :: rest =>
        some { w.answer r c (.instance i) with
          base := { w.base with
            chainQueue := set w.base.chainQueue c rest
            log := .delivered c i :: w.base.log } }
      | [] => none
  else none

/-- One step. A chain is borrowed by the calls under way and cannot be dropped before they are over. -/
def WSt.step (env : Env) (w : WSt) : WLabel → Option WSt
  | .base (.uNext _) => none
  | .base (.uDropChain c) =>
    if w.waiting.all (fun p => decide (p.2 ≠ c)) = true then
      (DelayTimer.step env w.base (.uDropChain c)).map fun s => { w with base := s }
    else none
  | .base l => (DelayTimer.step env w.base l).map fun s => { w with base := s }
  | .call r c => w.call r c
  | .wake r c => w.wake r c
  | .giveUp r c => if (r, c) ∈ w.waiting then some { w with waiting := w.waiting.erase (r, c) } else none

def WSt.run (env : Env) (w : WSt) : List WLabel → Option WSt
  | [] => some w
  | l :: ls =>
    match w.step env l with
    | some w' => w'.run env ls
    | none => none

def WSt.Reachable (env : Env) (w : WSt) : Prop := ∃ ls, (WSt.init env).run env ls = some w

end DelayTimer
