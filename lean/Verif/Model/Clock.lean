/-!
# Tick clocks

Model of `SmolClock` and `TokioClock`, `/repo/src/timer/timer_core.rs:59-103`. Instants and durations
are natural numbers in one unit. Awaiting a timer armed for instant `d` at instant `t` completes at
`max t d` (an idealised runtime: lateness of the wake-up itself is part of the next call instant).
-/

namespace DelayTimer

/-- `SmolClock`, src/timer/timer_core.rs:78-82; `inner` is the instant the current timer is armed for. -/
structure SmolClock where
  inner : Nat
  period : Nat
  offset : Nat

/-- `SmolClock::new`, src/timer/timer_core.rs:85-93. -/
def SmolClock.new (start period : Nat) : SmolClock :=
  let offset := start + period
  { inner := offset, period := period, offset := offset }

/-- `SmolClock::tick` called at `t`, src/timer/timer_core.rs:95-99: `replace` puts the timer for the
next offset in place and the *old* timer is awaited. Returns the completion instant. -/
def SmolClock.tick (c : SmolClock) (t : Nat) : Nat × SmolClock :=
  let offset := c.offset + c.period
  (max t c.inner, { c with offset := offset, inner := offset })

/-- `TokioClock`, src/timer/timer_core.rs:61-63: `tokio::time::Interval` with the default missed-tick
behaviour `Burst`: `next` is the instant of the next tick. -/
structure TokioClock where
  next : Nat
  period : Nat

/-- `TokioClock::new` = `interval_at(start, period)`, src/timer/timer_core.rs:66-69: first tick at
`start`. -/
def TokioClock.new (start period : Nat) : TokioClock := { next := start, period := period }

/-- `TokioClock::tick` called at `t`, src/timer/timer_core.rs:71-73. `Burst`: the next tick is one
period after the instant this one was due. -/
def TokioClock.tick (c : TokioClock) (t : Nat) : Nat × TokioClock :=
  (max t c.next, { c with next := c.next + c.period })

/-- Serving ticks at the given call instants; the list of completion instants. -/
def SmolClock.serve (c : SmolClock) : List Nat → List Nat
  | [] => []
  | t :: ts => (c.tick t).1 :: (c.tick t).2.serve ts

def TokioClock.serve (c : TokioClock) : List Nat → List Nat
  | [] => []
  | t :: ts => (c.tick t).1 :: (c.tick t).2.serve ts

end DelayTimer
