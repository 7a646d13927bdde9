import Verif.Model.Fleet

/-! Vocabulary for public events in a process with several timers. -/

namespace DelayTimer.Spec

/-- The events of timer `i` in a list of (timer, event). -/
def ofTimer (i : Nat) (l : List (Nat × PublicEvent)) : List PublicEvent :=
  l.filterMap (fun p => if p.1 = i then some p.2 else none)

/-- What has been obtained, by whomever, with its origin. -/
def origins (got : List Delivery) : List (Nat × PublicEvent) := got.map (fun d => (d.origin, d.event))

/-- What the consumers of timer `i` have obtained. -/
def obtainedBy (i : Nat) (got : List Delivery) : List PublicEvent :=
  got.filterMap (fun d => if d.to.timer = i then some d.event else none)

end DelayTimer.Spec
