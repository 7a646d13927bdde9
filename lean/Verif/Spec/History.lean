import Verif.Model.System

/-!
Specification vocabulary for histories. A log is newest first; the lists below are oldest first.
-/

namespace DelayTimer.Spec

/-- The events put on the event channel. -/
def queuedTags : List Obs → List Tag
  | [] => []
  | .queued t :: log => queuedTags log ++ [t]
  | _ :: log => queuedTags log

/-- The events dispatched. -/
def dispatchedTags : List Obs → List Tag
  | [] => []
  | .dispatched t _ :: log => dispatchedTags log ++ [t]
  | _ :: log => dispatchedTags log

/-- The record ids of the runs started so far. -/
def startedRecs : List Obs → List Int
  | [] => []
  | .started _ _ rec _ _ :: log => startedRecs log ++ [rec]
  | _ :: log => startedRecs log

/-- The record ids of the runs of `k` started so far. -/
def startedRecsOf (k : Nat) : List Obs → List Int
  | [] => []
  | .started id _ rec _ _ :: log => if id = k then startedRecsOf k log ++ [rec] else startedRecsOf k log
  | _ :: log => startedRecsOf k log

/-- The record ids in the append events among `tags`. -/
def appendRecs (tags : List Tag) : List Int :=
  tags.filterMap fun t => match t with | .append _ r => some r | _ => none

/-- The deadlines swept so far. -/
def sweptUnits : List Obs → List RecycleUnit
  | [] => []
  | .swept u _ :: log => sweptUnits log ++ [u]
  | _ :: log => sweptUnits log

/-- The writes to the state cell of instance header `h`: old and new value. -/
def stateWrites (h : Nat) : List Obs → List (Nat × Nat)
  | [] => []
  | .stateSet h' old new :: log => if h' = h then stateWrites h log ++ [(old, new)] else stateWrites h log
  | _ :: log => stateWrites h log

/-- The instances that `next*` has returned on chain `c`. -/
def deliveredOn (c : Nat) : List Obs → List Instance
  | [] => []
  | .delivered c' i :: log => if c' = c then deliveredOn c log ++ [i] else deliveredOn c log
  | _ :: log => deliveredOn c log

/-- The chain that belongs to the current registration of `id`, if any: the one that came with the last
successfully added or inserted task, unless the id was removed since. -/
def chainOf (id : Nat) : List Obs → Option Nat
  | [] => none
  | .dispatched (.insert i c) (some true) :: log => if i = id then some c else chainOf id log
  | .dispatched (.add i) (some true) :: log => if i = id then none else chainOf id log
  | .dispatched (.remove i) _ :: log => if i = id then none else chainOf id log
  | _ :: log => chainOf id log

/-- The runs registered while `c` was the chain of their task. -/
def regsOn (c : Nat) : List Obs → List Int
  | [] => []
  | .dispatched (.append i r) _ :: log => if chainOf i log = some c then regsOn c log ++ [r] else regsOn c log
  | _ :: log => regsOn c log

/-- A cancel request for run `rec` of task `id`, through the timer or through an instance. -/
def CancelCall (id : Nat) (rec : Int) : Label → Prop
  | .uSend (.cancel i r) => i = id ∧ r = rec
  | .uCancel _ i => i.taskId = id ∧ i.recordId = rec
  | _ => False

/-- The (task id, record id) pairs in the time-out events among `tags`. -/
def timeoutsOf (tags : List Tag) : List (Nat × Int) :=
  tags.filterMap fun t => match t with | .timeout id r => some (id, r) | _ => none

/-- `a` occurs in the log, and `b` occurs before it. -/
def Before (b a : Obs) (log : List Obs) : Prop := ∃ l1 l2, log = l1 ++ a :: l2 ∧ b ∈ l2

/-- Whenever `a` occurs, `b` has occurred before. -/
def Precedes (b a : Obs) (log : List Obs) : Prop := ∀ l1 l2, log = l1 ++ a :: l2 → b ∈ l2

/-- The events that end run `rec` of task `id`. -/
def endTags (id : Nat) (rec : Int) : List Tag := [.cancel id rec, .timeout id rec, .finish id rec]

/-- Run `rec` of task `id` has ended: an event ending it was dispatched after its registration. -/
def RunEnded (id : Nat) (rec : Int) (log : List Obs) : Prop :=
  ∃ l1 l2 tag r, log = l1 ++ .dispatched tag r :: l2 ∧ tag ∈ endTags id rec ∧ .append id rec ∈ dispatchedTags l2

/-- The body of run `rec` of task `id` has returned, or it was a synchronous body on tokio and has panicked. -/
def BodyOver (env : Env) (id : Nat) (rec : Int) (log : List Obs) : Prop :=
  .bodyEnded id rec ∈ log ∨ (.bodyPanicked id rec ∈ log ∧ env.runtime = .tokio ∧
    ∃ rtn n ts, .started id rtn rec n ts ∈ log ∧ env.kind rtn = .syncFn)

/-- The event behind a public event. -/
def pubTag : PublicEvent → Tag
  | .removeTask id => .remove id
  | .runningTask id rec => .append id rec
  | .finishTask b => .finish b.taskId b.recordId
  | .timeoutTask id rec => .timeout id rec

end DelayTimer.Spec
