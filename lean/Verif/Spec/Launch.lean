import Verif.Model.Launch

/-! Vocabulary for the configuration of timers. -/

namespace DelayTimer.Spec

/-- What a caller asks for. -/
inductive RuntimeChoice where
  | smol
  /-- A tokio runtime of the timer's own. -/
  | ownTokio
  | tokio (rt : Nat)
  deriving DecidableEq

def choiceOf : TimerCall → Option RuntimeChoice
  | .smolByDefault => some .smol
  | .tokioByDefault => some .ownTokio
  | .tokioByCustom rt => some (.tokio rt)
  | .tokioSharedByCustom rt => some (.tokio rt)
  | .enableStatusReport => none

/-- The last choice made, a tokio runtime of its own if none was made. -/
def lastChoice (cs : List TimerCall) : RuntimeChoice := (cs.reverse.findSome? choiceOf).getD .ownTokio

/-- The executor that answers a choice; a runtime of its own is one that did not exist before. -/
def executorFor (f : Fresh) : RuntimeChoice → Executor
  | .smol => .smol
  | .ownTokio => .tokio f.runtime
  | .tokio rt => .tokio rt

/-- `t` runs its scheduler, its events, its sweeper, its clock and its bodies on `x`. -/
structure RunsOn (t : BuiltTimer) (x : Executor) : Prop where
  roles : t.threads.map (·.role) = [.scheduler, .events]
  context : ∀ th ∈ t.threads, th.context = x ∧ th.spawnsOn = some x
  /-- All parts work with one event channel and one header, those of the handle. -/
  parts : ∀ th ∈ t.threads, th.channel = t.sender ∧ th.header = t.header

end DelayTimer.Spec
