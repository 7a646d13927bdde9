import Verif.Spec.Schedule

/-!
Runs that are past the limit.
-/

namespace DelayTimer.Spec

/-- The scheduler has let a run of `k` pass and is about to start it. -/
def Admitted (k : Nat) (s : St) : Prop := ∃ p t rec, s.tpc = .spawn p t rec ∧ t.taskId = k

end DelayTimer.Spec
