import Verif.Model.System

/-!
What is written down about a task (C94).
-/

namespace DelayTimer.Spec

/-- Of the additions of `k` that succeeded and the removals of `k`, as far as they have been worked off, the last was an
addition. (The log has the newest entry in front.) -/
def recorded (k : Nat) : List Obs → Bool
  | [] => false
  | .dispatched (.add i) (some true) :: log => i == k || recorded k log
  | .dispatched (.insert i _) (some true) :: log => i == k || recorded k log
  | .dispatched (.remove i) _ :: log => i != k && recorded k log
  | _ :: log => recorded k log

end DelayTimer.Spec
