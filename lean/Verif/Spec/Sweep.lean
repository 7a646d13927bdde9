import Verif.Spec.History
import Verif.Spec.Schedule

/-!
# What is said about the sweeper
-/

namespace DelayTimer.Spec

/-- The rounds of the sweeper completed by a list of actions whose reading of the clock was `d` or later. The flag says
whether the round in progress counts. -/
def roundsFrom (d : Nat) : Bool → List Label → Nat
  | _, [] => 0
  | _, .sWake now :: ls => roundsFrom d (decide (d ≤ now)) ls
  | true, .sRest :: ls => roundsFrom d false ls + 1
  | b, _ :: ls => roundsFrom d b ls

/-- The number of runs started, of whatever task, at a reading of `d` or earlier. -/
def startsBy (d : Nat) : List Obs → Nat
  | [] => 0
  | .started _ _ _ _ ts :: log => if ts ≤ d then startsBy d log + 1 else startsBy d log
  | _ :: log => startsBy d log

/-- Every running time limit handed in can be added to every start time of its task in 64 bits. -/
def AllLimitsFit (ls : List Label) (log : List Obs) : Prop := ∀ k, LimitsFit k ls log

/-- Actions of the sweeper, whose clock reads `r` or later, and of the event thread. -/
def SweepsFrom (r : Nat) : Label → Prop
  | .sAdd | .sPop _ | .sRest | .eRecv | .eNext => True
  | .sWake now => r ≤ now
  | _ => False

/-- The run has been registered and has not been ended. -/
def Underway (id : Nat) (rec : Int) (log : List Obs) : Prop :=
  .append id rec ∈ dispatchedTags log ∧ .stopped id rec ∉ log

end DelayTimer.Spec
