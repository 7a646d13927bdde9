import Verif.Model.Death
import Verif.Spec.History

/-!
# What is said about stopped runs and refused calls
-/

namespace DelayTimer.Spec

variable {σ : Type}

/-- The runtime was told to stop the run `rec`: its future is marked, or will be as soon as the task spawned for that
runs. -/
def Told (w : BSt σ) (rec : Int) : Prop := ∃ x, w.exec rec = some x ∧ (x.quitting = true ∨ x.cancelled = true)

/-- The run `rec` was started. -/
def Begun (rec : Int) (log : List Obs) : Prop := ∃ id rtn n ts, .started id rtn rec n ts ∈ log

/-- The calls that ask the event thread for something: those of `DelayTimer`, and `cancel` of an instance. -/
inductive Call : Label → Prop
  | request (op : UserOp) : Call (.uSend op)
  | insert (t : Task) : Call (.uInsert t)
  | cancel (k : Nat) (i : Instance) : Call (.uCancel k i)

end DelayTimer.Spec
