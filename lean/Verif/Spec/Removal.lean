import Verif.Spec.Ghost

/-!
Specification vocabulary for C85 and C86: what decides whether a removal or an advance works.
-/

namespace DelayTimer.Spec

/-- The task waits in the very slot that the table of marks names for it. -/
def AtItsMark (k : Nat) (s : St) : Prop :=
  ∃ m sl t, s.flags k = some m ∧ s.wheel m.slotMark = some sl ∧ t ∈ sl ∧ t.taskId = k

/-- Of the calls that concern the scheduling of `k`, this may only be `op`. -/
def OnlyCalls (op : UserOp) (k : Nat) (l : Label) : Prop := Touches k l → l = .uSend op

/-- How many calls concern the scheduling of `k`. -/
def callsFor (k : Nat) (ls : List Label) : Nat := ls.countP (fun l => decide (Touches k l))

end DelayTimer.Spec
