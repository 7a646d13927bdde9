import Verif.Spec.Schedule

/-!
Deadlines that lie ahead.
-/

namespace DelayTimer.Spec

/-- Of the runs started in `B` under a running time limit, those that the sweeper had not dealt with when it dealt with `u` (at
`n`, just after `B`) have their deadlines at `e` or later. -/
def LaterDue (ls : List Label) (u : RecycleUnit) (n : Nat) (B : List Obs) (e : Nat) : Prop :=
  ∀ k rec i ts t m, t ∈ handed k ls → t.maximumRunningTime = some m → .started k t.routine rec i ts ∈ B →
    (∃ v now, .swept v now ∈ .swept u n :: B ∧ v.recordId = rec) ∨ e ≤ (ts + m) % 2 ^ 64

/-- When the last round of the sweeper began (0 before the first). -/
def lastRound (ls : List Label) : Nat :=
  ls.foldl (fun q l => match l with | .sWake now => now | _ => q) 0

end DelayTimer.Spec
