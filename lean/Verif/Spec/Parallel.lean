import Verif.Spec.Operations
import Verif.Spec.History
import Verif.Spec.Schedule

/-! Specification vocabulary for the limit on parallel runs. -/

namespace DelayTimer.Spec

/-- Run `rec` of task `k` has started and has not ended. -/
def Ongoing (k : Nat) (rec : Int) (log : List Obs) : Prop :=
  rec ∈ startedRecsOf k log ∧ ¬ RunEnded k rec log

/-- At most `m` runs of `k` are going on. -/
def AtMostOngoing (k m : Nat) (log : List Obs) : Prop :=
  ∀ rs : List Int, rs.Nodup → (∀ r ∈ rs, Ongoing k r log) → rs.length ≤ m

/-- At least `m` runs of `k` are going on. -/
def AtLeastOngoing (k m : Nat) (log : List Obs) : Prop :=
  ∃ rs : List Int, rs.Nodup ∧ (∀ r ∈ rs, Ongoing k r log) ∧ m ≤ rs.length

/-- No run of `k` is going on. -/
def Resting (k : Nat) (log : List Obs) : Prop := ∀ r, ¬ Ongoing k r log

/-- Id `k` is handed in (added or inserted) only while it is neither scheduled nor running, and never
updated. -/
def FreshCall (k : Nat) (l : Label) (s : St) : Prop :=
  (Adds k l → Unscheduled k s ∧ (∀ t, (s.epc = .adv1 t ∨ ∃ h, s.epc = .adv2 t h) → t.taskId ≠ k) ∧ Resting k s.log) ∧
  ∀ t, l = .uSend (.update t) → t.taskId ≠ k

/-- When the event thread records a newly added `k`, no run of `k` is going on. -/
def FreshMark (k : Nat) (s : St) : Prop :=
  ∀ tag m, s.epc = .add3 tag m → m.taskId = k → Resting k s.log

/-- The scheduler has started a run of `k` and has not counted it yet. -/
def Uncounted (k : Nat) : TPC → Prop
  | .append _ t _ => t.taskId = k
  | .gate _ t _ => t.taskId = k
  | .rearm _ t u => t.taskId = k ∧ u = true
  | .mark _ id _ u => id = k ∧ u = true
  | _ => False

/-- The event ends a run of `k`. -/
def EventEnds (k : Nat) : TimerEvent → Prop
  | .cancelTask i _ => i = k
  | .timeoutTask i _ => i = k
  | .finishTask b => b.taskId = k
  | _ => False

/-- No end event of `k` is about to be taken while the scheduler still has to count a run of `k`. -/
def CountedFirst (k : Nat) (s : St) : Prop :=
  Uncounted k s.tpc → s.epc = .idle → ∀ e, s.chan.head? = some e → ¬ EventEnds k e

/-- The chain of `k`, if it has one, has not been dropped by its holder. -/
def ChainKept (k : Nat) (s : St) : Prop :=
  ∀ m mt, s.flags k = some m → m.maintainer = some mt → s.chainState mt.chain ≠ DROPPED

/-- Between `s` and `s'` the attempts of `k` are entries of the time table `T`, in order; only starts, of which
there are at most `r`, use up the `r` runs left; and as long as these are not used up, no due entry is missed. -/
def RunsOut (k : Nat) (r : Option Nat) (T : Nat → Option Nat) (s s' : St) : Prop :=
  ∃ ns ds, attempts k s'.log = attempts k s.log ++ ns ∧ startTicks k s'.log = startTicks k s.log ++ ds ∧
    ds.Sublist ns ∧ (∀ i n, ns[i]? = some n → T i = some n ∧ n ≤ s'.ticks) ∧
    (∀ x, r = some x → ds.length ≤ x) ∧
    ((∀ i n, T i = some n → n < s'.ticks → ns[i]? = some n) ∨ r = some ds.length)

/-- The ticks in which a run of `k` was skipped. -/
def skipTicks (k : Nat) : List Obs → List Nat
  | [] => []
  | .skipped id n :: log => if id = k then skipTicks k log ++ [n] else skipTicks k log
  | _ :: log => skipTicks k log

/-- No operation on `k` is queued or being processed, not even to the point where only its mark is left to record. -/
structure Settled (k : Nat) (s : St) : Prop where
  quiet : Quiet k s
  recorded : ∀ tag m, s.epc = .add3 tag m → m.taskId ≠ k

/-- A copy of `k` with `r` runs left and the alarms `al` waits in the wheel. -/
def WaitsWith (k : Nat) (r : Option Nat) (al : Nat → Option Nat) (s : St) : Prop :=
  ∃ i sl u, s.wheel i = some sl ∧ u ∈ sl ∧ u.taskId = k ∧ runsLeft u = r ∧ ∀ j, alarm j u = al j

end DelayTimer.Spec
