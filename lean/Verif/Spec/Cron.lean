import Verif.Model.Frequency

/-! What the alarms of a cron expression are, given the instants it matches. -/

namespace DelayTimer.Spec

/-- `a` is the first matching instant after `t`. -/
def FirstAfter (m : Int → Prop) (t a : Int) : Prop := t < a ∧ m a ∧ ∀ b, t < b → m b → a ≤ b

/-- The contract of the cron library: the schedule answers with the first matching instant after a given one, and with
nothing exactly if there is none. -/
def Iterates (s : CronSchedule) (m : Int → Prop) : Prop :=
  ∀ t, (∀ a, s.nextAfter t = some a → FirstAfter m t a) ∧ (s.nextAfter t = none → ∀ b, t < b → ¬ m b)

/-- `l` is the list, in ascending order, of the matching instants `x` with `lo < x < hi`. -/
def Between (m : Int → Prop) (lo hi : Int) (l : List Int) : Prop :=
  l.Pairwise (· < ·) ∧ ∀ x, x ∈ l ↔ lo < x ∧ x < hi ∧ m x

/-- `a` is the matching instant after `t` that has exactly `k` others in between. -/
def NthAfter (m : Int → Prop) (t : Int) (k : Nat) (a : Int) : Prop :=
  t < a ∧ m a ∧ ∃ l, Between m t a l ∧ l.length = k

/-- There are only `k` or fewer matching instants after `t`. -/
def AtMost (m : Int → Prop) (t : Int) (k : Nat) : Prop :=
  ∃ l : List Int, l.length ≤ k ∧ ∀ x, t < x → m x → x ∈ l

end DelayTimer.Spec
