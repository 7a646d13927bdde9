import Verif.Model.System
import Verif.Spec.Schedule

/-!
Specification vocabulary for executions that never end, and for fairness.

A `Course` is what happens from the creation of the timer on, for all time; moments at which nothing happens are
allowed, so that it may also come to rest. Nothing is assumed about the order in which the threads take turns. The
fairness conditions say that a thread that can go on is not held up forever; each theorem names the ones it needs.
-/

namespace DelayTimer.Spec

/-- An execution without end: the states, and what happens between each and the next (`none`: nothing). -/
structure Course (env : Env) where
  st : Nat → St
  lab : Nat → Option Label
  start : st 0 = init env
  next : ∀ n, match lab n with
    | some l => step env (st n) l = some (st (n + 1))
    | none => st (n + 1) = st n

/-- The actions up to moment `n`. -/
def Course.upTo {env : Env} (c : Course env) : Nat → List Label
  | 0 => []
  | n + 1 => c.upTo n ++ (c.lab n).toList

/-- One of the actions `A` is possible. -/
def Enabled (env : Env) (A : Label → Prop) (s : St) : Prop := ∃ l s', A l ∧ step env s l = some s'

/-- One of the actions `A` happens at moment `n`. -/
def Course.Takes {env : Env} (c : Course env) (A : Label → Prop) (n : Nat) : Prop := ∃ l, A l ∧ c.lab n = some l

/-- If from some moment on the actions `A` are possible all the time, one of them happens. -/
def Course.WeaklyFair {env : Env} (c : Course env) (A : Label → Prop) : Prop :=
  ∀ n, (∀ m, n ≤ m → Enabled env A (c.st m)) → ∃ m, n ≤ m ∧ c.Takes A m

/-- If the actions `A` are possible again and again, one of them happens. -/
def Course.StronglyFair {env : Env} (c : Course env) (A : Label → Prop) : Prop :=
  ∀ n, (∀ k, ∃ m, k ≤ m ∧ Enabled env A (c.st m)) → ∃ m, n ≤ m ∧ c.Takes A m

/-- From moment `n` on, at some moment `P` holds. -/
def Course.Comes {env : Env} (c : Course env) (n : Nat) (P : St → Prop) : Prop := ∃ m, n ≤ m ∧ P (c.st m)

/-- Actions of the rounds of the sweeper. -/
def ByRounds : Label → Bool
  | .sWake _ | .sPop _ | .sRest => true
  | _ => false

/-- The sweeper takes in a deadline. -/
def TakesIn : Label → Bool
  | .sAdd => true
  | _ => false

/-- Run `rec` reports its completion. -/
def Reports (rec : Int) (l : Label) : Prop := ∃ now, l = .rFinish rec now

/-- A run that could report its completion all the time, and is not stopped, does so. (On smol the future of a stopped
run is dropped.) -/
def Course.RunsReport {env : Env} (c : Course env) : Prop :=
  ∀ rec n, (∀ m, n ≤ m → Enabled env (Reports rec) (c.st m) ∧ ∀ id, .stopped id rec ∉ (c.st m).log) →
    ∃ m, n ≤ m ∧ c.Takes (Reports rec) m

/-- The clock of the sweeper gets to second `r`: sooner or later all its readings are `r` or later. -/
def Course.SweeperGetsTo {env : Env} (c : Course env) (r : Nat) : Prop :=
  ∃ n, ∀ m now, n ≤ m → c.lab m = some (.sWake now) → r ≤ now

/-- The scheduler thread never ends. -/
def Course.Turning {env : Env} (c : Course env) : Prop := ∀ n, ¬ Gone env (c.st n)

/-- The event thread never ends. -/
def Course.Listening {env : Env} (c : Course env) : Prop := ∀ n, ¬ Deaf env (c.st n)

/-- The clock that the scheduler reads gets past second `d`: from some tick on all its readings are later. -/
def GetsPast (clock : Nat → Nat) (d : Nat) : Prop := ∃ N, ∀ n, N ≤ n → d < clock n

/-- Nobody is held up forever: the event thread, the scheduler, the rounds of the sweeper, the reports of runs, and
the sweeper's taking in of deadlines, which competes with the rounds for a lock. -/
structure Course.Fair {env : Env} (c : Course env) : Prop where
  events : c.WeaklyFair (ByEvents · = true)
  scheduler : c.WeaklyFair (ByScheduler · = true)
  rounds : c.WeaklyFair (ByRounds · = true)
  reports : c.RunsReport
  takesIn : c.StronglyFair (TakesIn · = true)

end DelayTimer.Spec
