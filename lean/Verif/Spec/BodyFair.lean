import Verif.Spec.Body
import Verif.Spec.Fair
import Verif.Spec.History

/-!
# Executions of the system with its bodies that never end

`Spec.Course` for the transition system of `Model.Body`. The fairness conditions say of the threads of the timer and of
the runtimes that they do not leave aside forever what they could go on with, and of the rest of the world that what a
body waits for comes.
-/

namespace DelayTimer.Spec

variable {σ : Type}

/-- An execution without end: the states, and what happens between each and the next (`none`: nothing). -/
structure BodyCourse (B : Bodies σ) (env : Env) where
  st : Nat → BSt σ
  lab : Nat → Option BLabel
  start : st 0 = BSt.init σ env
  next : ∀ n, match lab n with
    | some l => (st n).step B env l = some (st (n + 1))
    | none => st (n + 1) = st n

/-- One of the actions `A` is possible. -/
def Possible (B : Bodies σ) (env : Env) (A : BLabel → Prop) (w : BSt σ) : Prop := ∃ l w', A l ∧ w.step B env l = some w'

/-- One of the actions `A` happens at moment `n`. -/
def BodyCourse.Takes {B : Bodies σ} {env : Env} (c : BodyCourse B env) (A : BLabel → Prop) (n : Nat) : Prop :=
  ∃ l, A l ∧ c.lab n = some l

/-- If from some moment on the actions `A` are possible all the time, one of them happens. -/
def BodyCourse.WeaklyFair {B : Bodies σ} {env : Env} (c : BodyCourse B env) (A : BLabel → Prop) : Prop :=
  ∀ n, (∀ m, n ≤ m → Possible B env A (c.st m)) → ∃ m, n ≤ m ∧ c.Takes A m

/-- Steps of a thread of the timer. -/
def OfThread (P : Label → Bool) : BLabel → Prop
  | .base l => P l = true
  | _ => False

/-- Left to itself, a body in the state `x` comes to its end whatever the values it waits for. -/
inductive Halts (B : Bodies σ) : σ → Prop
  | finish {x : σ} (h : B.move x = .finish) : Halts B x
  | panic {x : σ} (h : B.move x = .panic) : Halts B x
  | effect {x z : σ} {e : Nat} (h : B.move x = .effect e z) (hz : Halts B z) : Halts B x
  | await {x : σ} {r : Nat → σ} (h : B.move x = .await r) (hr : ∀ v, Halts B (r v)) : Halts B x

/-- A body that has started in the state `x` can do `es` in all: these and no more, until it returns or panics. -/
def DoesAll (B : Bodies σ) (x : σ) (es : List Nat) : Prop := ∃ y, Goes B x es y ∧ (B.move y = .finish ∨ B.move y = .panic)

/-- How often the runs of task `k` have done `e`. -/
def timesDone (k e : Nat) (w : BSt σ) : Nat :=
  w.effects.countP fun p => decide (p.1 ∈ startedRecsOf k w.base.log) && (p.2 == e)

end DelayTimer.Spec
