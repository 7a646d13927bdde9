import Verif.Model.Body

/-!
# What is said about bodies
-/

namespace DelayTimer.Spec

variable {σ : Type}

/-- What a run did, first effect first. -/
def effectsOf (rec : Int) (es : List (Int × Nat)) : List Nat := ((es.filter fun p => p.1 == rec).map (·.2)).reverse

/-- Left to itself, a body in the state `x` can do `es` and be in the state `y` then. -/
inductive Goes (B : Bodies σ) : σ → List Nat → σ → Prop
  | refl (x : σ) : Goes B x [] x
  | effect {x z y : σ} {e : Nat} {es : List Nat} (h : B.move x = .effect e z) (hg : Goes B z es y) : Goes B x (e :: es) y
  | await {x y : σ} {r : Nat → σ} {es : List Nat} (v : Nat) (h : B.move x = .await r) (hg : Goes B (r v) es y) : Goes B x es y

/-- The same without waiting. -/
inductive Stretch (B : Bodies σ) : σ → List Nat → Prop
  | nil (x : σ) : Stretch B x []
  | effect {x z : σ} {e : Nat} {es : List Nat} (h : B.move x = .effect e z) (hg : Stretch B z es) : Stretch B x (e :: es)

/-- The body of the run is being executed by a thread of the runtime, and in the state `x`. -/
def Executing (w : BSt σ) (rec : Int) (x : σ) : Prop := ∃ j, w.exec rec = some j ∧ j.place = .active x

/-- Steps of the runtime with the body of the run `rec` that do not stop it. -/
def Only (rec : Int) : BLabel → Prop
  | .poll r | .move r | .wake r _ => r = rec
  | _ => False

end DelayTimer.Spec
