import Verif.Model.System

/-! The record ids that the generator returns. -/

namespace DelayTimer

/-- What is known of two record ids the first of which was drawn earlier. -/
def Earlier (env : Env) (a b : Int) : Prop := a ≠ b ∧ (env.nightly = true → a < b)

theorem freshId_iff {env : Env} {recs : List Int} {rec : Int} :
    freshId env recs rec = true ↔ ∀ r ∈ recs, Earlier env r rec := by
  unfold freshId Earlier
  rw [List.all_eq_true]
  refine forall_congr' fun r => forall_congr' fun _ => ?_
  cases env.nightly <;> simp

/-- There is always an id left. -/
theorem exists_fresh (env : Env) (recs : List Int) : ∃ r, freshId env recs r = true := by
  have h : ∃ r, ∀ x ∈ recs, x < r := by
    induction recs with
    | nil => exact ⟨0, by simp⟩
    | cons x recs ih =>
      obtain ⟨r, hr⟩ := ih
      refine ⟨max r (x + 1), ?_⟩
      intro y hy
      rcases List.mem_cons.1 hy with rfl | hy
      · omega
      · have := hr y hy; omega
  obtain ⟨r, hr⟩ := h
  exact ⟨r, freshId_iff.2 fun x hx => ⟨by have := hr x hx; omega, fun _ => hr x hx⟩⟩

end DelayTimer
