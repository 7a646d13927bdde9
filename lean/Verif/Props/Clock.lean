import Verif.Model.Clock

/-! # C47: tick times do not drift -/

namespace DelayTimer

theorem SmolClock.serve_eq (period : Nat) : ∀ (calls : List Nat) (d : Nat) (n : Nat) (h : n < calls.length),
    (SmolClock.serve { inner := d, period := period, offset := d } calls)[n]? =
      some (max calls[n] (d + n * period)) := by
  intro calls
  induction calls with
  | nil => intro d n h; simp at h
  | cons t ts ih =>
    intro d n h
    cases n with
    | zero => simp [SmolClock.serve, SmolClock.tick]
    | succ n =>
      simp only [SmolClock.serve, SmolClock.tick, List.getElem?_cons_succ, List.getElem_cons_succ]
      rw [ih (d + period) n (by simpa using h)]
      congr 2; rw [Nat.add_mul]; omega

theorem TokioClock.serve_eq (period : Nat) : ∀ (calls : List Nat) (d : Nat) (n : Nat) (h : n < calls.length),
    (TokioClock.serve { next := d, period := period } calls)[n]? =
      some (max calls[n] (d + n * period)) := by
  intro calls
  induction calls with
  | nil => intro d n h; simp at h
  | cons t ts ih =>
    intro d n h
    cases n with
    | zero => simp [TokioClock.serve, TokioClock.tick]
    | succ n =>
      simp only [TokioClock.serve, TokioClock.tick, List.getElem?_cons_succ, List.getElem_cons_succ]
      rw [ih (d + period) n (by simpa using h)]
      congr 2; rw [Nat.add_mul]; omega

/-- C47, smol. Whenever the ticks are asked for, the n-th one (from 0) completes at its call or at
`start + (n+1) * period`, whichever is later: lateness is never carried over to later ticks. -/
theorem C47_smol (start period : Nat) (calls : List Nat) (n : Nat) (h : n < calls.length) :
    ((SmolClock.new start period).serve calls)[n]? =
      some (max calls[n] (start + (n + 1) * period)) := by
  unfold SmolClock.new
  rw [SmolClock.serve_eq period calls (start + period) n h]
  congr 2; rw [Nat.add_mul]; omega

/-- C47, tokio: the same with the first tick due at once. -/
theorem C47_tokio (start period : Nat) (calls : List Nat) (n : Nat) (h : n < calls.length) :
    ((TokioClock.new start period).serve calls)[n]? =
      some (max calls[n] (start + n * period)) := by
  unfold TokioClock.new
  exact TokioClock.serve_eq period calls start n h

/-- C47, consequence: the n-th tick never comes before its due instant. -/
theorem C47_never_before_due (start period : Nat) (calls : List Nat) (n : Nat) (x y : Nat)
    (hx : ((SmolClock.new start period).serve calls)[n]? = some x)
    (hy : ((TokioClock.new start period).serve calls)[n]? = some y) :
    start + (n + 1) * period ≤ x ∧ start + n * period ≤ y := by
  have len1 : ∀ (cs : List Nat) (c : SmolClock), (c.serve cs).length = cs.length := by
    intro cs; induction cs with
    | nil => intro c; rfl
    | cons t ts ih => intro c; simp [SmolClock.serve, ih]
  have h : n < calls.length := by
    have := (List.getElem?_eq_some_iff.1 hx).1
    rwa [len1] at this
  rw [C47_smol start period calls n h] at hx
  rw [C47_tokio start period calls n h] at hy
  cases hx; cases hy
  omega

/-- A served sequence: the second tick is 2.5 periods late, the third comes immediately (burst) and
the fifth is on time again. -/
example : (SmolClock.new 100 10).serve [105, 145, 145, 146, 147] = [110, 145, 145, 146, 150] := by
  decide

/-- C47, consequence: after a stall ticks come in bursts. If the tick `n` is asked for only when the tick `n + k` was
due, then all of these ticks complete at once when they are asked for, so at one and the same instant if asked for without
delay. This is why C09 needs an assumption on the pace. -/
theorem C47_burst (start period : Nat) (calls : List Nat) (n k : Nat) (t : Nat)
    (hk : n + k < calls.length) (ht : start + (n + k + 1) * period ≤ t)
    (hc : ∀ i, n ≤ i → i ≤ n + k → calls[i]? = some t) :
    ∀ i, n ≤ i → i ≤ n + k →
      ((SmolClock.new start period).serve calls)[i]? = some t ∧ ((TokioClock.new start period).serve calls)[i]? = some t := by
  intro i h1 h2
  have hi : i < calls.length := by omega
  have hti : calls[i] = t := by
    have := hc i h1 h2
    rw [List.getElem?_eq_getElem hi] at this
    exact Option.some.inj this
  rw [C47_smol start period calls i hi, C47_tokio start period calls i hi, hti]
  have h3 : (i + 1) * period ≤ (n + k + 1) * period := Nat.mul_le_mul_right _ (by omega)
  have h4 : i * period ≤ (i + 1) * period := Nat.mul_le_mul_right _ (by omega)
  constructor <;> congr 1 <;> omega

/-- Three ticks within one instant. -/
example : (TokioClock.new 0 1).serve [0, 10, 10, 10] = [0, 10, 10, 10] ∧
    (∀ i, 1 ≤ i → i ≤ 1 + 2 → [0, 10, 10, 10][i]? = some 10) ∧ 0 + (1 + 2 + 1) * 1 ≤ 10 :=
  ⟨by decide, by intro i h1 h2; match i, h1, h2 with | 1, _, _ => rfl | 2, _, _ => rfl | 3, _, _ => rfl, by decide⟩

end DelayTimer
