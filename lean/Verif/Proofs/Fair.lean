import Verif.Spec.Fair
import Verif.Proofs.Runs

/-! Executions without end: finite parts, and what fairness gives. -/

namespace DelayTimer
open Spec

theorem course_step {env : Env} (c : Course env) {n : Nat} {l : Label} (h : c.lab n = some l) :
    step env (c.st n) l = some (c.st (n + 1)) := by
  have := c.next n; rw [h] at this; exact this

theorem course_rest {env : Env} (c : Course env) {n : Nat} (h : c.lab n = none) : c.st (n + 1) = c.st n := by
  have := c.next n; rw [h] at this; exact this

theorem course_run {env : Env} (c : Course env) : ∀ n, run env (init env) (c.upTo n) = some (c.st n) := by
  intro n
  induction n with
  | zero => rw [c.start]; rfl
  | succ n ih =>
    rw [Course.upTo, run_append, ih]
    cases h : c.lab n with
    | none => simp [run, course_rest c h]
    | some l => simp [run, course_step c h]

theorem course_reach {env : Env} (c : Course env) (n : Nat) : Reachable env (c.st n) := ⟨_, course_run c n⟩

/-- What happens between two moments. -/
theorem course_between {env : Env} (c : Course env) {n m : Nat} (h : n ≤ m) :
    ∃ ls, c.upTo m = c.upTo n ++ ls ∧ run env (c.st n) ls = some (c.st m) := by
  induction m with
  | zero => obtain rfl : n = 0 := by omega
            exact ⟨[], by simp, rfl⟩
  | succ m ih =>
    by_cases hm : n = m + 1
    · subst hm; exact ⟨[], by simp, rfl⟩
    · obtain ⟨ls, h1, h2⟩ := ih (by omega)
      refine ⟨ls ++ (c.lab m).toList, by rw [Course.upTo, h1, List.append_assoc], ?_⟩
      rw [run_append, h2]
      cases hl : c.lab m with
      | none => simp [run, course_rest c hl]
      | some l => simp [run, course_step c hl]

theorem mem_upTo {env : Env} (c : Course env) {l : Label} : ∀ n, l ∈ c.upTo n ↔ ∃ m, m < n ∧ c.lab m = some l := by
  intro n
  induction n with
  | zero => simp [Course.upTo]
  | succ n ih =>
    simp only [Course.upTo, List.mem_append, ih]
    constructor
    · rintro (⟨m, h1, h2⟩ | h)
      · exact ⟨m, by omega, h2⟩
      · exact ⟨n, by omega, by cases hn : c.lab n <;> rw [hn] at h <;> simp at h; rw [h]⟩
    · rintro ⟨m, h1, h2⟩
      by_cases hm : m = n
      · subst hm; right; rw [h2]; simp
      · exact Or.inl ⟨m, by omega, h2⟩

theorem between_mem {env : Env} (c : Course env) {n m : Nat} (h : n ≤ m) {P : Label → Prop}
    (hP : ∀ i l, n ≤ i → c.lab i = some l → P l) :
    ∃ ls, (∀ l ∈ ls, P l) ∧ run env (c.st n) ls = some (c.st m) ∧ c.upTo m = c.upTo n ++ ls := by
  induction m with
  | zero => obtain rfl : n = 0 := by omega
            exact ⟨[], by simp, rfl, by simp⟩
  | succ m ih =>
    by_cases hm : n = m + 1
    · subst hm; exact ⟨[], by simp, rfl, by simp⟩
    · obtain ⟨ls, h0, h2, h1⟩ := ih (by omega)
      refine ⟨ls ++ (c.lab m).toList, ?_, ?_, by rw [Course.upTo, h1, List.append_assoc]⟩
      · intro l hl
        rcases List.mem_append.1 hl with hl | hl
        · exact h0 l hl
        · cases hx : c.lab m <;> rw [hx] at hl <;> simp at hl
          subst hl
          exact hP m _ (by omega) hx
      · rw [run_append, h2]
        cases hl : c.lab m with
        | none => simp [run, course_rest c hl]
        | some l => simp [run, course_step c hl]

theorem course_log {env : Env} (c : Course env) {n m : Nat} (h : n ≤ m) {o : Obs} (ho : o ∈ (c.st n).log) :
    o ∈ (c.st m).log := by
  obtain ⟨ls, _, h2⟩ := course_between c h
  exact log_mono_run h2 ho

/-- What no action undoes stays. -/
theorem course_keeps {env : Env} (c : Course env) (P : St → Prop) {n : Nat} (h0 : P (c.st n))
    (hs : ∀ m l, n ≤ m → c.lab m = some l → P (c.st m) → P (c.st (m + 1))) : ∀ m, n ≤ m → P (c.st m) := by
  intro m
  induction m with
  | zero => intro h; obtain rfl : n = 0 := by omega
            exact h0
  | succ m ih =>
    intro h
    by_cases hm : n = m + 1
    · subst hm; exact h0
    · have h1 := ih (by omega)
      cases hl : c.lab m with
      | none => rw [course_rest c hl]; exact h1
      | some l => exact hs m l (by omega) hl h1

/-- A measure that no action increases and that the actions `A` decrease; they are possible until the goal is
reached, so it is reached. -/
theorem leads {env : Env} (c : Course env) {A : Label → Prop} (hf : c.WeaklyFair A) (P : St → Prop) (f : St → Nat)
    {n0 : Nat} (hen : ∀ m, n0 ≤ m → ¬ P (c.st m) → Enabled env A (c.st m))
    (hA : ∀ m l, n0 ≤ m → c.lab m = some l → A l → ¬ P (c.st m) → P (c.st (m + 1)) ∨ f (c.st (m + 1)) < f (c.st m))
    (hO : ∀ m l, n0 ≤ m → c.lab m = some l → ¬ A l → ¬ P (c.st m) → P (c.st (m + 1)) ∨ f (c.st (m + 1)) ≤ f (c.st m)) :
    c.Comes n0 P := by
  have key : ∀ k n, n0 ≤ n → f (c.st n) = k → c.Comes n P := by
    intro k
    induction k using Nat.strongRecOn with
    | ind k ih =>
      intro n hn hk
      refine Classical.byContradiction fun hno => ?_
      have hno' : ∀ m, n ≤ m → ¬ P (c.st m) := fun m hm hp => hno ⟨m, hm, hp⟩
      have hle : ∀ m, n ≤ m → f (c.st m) ≤ f (c.st n) := by
        refine course_keeps c (fun s => f s ≤ f (c.st n)) (Nat.le_refl _) ?_
        intro m l hm hl h
        by_cases ha : A l
        · rcases hA m l (by omega) hl ha (hno' m hm) with h1 | h1
          · exact absurd h1 (hno' _ (by omega))
          · omega
        · rcases hO m l (by omega) hl ha (hno' m hm) with h1 | h1
          · exact absurd h1 (hno' _ (by omega))
          · omega
      obtain ⟨m, hm, l, ha, hl⟩ := hf n (fun m hm => hen m (by omega) (hno' m hm))
      rcases hA m l (by omega) hl ha (hno' m hm) with h1 | h1
      · exact hno' _ (by omega) h1
      · have := hle m hm
        obtain ⟨m', h2, h3⟩ := ih (f (c.st (m + 1))) (by omega) (m + 1) (by omega) rfl
        exact hno' m' (by omega) h3
  exact key _ n0 (Nat.le_refl _) rfl

/-- The same for actions that are possible again and again. -/
theorem leads_strong {env : Env} (c : Course env) {A : Label → Prop} (hf : c.StronglyFair A) (P : St → Prop) (f : St → Nat)
    {n0 : Nat} (hen : (∀ m, n0 ≤ m → ¬ P (c.st m)) → ∀ m, n0 ≤ m → ∃ m', m ≤ m' ∧ Enabled env A (c.st m'))
    (hA : ∀ m l, n0 ≤ m → c.lab m = some l → A l → ¬ P (c.st m) → P (c.st (m + 1)) ∨ f (c.st (m + 1)) < f (c.st m))
    (hO : ∀ m l, n0 ≤ m → c.lab m = some l → ¬ A l → ¬ P (c.st m) → P (c.st (m + 1)) ∨ f (c.st (m + 1)) ≤ f (c.st m)) :
    c.Comes n0 P := by
  refine Classical.byContradiction fun hno => ?_
  have hno' : ∀ m, n0 ≤ m → ¬ P (c.st m) := fun m hm hp => hno ⟨m, hm, hp⟩
  have key : ∀ k n, n0 ≤ n → f (c.st n) = k → False := by
    intro k
    induction k using Nat.strongRecOn with
    | ind k ih =>
      intro n hn hk
      have hle : ∀ m, n ≤ m → f (c.st m) ≤ f (c.st n) := by
        refine course_keeps c (fun s => f s ≤ f (c.st n)) (Nat.le_refl _) ?_
        intro m l hm hl h
        by_cases ha : A l
        · rcases hA m l (by omega) hl ha (hno' m (by omega)) with h1 | h1
          · exact absurd h1 (hno' _ (by omega))
          · omega
        · rcases hO m l (by omega) hl ha (hno' m (by omega)) with h1 | h1
          · exact absurd h1 (hno' _ (by omega))
          · omega
      obtain ⟨m, hm, l, ha, hl⟩ := hf n (fun j => by
        obtain ⟨m', h1, h2⟩ := hen hno' (max j n0) (Nat.le_max_right _ _)
        exact ⟨m', Nat.le_trans (Nat.le_max_left _ _) h1, h2⟩)
      rcases hA m l (by omega) hl ha (hno' m (by omega)) with h1 | h1
      · exact hno' _ (by omega) h1
      · have := hle m hm
        exact ih (f (c.st (m + 1))) (by omega) (m + 1) (by omega) rfl
  exact key _ n0 (Nat.le_refl _) rfl

end DelayTimer
