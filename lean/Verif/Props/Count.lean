import Verif.Proofs.Count
import Verif.Examples

/-! Property C04: count-downs. -/

namespace DelayTimer
open Spec

theorem copies_init (env : Env) (P Q : Task → Prop) (k : Nat) : Copies P Q k (init env) :=
  (Nobody.init env k).copies

theorem total_init (env : Env) (k : Nat) : total k (init env) = 0 := by
  have h : ∀ n, n ≤ 3600 → wheelW k (init env).wheel n = 0 := by
    intro n
    induction n with
    | zero => intro _; rfl
    | succ n ih =>
      intro hn
      have : (init env).wheel n = some [] := by simp only [init]; rw [if_pos (by omega)]
      simp only [wheelW]
      rw [ih (by omega), this]; rfl
  have := h 3600 (Nat.le_refl _)
  simp only [total, this]
  simp [init, chanW, epcW, epcTok, tpcW, heldTok, startedTok]

/-- **C04**, over whole histories: however often tasks with id `k` are added, inserted or swapped in by
updates, and whatever else happens, the bodies of `k` are started at most as often as the counts of all
these tasks together allow (all of them being count-downs of at least one). -/
theorem C04_total_partial {env : Env} {k : Nat} {ls : List Label} {s : St}
    (hc : ∀ t ∈ handed k ls, ∃ n, runsLeft t = some n ∧ 1 ≤ n)
    (hr : run env (init env) ls = some s) :
    (startTicks k s.log).length ≤ ((handed k ls).map (fun t => (runsLeft t).getD 0)).sum := by
  have h0 : WheelOk (init env) := wheelOk (Reachable.init env)
  have := total_run ls h0 (copies_init env _ _ k) hc hr
  rw [total_init] at this
  have h1 : (startTicks k (init env).log).length = 0 := rfl
  have h2 : (handed k ls).map weight = (handed k ls).map (fun t => (runsLeft t).getD 0) := rfl
  rw [h2] at this
  omega

/-- **C04** for a task that is handed in once with a count of `n ≥ 1`: at most `n` starts, whatever
happens. -/
theorem C04_partial {env : Env} {k n : Nat} {t : Task} {ls : List Label} {s : St}
    (ht : handed k ls = [t]) (hn : runsLeft t = some n) (h1 : 1 ≤ n)
    (hr : run env (init env) ls = some s) : (startTicks k s.log).length ≤ n := by
  have := C04_total_partial (k := k) (by
    intro u hu; rw [ht] at hu; cases List.mem_singleton.1 hu; exact ⟨n, hn, h1⟩) hr
  simpa [ht, hn] using this

/-- The statement of **C04** as listed, including a count of zero. -/
def C04_statement : Prop :=
  ∀ (env : Env) (k n : Nat) (t : Task) (ls : List Label) (s : St), handed k ls = [t] →
    runsLeft t = some n → run env (init env) ls = some s → (startTicks k s.log).length ≤ n

namespace Ex

/-- Task 1 with a count of two, started at ticks 2 and 5. -/
def twice : List Label := add (times 2 1 101 3) ++ idle ++ idle ++ fire 1 0 ++ idle ++ idle ++ pop 1 1

/-- Its third alarm is never served. -/
def twiceOver : List Label := twice ++ [.tLapse] ++ idles 20

example : (run env0 (init env0) twiceOver).isSome = true ∧ handed 1 twiceOver = [times 2 1 101 3] ∧
    startTicks 1 (play env0 twiceOver).log = [2, 5] :=
  ⟨by decide +kernel, by rfl, by decide +kernel⟩

/-- Task 1 with a count of zero. -/
def zero : List Label := add (times 0 1 101 3) ++ idle ++ idle ++ fire 1 0 ++ idle ++ idle ++ fire 1 1

end Ex

/-- A count of zero wraps around: without overflow checks the task goes on and on. -/
theorem C04_violated : ¬ C04_statement := by
  intro h
  have := h Ex.env0 1 0 (Ex.times 0 1 101 3) Ex.zero (Ex.play Ex.env0 Ex.zero) (by rfl) rfl
    (Ex.play_run (by decide +kernel))
  revert this
  decide +kernel

/-- A body of `k` has just been started, or the scheduler thread has panicked. -/
def Stranded (k : Nat) : TPC → Prop
  | .append _ t _ => t.taskId = k
  | .gate _ t _ => t.taskId = k
  | .panicked => True
  | _ => False

theorem stranded_step {env : Env} {k : Nat} {s s' : St} {l : Label} (ho : env.overflowChecks = true)
    (hc : Copies (runsLeft · = some 0) (runsLeft · = some 0) k s) (hs : Stranded k s.tpc) (h : Act env s l s') :
    Stranded k s'.tpc ∧ s'.ticks = s.ticks ∧ startTicks k s'.log = startTicks k s.log := by
  have hd : ∀ p t rec, s.tpc = .gate p t rec → t.downCountAndSetValid env.overflowChecks = none := by
    intro p t rec ht
    rw [ht] at hs
    have hk : t.taskId = k := hs
    have h0 : runsLeft t = some 0 := hc.started t (by simp [ht, startedTok, hk])
    unfold Task.downCountAndSetValid
    cases hf : t.frequency <;> simp [runsLeft, hf] at h0 <;> subst h0 <;> simp [FrequencyInner.downCount, decU64, ho]
  have hlog : startTicks k s'.log = startTicks k s.log := by
    rcases starts_step k h with h | ⟨_, p, t, rec, box, h, _⟩
    · exact h.1
    · rw [h] at hs; exact hs.elim
  have hother : ∀ p, (s.tpc = .batch p → False) ∧ (∀ t, s.tpc = .check p t → False) ∧
      (∀ t u, s.tpc = .rearm p t u → False) := by
    intro p
    refine ⟨fun h => ?_, fun t h => ?_, fun t u h => ?_⟩ <;> (rw [h] at hs; exact hs)
  by_cases hl : TLabel l
  · cases h
    all_goals try exact hl.elim
    all_goals try (rename_i h; rw [h] at hs; exact hs.elim)
    all_goals try (rename_i h _; rw [h] at hs; exact hs.elim)
    all_goals try (rename_i h _ _; rw [h] at hs; exact hs.elim)
    all_goals try (exact absurd (by assumption) (hother _).1)
    all_goals try (exact absurd (by assumption) ((hother _).2.1 _))
    all_goals try (exact absurd (by assumption) ((hother _).2.2 _ _))
    case append h => rw [h] at hs; exact ⟨hs, rfl, hlog⟩
    case gate_panic h hd => exact ⟨trivial, rfl, hlog⟩
    case gate_again h hd' => rw [hd _ _ _ h] at hd'; cases hd'
    case gate_last h hd' => rw [hd _ _ _ h] at hd'; cases hd'
  · obtain ⟨h1, h2, _⟩ := other_thread h hl
    rw [h1]; exact ⟨hs, h2, hlog⟩

theorem stranded_run {env : Env} {k : Nat} (ho : env.overflowChecks = true) : ∀ (ls : List Label) {s s' : St},
    Copies (runsLeft · = some 0) (runsLeft · = some 0) k s → (∀ t ∈ handed k ls, runsLeft t = some 0) →
    (startTicks k s.log = [] ∨ Stranded k s.tpc ∧ startTicks k s.log = [s.ticks]) → run env s ls = some s' →
    startTicks k s'.log = [] ∨ Stranded k s'.tpc ∧ startTicks k s'.log = [s'.ticks] := by
  intro ls
  induction ls with
  | nil => intro s s' _ _ h hr; cases hr; exact h
  | cons l ls ih =>
    intro s s' hc ht h hr
    simp only [run] at hr
    have hh : handed k (l :: ls) = broughtBy k l ++ handed k ls := by simp [handed]
    rw [hh] at ht
    split at hr
    · rename_i s1 h1
      have h1 := step_act h1
      refine ih (copies_step (fun t c h => h) ?_ ?_ (fun t h => h) (fun t h => ht t (List.mem_append_left _ h)) hc h1)
        (fun t h => ht t (List.mem_append_right _ h)) ?_ hr
      · intro t h
        unfold Task.getNextExecTimestamp FrequencyInner.nextAlarm
        cases hf : t.frequency <;> simp [runsLeft, hf] at h ⊢ <;> exact h
      · intro t t' h hd
        unfold Task.downCountAndSetValid at hd
        cases hf : t.frequency <;> simp [runsLeft, hf] at h <;> subst h <;>
          simp [FrequencyInner.downCount, decU64, ho, hf] at hd
      · rcases h with h | ⟨h, h2⟩
        · rcases starts_step k h1 with ⟨h3, _⟩ | ⟨rfl, p, t, rec, box, _, h4, h5, h6⟩
          · left; rw [h3, h]
          · right
            refine ⟨by rw [h4]; exact h5, ?_⟩
            have h7 : s1.ticks = s.ticks := by
              cases h1; rfl
            rw [h6, h7]
            simp [startTicks, h]
        · obtain ⟨a, b, c⟩ := stranded_step ho hc h h1
          right; exact ⟨a, by rw [c, h2, b]⟩
    · cases hr

/-- **C04** With overflow checks a count of zero kills the scheduler thread: if only tasks with a count of zero are
handed in under the id `k`, then `k` is started at most once, and no tick comes after that one any more. -/
theorem C04_zero_panics {env : Env} {k : Nat} {ls : List Label} {s : St} (ho : env.overflowChecks = true)
    (hc : ∀ t ∈ handed k ls, runsLeft t = some 0) (hr : run env (init env) ls = some s) :
    startTicks k s.log = [] ∨ startTicks k s.log = [s.ticks] ∧ Stranded k s.tpc := by
  rcases stranded_run ho ls (copies_init env _ _ k) hc (Or.inl rfl) hr with h | ⟨h1, h2⟩
  · exact Or.inl h
  · exact Or.inr ⟨h2, h1⟩

/-- A task with a count of zero is started, and the thread is gone. -/
example : startTicks 1 (Ex.play { Ex.env0 with overflowChecks := true }
      (Ex.add (Ex.times 0 1 101 3) ++ Ex.idle ++ Ex.idle ++ Ex.pop 1 0)).log = [2] ∧
    (Ex.play { Ex.env0 with overflowChecks := true }
      (Ex.add (Ex.times 0 1 101 3) ++ Ex.idle ++ Ex.idle ++ Ex.pop 1 0)).tpc = .panicked :=
  ⟨by decide +kernel, by rfl⟩

end DelayTimer
