import Verif.Proofs.Start

/-! Facts about the task the scheduler holds, about the stored time and about an idle timer. -/

namespace DelayTimer
open Spec

/-- What the scheduler holds is not pending any more, and was taken out in this very tick. -/
structure HandOk (s : St) : Prop where
  notPending : ∀ k, tpcTok k s.tpc ≠ [] → k ∉ pendingOf s.tpc
  last : ∀ k, tpcTok k s.tpc ≠ [] → ∃ A, attempts k s.log = A ++ [s.ticks]

theorem handOk_step {env : Env} {s : St} {l : Label} {s' : St} (hp : PendOk s) (hs : HandOk s)
    (h : Act env s l s') : HandOk s' := by
  have hA := fun k => attempts_step k h
  by_cases hl : TLabel l
  · cases h
    all_goals try (exact False.elim hl)
    all_goals try (exact ⟨fun k hk => absurd rfl hk, fun k hk => absurd rfl hk⟩)
    case pop_hit pending id sl u h hmem hw hr =>
      have hid := (removeTask_some hr).2
      have hk : ∀ k, tpcTok k (TPC.check (pending.erase id) u) ≠ [] → id = k := by
        intro k hk
        simp only [tpcTok] at hk
        split at hk
        · rw [← hid]; assumption
        · exact absurd rfl hk
      refine ⟨fun k hk' => ?_, fun k hk' => ?_⟩
      · rw [← hk k hk']
        unfold PendOk at hp
        rw [h] at hp
        exact (List.Nodup.not_mem_erase hp :)
      · exact ⟨attempts k s.log, by simp [attempts, hk k hk']⟩
    case gate_again pending u u' rec h hd =>
      have := hs.notPending; have h2 := hs.last
      rw [h] at this h2
      have e : ∀ k, tpcTok k (TPC.rearm pending u' true) ≠ [] → tpcTok k (TPC.gate pending u rec) ≠ [] := by
        intro k
        simp only [tpcTok, down_taskId hd]
        split <;> simp
      exact ⟨fun k hk => this k (e k hk), fun k hk => h2 k (e k hk)⟩
    all_goals (
      have := hs.notPending; have h2 := hs.last
      rw [‹s.tpc = _›] at this h2
      refine ⟨this, fun k hk => ?_⟩
      obtain ⟨A, e⟩ := h2 k hk
      refine ⟨A, ?_⟩
      simpa [attempts] using e)
  · obtain ⟨e1, e2, _⟩ := other_thread h hl
    rw [show HandOk s' ↔ _ from ⟨fun h => And.intro h.1 h.2, fun h => ⟨h.1, h.2⟩⟩, e1, e2]
    refine ⟨hs.notPending, fun k hk => ?_⟩
    rcases hA k with e | ⟨e0, _⟩
    · rw [e]; exact hs.last k hk
    · subst e0; exact absurd trivial hl

theorem handOk {env : Env} {s : St} (h : Reachable env s) : HandOk s := by
  refine Reachable.induct HandOk ⟨fun k hk => absurd rfl hk, fun k hk => absurd rfl hk⟩ (fun s l s' hr hs h => ?_) s h
  exact handOk_step (pendOk hr) hs h

/-- The stored time is a reading of the clock. -/
def TimeOk (env : Env) (s : St) : Prop :=
  (s.ticks = 0 ∧ s.globalTime = env.boot) ∨ ∃ n, n ≤ s.ticks ∧ s.ticks ≤ n + 1 ∧ s.globalTime = env.clock n

theorem timeOk_step {env : Env} {s : St} {l : Label} {s' : St} (hp : s.tpc = .head ∨ s.tpc = .store ∨
    s.globalTime = env.clock s.ticks ∨ s.tpc = .halted) (hs : TimeOk env s) (h : Act env s l s') :
    TimeOk env s' ∧ (s'.tpc = .head ∨ s'.tpc = .store ∨ s'.globalTime = env.clock s'.ticks ∨ s'.tpc = .halted) := by
  unfold TimeOk at hs ⊢
  cases h
  all_goals try (exact ⟨hs, hp⟩)
  all_goals try (refine ⟨hs, ?_⟩; simp; done)
  all_goals try (simp only [‹s.tpc = _›, reduceCtorEq, false_or, or_false] at hp)
  all_goals try (exact ⟨hs, Or.inr (Or.inr (Or.inl hp))⟩)
  all_goals try (refine ⟨?_, ?_⟩ <;> first | simpa using hs | simpa using hp)
  case store h => exact ⟨Or.inr ⟨s.ticks, by simp, by simp, rfl⟩, by simp⟩
  case lapse h => exact ⟨Or.inr ⟨s.ticks, by simp, by simp, hp⟩, by simp⟩

theorem timeOk {env : Env} {s : St} (h : Reachable env s) : TimeOk env s := by
  refine (Reachable.induct (fun s => TimeOk env s ∧ (s.tpc = .head ∨ s.tpc = .store ∨
    s.globalTime = env.clock s.ticks ∨ s.tpc = .halted)) ⟨Or.inl ⟨rfl, rfl⟩, Or.inl rfl⟩
    (fun s l s' hr hs h => ?_) s h).1
  exact timeOk_step hs.2 hs.1 h

theorem Paced.mono {clock : Nat → Nat} (h : Paced clock) {n m : Nat} (hnm : n ≤ m) : clock n ≤ clock m := by
  by_cases he : n = m
  · rw [he]; exact Nat.le_refl _
  · have := h n (m - n)
    rw [show n + (m - n) = m by omega] at this
    omega

/-- Nothing has happened so far except `n` ticks. -/
structure IdleAt (env : Env) (n : Nat) (s : St) : Prop where
  ticks : s.ticks = n
  tpc : s.tpc = .head
  wheel : s.wheel = (init env).wheel
  flags : s.flags = fun _ => none
  chan : s.chan = []
  epc : s.epc = .idle
  motivation : s.motivation = true
  log : s.log = []
  time : s.globalTime = if n = 0 then env.boot else env.clock (n - 1)
  hand : s.secondHand = n % 3600

/-- An idle timer gets to any tick. -/
theorem idleAt (env : Env) (n : Nat) : ∃ ls s, run env (init env) ls = some s ∧ IdleAt env n s ∧
    ∀ l ∈ ls, CleanT l := by
  induction n with
  | zero => exact ⟨[], _, rfl, ⟨rfl, rfl, rfl, rfl, rfl, rfl, rfl, rfl, rfl, rfl⟩, by simp⟩
  | succ n ih =>
    obtain ⟨ls, s, hr, hi, hc⟩ := ih
    have hw : s.wheel s.secondHand = some [] := by
      rw [hi.wheel, hi.hand]; simp only [init]; rw [if_pos (Nat.mod_lt _ (by decide))]
    obtain ⟨s1, h1⟩ : ∃ s1, run env s [.tLoad, .tStore, .tArrive, .tLapse] = some s1 := by
      simp [run, step, tLoad, tStore, tArrive, tLapse, hi.tpc, hi.motivation, hw, Slot.arrivalTimeTasks]
    refine ⟨ls ++ [.tLoad, .tStore, .tArrive, .tLapse], s1, by rw [run_append, hr]; exact h1, ?_, ?_⟩
    · simp [run, step, tLoad, tStore, tArrive, tLapse, hi.tpc, hi.motivation, hw, Slot.arrivalTimeTasks] at h1
      subst h1
      refine ⟨by simp [hi.ticks], rfl, ?_, hi.flags, hi.chan, hi.epc, rfl, hi.log, by simp [hi.ticks], ?_⟩
      · show set s.wheel s.secondHand (some []) = _
        rw [← hi.wheel]
        funext x
        unfold set
        split
        · subst x; rw [hw]
        · rfl
      · show (s.secondHand + 1) % 3600 = (n + 1) % 3600
        rw [hi.hand]; omega
    · intro l hl
      rcases List.mem_append.1 hl with h | h
      · exact hc l h
      · simp at h; rcases h with rfl | rfl | rfl | rfl <;> trivial

theorem IdleAt.absent {env : Env} {n : Nat} {s : St} (h : IdleAt env n s) (k : Nat) : Absent k s := by
  refine ⟨?_, by rw [h.tpc]; exact id⟩
  rintro ⟨i, sl, t, h1, h2, _⟩
  rw [h.wheel] at h1
  simp only [init] at h1
  split at h1 <;> cases h1
  cases h2

end DelayTimer
