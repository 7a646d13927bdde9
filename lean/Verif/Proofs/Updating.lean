import Verif.Proofs.Removal

/-!
# An update, whatever the scheduler is doing

The event thread puts the new task into the slot named by the mark. If the old one is there, it is replaced, also when the
scheduler has its id in its list: it will then find the new one.
-/

namespace DelayTimer
open Spec

/-- Every mark names a slot of the wheel. -/
structure MarksLow (s : St) : Prop where
  flags : ∀ k m, s.flags k = some m → m.slotMark < 3600
  epc : ∀ tag m, s.epc = .add3 tag m → m.slotMark < 3600
  tpc : ∀ p id i u, s.tpc = .mark p id i u → i < 3600

theorem marksLow_step {env : Env} {s : St} {l : Label} {s' : St} (hs : MarksLow s) (h : Act env s l s') : MarksLow s' := by
  obtain ⟨h1, h2, h3⟩ := hs
  refine ⟨fun k m hm => ?_, ?_, ?_⟩
  · rcases flag_step k h with e | ⟨p, i, u, m', e1, _, e2, e3, _⟩ | ⟨tag, m', e1, _, _, e2⟩ | ⟨ok, _, _, e⟩
    · rw [hm] at e
      cases hf : s.flags k with
      | none => rw [hf] at e; exact False.elim e
      | some m0 => rw [hf] at e; rw [e.2]; exact h1 k m0 hf
    · rw [hm] at e2; cases e2; rw [e3]; exact h3 _ _ _ _ e1
    · rw [hm] at e2; cases e2; exact h2 _ _ e1
    · rw [hm] at e; cases e
  · cases h
    all_goals try (exact h2)
    all_goals try (intro tag m hx; simp at hx; done)
    all_goals (
      rintro tag m ⟨⟩
      have hlt : ∀ n, n % SLOT_COUNT < 3600 := fun n => Nat.mod_lt n (by decide)
      simp_all)
  · cases h
    all_goals try (exact h3)
    all_goals try (intro p id i u hx; simp at hx; done)
    all_goals try (simpa using h3)
    all_goals (
      rintro p id i u ⟨⟩
      have hlt : ∀ n, n % SLOT_COUNT < 3600 := fun n => Nat.mod_lt n (by decide)
      simp_all)

theorem marksLow {env : Env} {s : St} (h : Reachable env s) : MarksLow s := by
  refine Reachable.induct MarksLow ?_ (fun s l s' _ hs h => marksLow_step hs h) s h
  exact ⟨fun k m h => (by cases h), fun tag m h => (by cases h), fun p id i u h => (by cases h)⟩

/-- An update of a task that is in no other slot than the one named by its mark. -/
theorem update_puts {env : Env} {k : Nat} {u : Task} {m : TaskMark} {sl : Slot} {s s1 : St} {rest : List TimerEvent}
    (hc : s.chan = .updateTask u :: rest) (hk : u.taskId = k) (hv : u.valid = true) (hcy : u.cylinderLine = 0)
    (hf : s.flags k = some m) (hw : s.wheel m.slotMark = some sl) (hall : ∀ j v, inWheel s.wheel k j v → j = m.slotMark)
    (htok : tpcTok k s.tpc = []) (hp : k ∈ pendingOf s.tpc → m.slotMark = s.secondHand ∧ past s.tpc = true)
    (h1 : Act env s .eRecv s1) :
    Sched k u (if k ∈ pendingOf s.tpc then s.ticks else nextVisit (base s) m.slotMark) s1 ∧
      s1.chan = rest ∧ s1.epc = .idle ∧ attempts k s1.log = attempts k s.log ∧
      startTicks k s1.log = startTicks k s.log ∧ startRoutines k s1.log = startRoutines k s.log := by
  subst hk
  cases h1
  all_goals (
    have hx := hc.symm.trans ‹s.chan = _›
    injection hx with hx hy
    try (cases hx; done))
  case recv_update_skip u' rest' he' hc' hsk =>
    cases hx
    have := hsk m hf
    rw [hw] at this; cases this
  case recv_update u' rest' m' sl' he' hc' hf' hw' =>
    cases hx; subst hy
    rw [hf] at hf'; cases hf'
    rw [hw] at hw'; cases hw'
    have hin : ∀ j v, inWheel (set s.wheel m.slotMark (some (sl.updateTask u))) u.taskId j v ↔ j = m.slotMark ∧ v = u := by
      intro j v
      rw [inWheel_update hw]
      constructor
      · rintro (⟨h6, h7, _⟩ | ⟨h6, h7⟩)
        · exact ⟨h6, h7⟩
        · exact absurd rfl (h7 (hall _ _ h6))
      · rintro ⟨h6, h7⟩; exact Or.inl ⟨h6, h7, rfl⟩
    have hu0 : { u with cylinderLine := 0 } = u := by rw [← hcy]
    refine ⟨⟨hv, by rw [done_tpc]; exact htok, m.slotMark, 0, ?_, ?_, ?_⟩, by simp, by simp, by simp [attempts],
      by simp [startTicks], by simp [startRoutines]⟩
    · rw [done_wheel, hu0]; exact (hin _ _).2 ⟨rfl, rfl⟩
    · intro j v hj
      rw [done_wheel] at hj
      rw [hu0]; exact (hin _ _).1 hj
    · rw [done_tpc, done_ticks]
      by_cases hx : u.taskId ∈ pendingOf s.tpc
      · obtain ⟨h6, h7⟩ := hp hx
        rw [if_pos hx]
        exact Or.inr ⟨Or.inl hx, by simpa using h6, rfl, rfl, h7⟩
      · rw [if_neg hx]
        refine Or.inl ⟨hx, ?_⟩
        unfold base; rw [done_tpc, done_ticks]; rfl

end DelayTimer
