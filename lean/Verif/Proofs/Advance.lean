import Verif.Proofs.Place

/-! # Advancing and updating a waiting task -/

namespace DelayTimer
open Spec

/-- A task that is not scheduled becomes so only by being added, updated or advanced. -/
theorem absent_step {env : Env} {k : Nat} {s : St} {l : Label} {s' : St} (hs : Absent k s)
    (h : Act env s l s')
    (hu : ∀ t rest, s.epc = .idle → s.chan = .updateTask t :: rest → t.taskId ≠ k)
    (hadd : ∀ t c hand exec ts, l = .eNext → s.epc = .add2 t c hand exec ts → t.taskId ≠ k)
    (hadv : ∀ t hand, l = .eNext → s.epc = .adv2 t hand → t.taskId ≠ k) : Absent k s' := by
  obtain ⟨hw, ht, hp⟩ := absent_iff.1 hs
  refine absent_iff.2 ⟨?_, ?_, ?_⟩
  · intro j u hj
    rcases copy_from k h hj with ⟨v, hv⟩ | ⟨p, t, upd, _, h1, h2, _⟩ | ⟨t, c, hand, exec, ts, _, _, h1, h2, h3, _⟩ |
      ⟨t, rest, _, h1, h2, h3⟩ | ⟨t, hand, h1, h2, h3⟩
    · exact hw _ _ hv
    · rw [h1] at ht; simp [tpcTok, h2] at ht
    · exact hadd _ _ _ _ _ h1 h2 h3
    · exact hu _ _ h1 h2 h3
    · exact hadv _ _ h1 h2 h3
  · rcases tok_step ht h with h1 | ⟨u, h1⟩
    · exact h1
    · exact absurd h1 (hw _ _)
  · by_cases hT : TLabel l
    · cases h
      all_goals try (exact False.elim hT)
      all_goals try (simp [pendingOf]; done)
      all_goals try (rw [‹s.tpc = _›] at hp; exact hp)
      all_goals try (rw [‹s.tpc = _›] at hp; exact fun hx => hp (List.mem_of_mem_erase hx))
      case arrive sl h hwh =>
        intro hx
        obtain ⟨u, h1, h2, _⟩ := (mem_arrival_ids sl k).1 hx
        exact hw _ u ⟨sl, hwh, h1, h2⟩
    · rw [(other_thread h hT).1]; exact hp

/-- Without `k` nothing is attempted or started for `k`. -/
theorem absent_log {env : Env} {k : Nat} {s : St} {l : Label} {s' : St} (hs : Absent k s)
    (h : Act env s l s') : attempts k s'.log = attempts k s.log ∧ startTicks k s'.log = startTicks k s.log ∧
      startRoutines k s'.log = startRoutines k s.log := by
  obtain ⟨hw, ht, hp⟩ := absent_iff.1 hs
  refine ⟨?_, ?_⟩
  · rcases attempts_step k h with e | ⟨e0, p, u, f1, f2, _⟩
    · exact e
    · rcases tok_step ht h with h1 | ⟨u, h1⟩
      · rw [f1] at h1; simp [tpcTok, f2] at h1
      · exact absurd h1 (hw _ _)
  · rcases starts_step k h with e | ⟨_, p, u, rec, box, f1, f2, f3, _⟩
    · exact e
    · rw [f1] at ht; simp [tpcTok, f3] at ht

theorem chan_quiet_step {env : Env} {k : Nat} {s : St} {l : Label} {s' : St}
    (hs : ∀ e ∈ s.chan, ¬ EventTouches k e) (hl : ¬ Touches k l) (h : Act env s l s') :
    ∀ e ∈ s'.chan, ¬ EventTouches k e := by
  rcases chan_step h with ⟨_, h3 | ⟨e, h3, h4⟩⟩ | ⟨_, _, e, h3⟩ | ⟨_, h3⟩
  · rw [h3]; exact hs
  · rw [h3]
    intro x hx
    rcases List.mem_append.1 hx with hx | hx
    · exact hs x hx
    · rw [List.mem_singleton] at hx
      subst hx
      rcases h4 with h4 | ⟨op, rfl, rfl⟩ | ⟨t, rfl, rfl⟩
      · exact h4 k
      · cases op <;> first | exact hl | exact id
      · exact hl
  · exact fun x hx => hs x (by rw [h3]; exact List.mem_cons_of_mem _ hx)
  · rw [h3]; exact hs

/-- The event thread has taken `t` out of the wheel in order to advance it, and has not yet put it back. -/
structure Advancing (k : Nat) (t : Task) (s : St) : Prop where
  epc : s.epc = .adv1 t ∨ ∃ hand, s.epc = .adv2 t hand
  id : t.taskId = k
  absent : Absent k s
  chan : ∀ e ∈ s.chan, ¬ EventTouches k e
  mark : s.flags k ≠ none

theorem advancing_step {env : Env} {k : Nat} {t : Task} {s : St} {l : Label} {s' : St} (hs : Advancing k t s)
    (hl : ¬ Touches k l) (h : Act env s l s') :
    Advancing k t s' ∧ attempts k s'.log = attempts k s.log ∧ startTicks k s'.log = startTicks k s.log ∧
      startRoutines k s'.log = startRoutines k s.log ∨
    l = .eNext ∧ ∃ hand, s.epc = .adv2 t hand := by
  obtain ⟨he, hid, ha, hc, hm⟩ := hs
  by_cases hn : l = .eNext ∧ ∃ hand, s.epc = .adv2 t hand
  · exact Or.inr hn
  left
  have hlog := absent_log ha h
  have ha' : Absent k s' := by
    refine absent_step ha h ?_ ?_ ?_
    · intro u rest h1
      rw [h1] at he
      rcases he with he | ⟨_, he⟩ <;> cases he
    · intro u c hand exec ts _ h1
      rw [h1] at he
      rcases he with he | ⟨_, he⟩ <;> cases he
    · intro u hand h1 h2
      rcases he with he | ⟨hd, he⟩
      · rw [h2] at he; cases he
      · exact absurd ⟨h1, hd, he⟩ hn
  refine ⟨⟨?_, hid, ha', chan_quiet_step hc hl h, ?_⟩, hlog⟩
  rotate_left
  · rcases flag_step k h with h1 | ⟨_, _, _, m, _, _, h1, _⟩ | ⟨_, m, _, _, _, h1⟩ | ⟨ok, h1, _⟩
    · exact fun h2 => hm (h1.isNone.1 h2)
    · rw [h1]; simp
    · rw [h1]; simp
    · rcases he with he | ⟨_, he⟩ <;> (rw [h1] at he; cases he)
  clear hlog ha'
  cases h
  all_goals try (exact he)
  all_goals try (
    have hz := ‹s.epc = _›
    rcases he with he | ⟨hd, he⟩ <;> (rw [hz] at he; cases he)
    done)
  case next_adv1 u hu =>
    rcases he with he | ⟨hd, he⟩
    · rw [hu] at he; cases he
      exact Or.inr ⟨_, rfl⟩
    · rw [hu] at he; cases he
  all_goals (
    have hz := ‹s.epc = _›
    rcases he with he | ⟨hd, he⟩
    · rw [hz] at he; cases he
    · exact absurd ⟨rfl, hd, he⟩ hn)

/-- As long as the event thread is at it, the task is nowhere else. -/
theorem advancing_run {env : Env} {k : Nat} {t : Task} : ∀ (ls : List Label) {s s' : St}, Advancing k t s →
    (∀ l ∈ ls, ¬ Touches k l) → run env s ls = some s' →
    Advancing k t s' ∧ attempts k s'.log = attempts k s.log ∧ startTicks k s'.log = startTicks k s.log ∧
      startRoutines k s'.log = startRoutines k s.log ∨
    Quiet k s' := by
  intro ls
  induction ls with
  | nil => intro s s' h _ hr; cases hr; exact Or.inl ⟨h, rfl, rfl, rfl⟩
  | cons l ls ih =>
    intro s s' h ht hr
    simp only [run] at hr
    split at hr
    rotate_left
    · cases hr
    rename_i s1 h1
    have ha := step_act h1
    rcases advancing_step h (ht l List.mem_cons_self) ha with ⟨h2, e1, e2, e3⟩ | ⟨rfl, hand, h2⟩
    · rcases ih h2 (fun l hl => ht l (List.mem_cons_of_mem _ hl)) hr with ⟨h3, f1, f2, f3⟩ | h3
      · exact Or.inl ⟨h3, by rw [f1, e1], by rw [f2, e2], by rw [f3, e3]⟩
      · exact Or.inr h3
    · right
      have hq : Quiet k s1 := by
        refine ⟨chan_quiet_step h.chan (ht _ List.mem_cons_self) ha, ?_⟩
        cases ha
        all_goals try (have hx := h2.symm.trans ‹s.epc = _›; cases hx; done)
        all_goals (simp [BusyWith])
      clear ih h h1 ha
      have hl := fun l hl => ht l (List.mem_cons_of_mem _ hl)
      clear ht
      induction ls generalizing s1 with
      | nil => cases hr; exact hq
      | cons l ls ih =>
        simp only [run] at hr
        split at hr
        rotate_left
        · cases hr
        rename_i s2 h1
        exact ih _ hr (quiet_step hq (hl l List.mem_cons_self) (step_act h1))
          (fun l h => hl l (List.mem_cons_of_mem _ h))

/-- Putting the advanced task back makes it wait for the next visit of the slot after the hand. -/
theorem advance_sched {env : Env} {k : Nat} {s s1 : St} {t : Task} {hand : Nat} (hwo : WheelOk s)
    (he : s.epc = .adv2 t hand) (hh : hand < 3599) (hk : t.taskId = k) (hc : t.cylinderLine = 0)
    (hv : t.valid = true) (ha : Absent k s) (h : step env s .eNext = some s1) :
    Sched k t (nextVisit (base s) (hand + 1)) s1 ∧ inWheel s1.wheel k (hand + 1) t ∧
    s1.ticks = s.ticks ∧ s1.tpc = s.tpc ∧ s1.flags = s.flags ∧ s1.chan = s.chan ∧ s1.epc = .idle ∧
    attempts k s1.log = attempts k s.log ∧ startTicks k s1.log = startTicks k s.log ∧
      startRoutines k s1.log = startRoutines k s.log := by
  obtain ⟨h1, h2, h3⟩ := absent_iff.1 ha
  have hact := step_act h
  obtain ⟨hl1, hl2, hl3⟩ := absent_log ha hact
  cases hact
  all_goals try (have hx := he.symm.trans ‹s.epc = _›; cases hx; done)
  case next_adv2 u hd sl he' hw =>
    have hx := he.symm.trans he'
    cases hx
    subst hk
    have hin : ∀ j u, inWheel (set s.wheel (hand + 1) (some (sl.addTask t))) t.taskId j u ↔ j = hand + 1 ∧ u = t := by
      intro j u
      rw [inWheel_add hw]
      constructor
      · rintro (⟨h4, h5, _⟩ | ⟨h4, _⟩)
        · exact ⟨h4, h5⟩
        · exact absurd h4 (h1 _ _)
      · rintro ⟨h4, h5⟩; exact Or.inl ⟨h4, h5, rfl⟩
    have ht0 : { t with cylinderLine := 0 } = t := by rw [← hc]
    refine ⟨⟨hv, by rw [done_tpc]; exact h2, hand + 1, 0, ?_, ?_, Or.inl ⟨by rw [done_tpc]; exact h3, ?_⟩⟩, ?_,
      by simp, by simp, by simp, by simp, by simp, hl1, hl2, hl3⟩
    · rw [done_wheel, ht0]; exact (hin _ _).2 ⟨rfl, rfl⟩
    · intro j u hj
      rw [done_wheel] at hj
      rw [ht0]; exact (hin _ _).1 hj
    · unfold base; rw [done_tpc, done_ticks]; rfl
    · rw [done_wheel]; exact (hin _ _).2 ⟨rfl, rfl⟩
  case next_adv2_missing u hd he' hw =>
    exfalso
    have hx := he.symm.trans he'
    cases hx
    have := (hwo.shape.1 (hand + 1)).2 (show hand + 1 < 3600 by omega)
    rw [hw] at this; cases this

/-- A task that waits, on record, and is not being handled. -/
theorem waits_sched {k : Nat} {s : St} {t : Task} {i : Nat} (hwo : WheelOk s)
    (hi : inWheel s.wheel k i t) (hv : t.valid = true) (ha : RecordAccurate k s) (hh : ¬ Handling k s.tpc) :
    Sched k t (nextVisit (base s) i + 3600 * t.cylinderLine) s ∧
      ∀ j u, inWheel s.wheel k j u → j = i ∧ u = t := by
  have htok : tpcTok k s.tpc = [] ∧ k ∉ pendingOf s.tpc := by
    cases ht : s.tpc <;> simp [ht, Handling, tpcTok, pendingOf] at hh ⊢ <;> simp [hh]
  have huniq : ∀ j u, inWheel s.wheel k j u → j = i ∧ u = t := by
    rintro j u ⟨sl, h1, h2, h3⟩
    obtain ⟨sl', h4, h5, h6⟩ := hi
    obtain ⟨m, h7, h8⟩ := ha j sl u h1 h2 h3
    obtain ⟨m', h9, h10⟩ := ha i sl' t h4 h5 h6
    rw [h7] at h9; cases h9
    have : j = i := by rw [← h8, ← h10]
    subst this
    rw [h1] at h4; cases h4
    refine ⟨rfl, ?_⟩
    exact eq_of_nodup_ids (hwo.shape.2 _ _ h1) h2 h5 (h3.trans h6.symm)
  refine ⟨⟨hv, htok.1, i, t.cylinderLine, hi, huniq, Or.inl ⟨htok.2, rfl⟩⟩, huniq⟩

/-- Taking it out for an advance. -/
theorem advance_taken {env : Env} {k : Nat} {s s1 : St} {t : Task} {i : Nat} {rest : List TimerEvent} (hwo : WheelOk s)
    (hc : s.chan = .advanceTask k :: rest) (hrest : ∀ e ∈ rest, ¬ EventTouches k e)
    (hi : inWheel s.wheel k i t) (hv : t.valid = true) (ha : RecordAccurate k s) (hh : ¬ Handling k s.tpc)
    (h : step env s .eRecv = some s1) :
    Advancing k { t with cylinderLine := 0 } s1 ∧ s1.log = s.log := by
  obtain ⟨hs, hu⟩ := waits_sched hwo hi hv ha hh
  have hi' := hi
  obtain ⟨sl, h1, h2, h3⟩ := hi'
  obtain ⟨m, h4, h5⟩ := ha i sl t h1 h2 h3
  have hfind : (sl.removeTask k).1 = some t := by
    cases hr : (sl.removeTask k).1 with
    | none => exact absurd h3 (removeTask_none hr t h2)
    | some u =>
      obtain ⟨h6, h7⟩ := removeTask_some hr
      rw [(hu i u ⟨sl, h1, h6, h7⟩).2]
  have hact := step_act h
  cases hact
  all_goals try (have hx := hc.symm.trans ‹s.chan = _›; cases hx; done)
  case recv_advance_err id rest' he' hc' herr =>
    have hx := hc.symm.trans hc'
    cases hx
    exfalso
    have := herr m sl h4 (by rw [h5]; exact h1)
    rw [hfind] at this; cases this
  case recv_advance id rest' m' sl' u he' hc' hf hw hr =>
    have hx := hc.symm.trans hc'
    cases hx
    change s.flags k = some m' at hf
    rw [h4] at hf; cases hf
    change s.wheel m.slotMark = _ at hw
    rw [h5, h1] at hw; cases hw
    rw [hfind] at hr; cases hr
    refine ⟨⟨Or.inl rfl, h3, absent_iff.2 ⟨?_, hs.tpc, ?_⟩, hrest, by rw [show St.flags _ = s.flags from rfl, h4]; simp⟩, rfl⟩
    · intro j u hj
      change inWheel (set s.wheel m.slotMark _) k j u at hj
      rw [inWheel_remove (by rw [h5]; exact h1)] at hj
      exact hj.2 ((hu j u hj.1).1.trans h5.symm) rfl
    · cases ht : s.tpc <;> simp [ht, Handling, pendingOf] at hh ⊢ <;> simp [hh]

/-- Updating it in place. -/
theorem update_sched {env : Env} {k : Nat} {s s1 : St} {t u : Task} {i : Nat} {rest : List TimerEvent}
    (hc : s.chan = .updateTask u :: rest) (hk : u.taskId = k)
    (hi : inWheel s.wheel k i t) (hv : u.valid = true) (ha : RecordAccurate k s) (hh : ¬ Handling k s.tpc)
    (h : step env s .eRecv = some s1) :
    Sched k u (nextVisit (base s) i + 3600 * u.cylinderLine) s1 ∧
    s1.ticks = s.ticks ∧ s1.tpc = s.tpc ∧ s1.flags = s.flags ∧ s1.chan = rest ∧ s1.epc = .idle ∧
    attempts k s1.log = attempts k s.log ∧ startTicks k s1.log = startTicks k s.log ∧
      startRoutines k s1.log = startRoutines k s.log := by
  have htok : tpcTok k s.tpc = [] ∧ k ∉ pendingOf s.tpc := by
    cases ht : s.tpc <;> simp [ht, Handling, tpcTok, pendingOf] at hh ⊢ <;> simp [hh]
  have hi' := hi
  obtain ⟨sl, h1, h2, h3⟩ := hi'
  obtain ⟨m, h4, h5⟩ := ha i sl t h1 h2 h3
  have hact := step_act h
  cases hact
  all_goals try (have hx := hc.symm.trans ‹s.chan = _›; cases hx; done)
  case recv_update_skip u' rest' he' hc' hsk =>
    have hx := hc.symm.trans hc'
    cases hx
    exfalso
    have := hsk m (by rw [hk]; exact h4)
    rw [h5, h1] at this; cases this
  case recv_update u' rest' m' sl' he' hc' hf hw =>
    have hx := hc.symm.trans hc'
    cases hx
    change s.flags u.taskId = some m' at hf
    rw [hk, h4] at hf; cases hf
    change s.wheel m.slotMark = _ at hw
    rw [h5, h1] at hw; cases hw
    have hin : ∀ j v, inWheel (set s.wheel i (some (sl.updateTask u))) k j v ↔ j = i ∧ v = u := by
      intro j v
      rw [inWheel_update h1]
      constructor
      · rintro (⟨h6, h7, _⟩ | ⟨⟨sl', h6, h7, h8⟩, h9⟩)
        · exact ⟨h6, h7⟩
        · obtain ⟨m', h10, h11⟩ := ha j sl' v h6 h7 h8
          rw [h4] at h10; cases h10
          exact absurd hk (h9 (h11.symm.trans h5))
      · rintro ⟨h6, h7⟩; exact Or.inl ⟨h6, h7, hk⟩
    refine ⟨⟨hv, by rw [done_tpc]; exact htok.1, i, u.cylinderLine, ?_, ?_, Or.inl ⟨by rw [done_tpc]; exact htok.2, ?_⟩⟩,
      by simp, by simp, by simp, by simp, by simp, by simp [attempts], by simp [startTicks], by simp [startRoutines]⟩
    · rw [done_wheel, h5]; exact (hin _ _).2 ⟨rfl, rfl⟩
    · intro j v hj
      rw [done_wheel, h5] at hj
      exact (hin _ _).1 hj
    · unfold base; rw [done_tpc, done_ticks]

end DelayTimer
