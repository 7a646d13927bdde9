import Verif.Proofs.Progress

/-!
# From a handled or newly added task to its later attempts
-/

namespace DelayTimer
open Spec

/-! ### After a re-arming -/

theorem fly_of_rearm {k : Nat} {s : St} {p : List Nat} {t : Task} {upd : Bool}
    (h : s.tpc = .rearm p t upd) (hk : t.taskId = k) (hv : t.valid = true) (hp : k ∉ p)
    (hw : ¬ Waiting k s) : Fly k t s :=
  ⟨by rw [h]; simp [tpcTok, hk], by rw [h]; exact hp, fun j u ⟨sl, h⟩ => hw ⟨j, sl, u, h⟩, hv⟩

theorem gone_run {env : Env} {k : Nat} : ∀ (ls : List Label) {s s' : St}, Quiet k s → tpcTok k s.tpc = [] →
    (∀ j u, ¬ inWheel s.wheel k j u) → (∀ l ∈ ls, ¬ Touches k l) → run env s ls = some s' →
    attempts k s'.log = attempts k s.log ∧ startTicks k s'.log = startTicks k s.log := by
  intro ls
  induction ls with
  | nil => intro s s' _ _ _ _ h; cases h; exact ⟨rfl, rfl⟩
  | cons l ls ih =>
    intro s s' hq htok hno ht h
    simp only [run] at h
    split at h
    rotate_left
    · cases h
    rename_i s1 h1
    have ha := step_act h1
    have hno1 : ∀ j u, ¬ inWheel s1.wheel k j u := by
      rcases nowhere_step (hq.apart _) hno ha with hn | ⟨_, p, u, b, e1, e2⟩
      · exact hn
      · rw [e1] at htok; simp [tpcTok, e2] at htok
    have htok1 : tpcTok k s1.tpc = [] := by
      rcases tok_step htok ha with hn | ⟨u, hu⟩
      · exact hn
      · exact absurd hu (hno _ _)
    obtain ⟨e1, e2⟩ := ih (quiet_step hq (ht l List.mem_cons_self) ha) htok1 hno1
      (fun l hl => ht l (List.mem_cons_of_mem _ hl)) h
    rw [e1, e2]
    refine ⟨?_, ?_⟩
    · rcases attempts_step k ha with e | ⟨e0, p, u, e1, e2, _⟩
      · exact e
      · rw [e1] at htok1; simp [tpcTok, e2] at htok1
    · rcases starts_step k ha with e | ⟨_, p, u, rec, box, e1, e2, e3, _⟩
      · exact e.1
      · rw [e1] at htok; simp [tpcTok, e3] at htok

/-- From the state in which the scheduler is about to re-arm `t`: either it has not done so yet, or the
task lives on according to its next alarm, or it is gone because it has no further alarm. -/
theorem after_rearm {env : Env} {k : Nat} {p : List Nat} {t : Task} {upd : Bool} {M : Prop} :
    ∀ (ls : List Label) {s s' : St}, Reachable env s → Quiet k s → s.tpc = .rearm p t upd → Fly k t s →
      (M → s.flags k ≠ none) →
      (∀ l ∈ ls, ¬ Touches k l) → run env s ls = some s' →
      (s'.tpc = .rearm p t upd ∧ s'.ticks = s.ticks ∧ attempts k s'.log = attempts k s.log ∧
        startTicks k s'.log = startTicks k s.log) ∨
      (∃ a, alarm 0 t = some a ∧
        Life M env.clock k t.getNextExecTimestamp.2 (rearm env.clock s.ticks a)
          (attempts k s.log) (startTicks k s.log) (startRoutines k s.log) s') ∨
      (alarm 0 t = none ∧ attempts k s'.log = attempts k s.log ∧ startTicks k s'.log = startTicks k s.log) := by
  intro ls
  induction ls with
  | nil => intro s s' _ _ h _ _ _ hr; cases hr; exact Or.inl ⟨h, rfl, rfl, rfl⟩
  | cons l ls ih =>
    intro s s' hr hq h hf hM ht hrun
    simp only [run] at hrun
    split at hrun
    rotate_left
    · cases hrun
    rename_i s1 h1
    have ha := step_act h1
    have hq1 := quiet_step hq (ht l List.mem_cons_self) ha
    have hid : t.taskId = k := by
      have := hf.tok; rw [h] at this; exact (tok_eq this).2
    by_cases hl : TLabel l
    · cases ha
      all_goals try (exact False.elim hl)
      all_goals try (have hx := h.symm.trans ‹s.tpc = _›; cases hx; done)
      case slot_none pending u upd' h' hx =>
        have hx2 := h.symm.trans h'
        cases hx2
        refine Or.inr (Or.inr ⟨hx, ?_⟩)
        refine gone_run ls (s := { s with tpc := .batch p }) hq1 rfl hf.nowhere
          (fun l hl => ht l (List.mem_cons_of_mem _ hl)) hrun
      case slot_missing pending u upd' exec h' hx hw =>
        exfalso
        have := ((wheelOk hr).shape.1 (((checkedSub exec (env.clock s.ticks)).getD 1 + nextSecondHand s) % SLOT_COUNT)).2
          (Nat.mod_lt _ (by decide))
        rw [hw] at this; cases this
      case slot_ok pending u upd' exec sl step slot h' hx hstep hslot hw =>
        have hx2 := h.symm.trans h'
        cases hx2
        refine Or.inr (Or.inl ⟨exec, hx, ?_⟩)
        have hsch := rearm_sched (env := env) (wheelOk hr) hf h hstep hslot hw
        exact (life_run ls (hr.step h1) hq1
          (hsch.life hM rfl rfl rfl)
          (fun l hl => ht l (List.mem_cons_of_mem _ hl)) hrun).1
    · obtain ⟨e1, e2, e3⟩ := other_thread ha hl
      have hno1 : ∀ j u, ¬ inWheel s1.wheel k j u := by
        rcases nowhere_step (hq.apart _) hf.nowhere ha with hn | ⟨hn, _⟩
        · exact hn
        · subst hn; exact absurd trivial hl
      have hf1 : Fly k t s1 := ⟨by rw [e1]; exact hf.tok, by rw [e1]; exact hf.notPending, hno1, hf.valid⟩
      have hat : attempts k s1.log = attempts k s.log := by
        rcases attempts_step k ha with e | ⟨e0, _⟩
        · exact e
        · subst e0; exact absurd trivial hl
      have hst : startTicks k s1.log = startTicks k s.log ∧ startRoutines k s1.log = startRoutines k s.log := by
        rcases starts_step k ha with e | ⟨_, p, u, rec, box, f1, f2, f3, _⟩
        · exact e
        · rw [h] at f1; cases f1
      have := ih (hr.step h1) hq1 (by rw [e1]; exact h) hf1
        (fun h => marked_step (fun _ => hq.epc) (hM h) ha) (fun l hl => ht l (List.mem_cons_of_mem _ hl)) hrun
      rw [e2, hat, hst.1, hst.2] at this
      exact this

/-! ### A task that is brought in for the first time -/

/-- `k` is not scheduled and nothing but an add or insert can change that. -/
structure Unborn (k : Nat) (s : St) : Prop where
  absent : Absent k s
  noUpd : ∀ u, .updateTask u ∈ s.chan → u.taskId ≠ k
  noAdv : ∀ u, (s.epc = .adv1 u ∨ ∃ h, s.epc = .adv2 u h) → u.taskId ≠ k

/-- The same, but for updates in the channel. -/
structure Bare (k : Nat) (s : St) : Prop where
  absent : Absent k s
  noAdv : ∀ u, (s.epc = .adv1 u ∨ ∃ h, s.epc = .adv2 u h) → u.taskId ≠ k

theorem Unborn.bare {k : Nat} {s : St} (h : Unborn k s) : Bare k s := ⟨h.absent, h.noAdv⟩

theorem Unborn.init (env : Env) (k : Nat) : Unborn k (init env) := by
  refine ⟨absent_iff.2 ⟨?_, rfl, by simp [DelayTimer.init, pendingOf]⟩, by simp [DelayTimer.init], by simp [DelayTimer.init]⟩
  rintro j u ⟨sl, h1, h2, _⟩
  simp only [DelayTimer.init] at h1
  split at h1 <;> cases h1
  cases h2

theorem bare_step {env : Env} {k : Nat} {s : St} {l : Label} {s' : St} (hs : Bare k s)
    (hu : l = .eRecv → ∀ u rest, s.chan = .updateTask u :: rest → u.taskId ≠ k)
    (h2 : l = .eNext → ∀ u c a b d, s.epc = .add2 u c a b d → u.taskId ≠ k) (h : Act env s l s') : Bare k s' := by
  obtain ⟨ha, hadv⟩ := hs
  rw [absent_iff] at ha
  obtain ⟨hw, ht, hp⟩ := ha
  have hw' : ∀ j u, ¬ inWheel s'.wheel k j u := by
    cases h
    all_goals try (exact hw)
    all_goals try (simpa using hw)
    case arrive sl h hwh =>
      intro j u hj
      rw [inWheel_arrive hwh] at hj
      rcases hj with ⟨_, v, hv, _⟩ | ⟨_, hj⟩
      · exact hw _ _ hv
      · exact hw _ _ hj
    case pop_hit pending id sl u h hmem hwh hr =>
      intro j u hj
      rw [show St.wheel _ = _ from rfl, inWheel_remove hwh] at hj
      exact hw _ _ hj.1
    case slot_ok pending t upd exec sl step slot h hx hstep hslot hwh =>
      intro j u hj
      rw [show St.wheel _ = _ from rfl, inWheel_add hwh] at hj
      rcases hj with ⟨_, _, hj⟩ | hj
      · rw [h] at ht; simp only [tpcTok] at ht
        rw [if_pos (show t.taskId = k from hj)] at ht; cases ht
      · exact hw _ _ hj.1
    case recv_update u rest m sl he hc hf hwh =>
      intro j v hj
      rw [done_wheel, inWheel_update hwh] at hj
      rcases hj with ⟨_, _, hj⟩ | hj
      · exact hu rfl u rest hc hj
      · exact hw _ _ hj.1
    case recv_advance id rest m sl u he hc hf hwh hr =>
      intro j u hj
      rw [show St.wheel _ = _ from rfl, inWheel_remove hwh] at hj
      exact hw _ _ hj.1
    case recv_remove id rest m sl he hc hf hwh =>
      intro j u hj
      rw [show St.wheel _ = _ from rfl, inWheel_remove hwh] at hj
      exact hw _ _ hj.1
    case next_add2 u chain hand exec ts seed slot sl he hseed hslot hwh =>
      intro j v hj
      rw [show St.wheel _ = _ from rfl, inWheel_add hwh] at hj
      rcases hj with ⟨_, _, hj⟩ | hj
      · exact h2 rfl _ _ _ _ _ he hj
      · exact hw _ _ hj.1
    case next_adv2 u hand sl he hwh =>
      intro j v hj
      rw [done_wheel, inWheel_add hwh] at hj
      rcases hj with ⟨_, _, hj⟩ | hj
      · exact hadv u (Or.inr ⟨_, he⟩) hj
      · exact hw _ _ hj.1
  have ht' : tpcTok k s'.tpc = [] := by
    rcases tok_step ht h with h1 | ⟨u, h1⟩
    · exact h1
    · exact absurd h1 (hw _ _)
  have hp' : k ∉ pendingOf s'.tpc := by
    by_cases hT : TLabel l
    · clear hw' ht'
      cases h
      all_goals try (exact False.elim hT)
      all_goals try (simp [pendingOf]; done)
      all_goals try (rw [‹s.tpc = _›] at hp; exact hp)
      all_goals try (rw [‹s.tpc = _›] at hp; exact fun hx => hp (List.mem_of_mem_erase hx))
      case arrive sl h hwh =>
        intro hx
        obtain ⟨u, h1, h2, _⟩ := (mem_arrival_ids sl k).1 hx
        exact hw _ u ⟨sl, hwh, h1, h2⟩
    · rw [(other_thread h hT).1]; exact hp
  refine ⟨absent_iff.2 ⟨hw', ht', hp'⟩, ?_⟩
  · clear hw' ht' hp'
    cases h
    all_goals try (exact hadv)
    all_goals try (intro u hx; simp at hx; done)
    all_goals try (intro u hx; exact hadv u (by simpa using hx))
    case recv_advance id rest m sl u he hc hf hwh hr =>
      intro v hx
      simp at hx
      subst hx
      intro hk
      obtain ⟨h1, h2⟩ := removeTask_some hr
      exact hw _ _ ⟨sl, hwh, h1, hk⟩
    case next_adv1 u he =>
      intro v hx
      simp at hx
      subst hx
      exact hadv _ (Or.inl he)

theorem unborn_step {env : Env} {k : Nat} {s : St} {l : Label} {s' : St} (hs : Unborn k s)
    (hl : ∀ u, l = .uSend (.update u) → u.taskId ≠ k)
    (h2 : l = .eNext → ∀ u c a b d, s.epc = .add2 u c a b d → u.taskId ≠ k) (h : Act env s l s') : Unborn k s' := by
  obtain ⟨ha, hu, hadv⟩ := hs
  have hb := bare_step ⟨ha, hadv⟩ (fun _ u rest hc => hu u (by rw [hc]; exact List.mem_cons_self)) h2 h
  refine ⟨hb.absent, ?_, hb.noAdv⟩
  cases h
  all_goals try (exact hu)
  case usend op =>
    intro u hx
    simp only [push_chan, List.mem_append, List.mem_singleton] at hx
    rcases hx with hx | hx
    · exact hu u hx
    · cases op <;> simp only [UserOp.event] at hx <;> cases hx
      exact hl _ rfl
  all_goals try (
    intro u hx
    simp only [push_chan, uInsert, List.mem_append, List.mem_singleton, reduceCtorEq, or_false] at hx
    exact hu u hx)
  all_goals try (
    intro u hx
    exact hu u (by rw [‹s.chan = _›]; exact List.mem_cons_of_mem _ (by simpa using hx)))
  all_goals (intro u hx; exact hu u (by simpa using hx))

/-- The event is an add or insert of `t`. -/
def BringsIn (t : Task) (c : Option Nat) (e : TimerEvent) : Prop :=
  match c with
  | none => e = .addTask t
  | some c => e = .insertTask t c

/-- `t` has been handed to the timer and is on its way to the wheel; nothing else concerns its id. -/
inductive Coming (k : Nat) (t : Task) (c : Option Nat) (s : St) : Prop
  | queued (hb : Unborn k s) (A B : List TimerEvent) (e : TimerEvent) (he : BringsIn t c e)
      (hc : s.chan = A ++ e :: B) (hA : ∀ e ∈ A, ¬ EventTouches k e) (hB : ∀ e ∈ B, ¬ EventTouches k e)
      (hbusy : ¬ BusyWith k s.epc)
  | reading (hb : Unborn k s) (hc : ∀ e ∈ s.chan, ¬ EventTouches k e) (hand : Nat)
      (he : s.epc = .add1 t c hand)
  | inserting (hb : Unborn k s) (hc : ∀ e ∈ s.chan, ¬ EventTouches k e) (hand exec ts : Nat)
      (he : s.epc = .add2 t.getNextExecTimestamp.2 c hand exec ts) (ha : alarm 0 t = some exec)

/-- What a step does to the event thread and the channel. -/
theorem chan_step {env : Env} {s : St} {l : Label} {s' : St} (h : Act env s l s') :
    (s'.epc = s.epc ∧ (s'.chan = s.chan ∨ ∃ e, s'.chan = s.chan ++ [e] ∧
      ((∀ k, ¬ EventTouches k e) ∨ (∃ op, l = .uSend op ∧ e = op.event) ∨
       ∃ t, l = .uInsert t ∧ e = .insertTask t s.nextChain))) ∨
    (l = .eRecv ∧ s.epc = .idle ∧ ∃ e, s.chan = e :: s'.chan) ∨
    (l = .eNext ∧ s'.chan = s.chan) := by
  cases h
  all_goals try (exact Or.inl ⟨rfl, Or.inl rfl⟩)
  all_goals try (
    refine Or.inr (Or.inl ⟨rfl, ‹s.epc = _›, _, Eq.trans ‹s.chan = _› (congrArg _ ?_)⟩)
    first | rfl | (simp; done))
  all_goals try (exact Or.inr (Or.inr ⟨rfl, by simp⟩))
  case usend op => exact Or.inl ⟨rfl, Or.inr ⟨_, rfl, Or.inr (Or.inl ⟨op, rfl, rfl⟩)⟩⟩
  case uinsert t => exact Or.inl ⟨rfl, Or.inr ⟨_, rfl, Or.inr (Or.inr ⟨t, rfl, rfl⟩)⟩⟩
  all_goals exact Or.inl ⟨rfl, Or.inr ⟨_, rfl, Or.inl (fun k => id)⟩⟩

theorem not_touches_event {k : Nat} {s : St} {l : Label} {e : TimerEvent} (hl : ¬ Touches k l)
    (h : (∀ k, ¬ EventTouches k e) ∨ (∃ op, l = .uSend op ∧ e = op.event) ∨
       ∃ t, l = .uInsert t ∧ e = .insertTask t s.nextChain) : ¬ EventTouches k e := by
  rcases h with h | ⟨op, rfl, rfl⟩ | ⟨t, rfl, rfl⟩
  · exact h k
  · cases op <;> exact hl
  · exact hl

theorem coming_step_at {env : Env} {k : Nat} {t : Task} {c : Option Nat} {s : St} {l : Label} {s' : St}
    (hs : Coming k t c s) (hl : ¬ Touches k l) (h : Act env s l s') :
    Coming k t c s' ∨ (Quiet k s' ∧ l = .eNext ∧ (alarm 0 t = none ∨
      ∃ hand exec ts, s.epc = .add2 t.getNextExecTimestamp.2 c hand exec ts ∧ alarm 0 t = some exec)) := by
  have hl' : ∀ u, l = .uSend (.update u) → u.taskId ≠ k := by rintro u rfl; exact hl
  cases hs with
  | queued hb A B e he hc hA hB hbusy =>
    have hb' := unborn_step hb hl' (by
      intro _ u c' a b d hx; rw [hx] at hbusy; exact hbusy) h
    rcases chan_step h with ⟨h1, h2 | ⟨e', h2, h3⟩⟩ | ⟨rfl, h1, e', h2⟩ | ⟨rfl, h1⟩
    · exact Or.inl (.queued hb' A B e he (by rw [h2, hc]) hA hB (by rw [h1]; exact hbusy))
    · refine Or.inl (.queued hb' A (B ++ [e']) e he (by rw [h2, hc]; simp) hA ?_ (by rw [h1]; exact hbusy))
      intro x hx
      rcases List.mem_append.1 hx with hx | hx
      · exact hB x hx
      · rw [List.mem_singleton] at hx; subst hx; exact not_touches_event hl h3
    · -- an event is received
      cases A with
      | nil =>
        left
        rw [hc] at h2
        simp only [List.nil_append] at h2
        obtain ⟨rfl, h3⟩ := List.cons.inj h2
        refine .reading hb' (by rw [← h3]; exact hB) s.secondHand ?_
        cases c with
        | none =>
          simp only [BringsIn] at he
          subst he
          clear hb hb'
          cases h
          all_goals try (have hx := hc.symm.trans ‹s.chan = _›; simp only [List.nil_append] at hx; injection hx with hx; cases hx; done)
          rename_i u rest he hc'
          have hx := hc.symm.trans hc'
          injection hx with hx; cases hx; rfl
        | some ch =>
          simp only [BringsIn] at he
          subst he
          clear hb hb'
          cases h
          all_goals try (have hx := hc.symm.trans ‹s.chan = _›; simp only [List.nil_append] at hx; injection hx with hx; cases hx; done)
          rename_i u c' rest he hc'
          have hx := hc.symm.trans hc'
          injection hx with hx; cases hx; rfl
      | cons a A =>
        rw [hc, List.cons_append] at h2
        obtain ⟨rfl, h3⟩ := List.cons.inj h2
        refine Or.inl (.queued hb' A B e he h3.symm (fun e he => hA e (List.mem_cons_of_mem _ he)) hB ?_)
        have hna := hA a List.mem_cons_self
        clear hb hb' h2 h3
        cases h
        case recv_advance id rest m sl u he' hc' hf hw hr =>
          have hx := hc.symm.trans hc'
          injection hx with hx hx'
          subst hx
          intro hk'
          exact hna (show id = k from (removeTask_some hr).2.symm.trans hk')
        all_goals
          have hx := hc.symm.trans ‹s.chan = _›
          first
          | exact id
          | (injection hx with hx hx'; subst hx; exact hna)
    · refine Or.inl (.queued hb' A B e he (by rw [h1, hc]) hA hB ?_)
      clear hb hb'
      cases h <;> simp_all [BusyWith]
  | reading hb hc hand he =>
    have hb' := unborn_step hb hl' (by intro _ u c' a b d hx; rw [he] at hx; cases hx) h
    rcases chan_step h with ⟨h1, h2 | ⟨e', h2, h3⟩⟩ | ⟨rfl, h1, e', h2⟩ | ⟨rfl, h1⟩
    · exact Or.inl (.reading hb' (by rw [h2]; exact hc) hand (by rw [h1, he]))
    · refine Or.inl (.reading hb' ?_ hand (by rw [h1, he]))
      intro x hx
      rw [h2] at hx
      rcases List.mem_append.1 hx with hx | hx
      · exact hc x hx
      · rw [List.mem_singleton] at hx; subst hx; exact not_touches_event hl h3
    · rw [he] at h1; cases h1
    · cases h
      all_goals try (have hx := he.symm.trans ‹s.epc = _›; cases hx; done)
      case next_add1_err u ch hd he' hn =>
        have hx := he.symm.trans he'
        cases hx
        exact Or.inr ⟨⟨by simpa using hc, by simp [BusyWith]⟩, rfl, Or.inl hn⟩
      case next_add1 u ch hd exec he' hn =>
        have hx := he.symm.trans he'
        cases hx
        exact Or.inl (.inserting hb' hc hand exec s.globalTime rfl hn)
  | inserting hb hc hand exec ts he ha =>
    by_cases hn : l = .eNext
    · subst hn
      cases h
      all_goals try (have hx := he.symm.trans ‹s.epc = _›; cases hx; done)
      case next_add2 => exact Or.inr ⟨⟨hc, by simp [BusyWith]⟩, rfl, Or.inr ⟨_, _, _, he, ha⟩⟩
      case next_add2_missing => exact Or.inr ⟨⟨hc, by simp [BusyWith]⟩, rfl, Or.inr ⟨_, _, _, he, ha⟩⟩
    · have hb' : Unborn k s' := by
        exact unborn_step hb hl' (fun h => absurd h hn) h
      rcases chan_step h with ⟨h1, h2 | ⟨e', h2, h3⟩⟩ | ⟨rfl, h1, e', h2⟩ | ⟨rfl, h1⟩
      · exact Or.inl (.inserting hb' (by rw [h2]; exact hc) hand exec ts (by rw [h1, he]) ha)
      · refine Or.inl (.inserting hb' ?_ hand exec ts (by rw [h1, he]) ha)
        intro x hx
        rw [h2] at hx
        rcases List.mem_append.1 hx with hx | hx
        · exact hc x hx
        · rw [List.mem_singleton] at hx; subst hx; exact not_touches_event hl h3
      · rw [he] at h1; cases h1
      · exact absurd rfl hn

theorem coming_step {env : Env} {k : Nat} {t : Task} {c : Option Nat} {s : St} {l : Label} {s' : St}
    (hs : Coming k t c s) (hl : ¬ Touches k l) (h : Act env s l s') :
    Coming k t c s' ∨ Quiet k s' :=
  (coming_step_at hs hl h).imp_right And.left

theorem quiet_run {env : Env} {k : Nat} : ∀ (ls : List Label) {s s' : St}, Quiet k s →
    (∀ l ∈ ls, ¬ Touches k l) → run env s ls = some s' → Quiet k s' := by
  intro ls
  induction ls with
  | nil => intro s s' h _ hr; cases hr; exact h
  | cons l ls ih =>
    intro s s' h ht hr
    simp only [run] at hr
    split at hr
    · rename_i s1 h1
      exact ih (quiet_step h (ht l List.mem_cons_self) (step_act h1))
        (fun l hl => ht l (List.mem_cons_of_mem _ hl)) hr
    · cases hr

theorem coming_run {env : Env} {k : Nat} {t : Task} {c : Option Nat} : ∀ (ls : List Label) {s s' : St},
    Coming k t c s → (∀ l ∈ ls, ¬ Touches k l) → run env s ls = some s' → Coming k t c s' ∨ Quiet k s' := by
  intro ls
  induction ls with
  | nil => intro s s' h _ hr; cases hr; exact Or.inl h
  | cons l ls ih =>
    intro s s' h ht hr
    simp only [run] at hr
    split at hr
    · rename_i s1 h1
      rcases coming_step h (ht l List.mem_cons_self) (step_act h1) with h2 | h2
      · exact ih h2 (fun l hl => ht l (List.mem_cons_of_mem _ hl)) hr
      · exact Or.inr (quiet_run ls h2 (fun l hl => ht l (List.mem_cons_of_mem _ hl)) hr)
    · cases hr

theorem unborn_run {env : Env} {k : Nat} : ∀ (ls : List Label) {s s' : St}, Unborn k s → Quiet k s →
    (∀ l ∈ ls, ¬ Touches k l) → run env s ls = some s' → Unborn k s' ∧ Quiet k s' := by
  intro ls
  induction ls with
  | nil => intro s s' h hq _ hr; cases hr; exact ⟨h, hq⟩
  | cons l ls ih =>
    intro s s' h hq ht hr
    simp only [run] at hr
    split at hr
    · rename_i s1 h1
      have hl := ht l List.mem_cons_self
      refine ih (unborn_step h (by rintro u rfl; exact hl) ?_ (step_act h1)) (quiet_step hq hl (step_act h1))
        (fun l hl => ht l (List.mem_cons_of_mem _ hl)) hr
      intro _ u c a b d hx; have := hq.epc; rw [hx] at this; exact this
    · cases hr

/-- A task that was handed in once, with an id that nothing else concerns, is absent when it is about to
be put into the wheel. -/
theorem brought {env : Env} {k : Nat} {t u : Task} {ls1 ls2 : List Label} {l : Label} {s : St}
    {c : Option Nat} {hand exec ts : Nat} (hl : HandsIn t l) (h1 : ∀ l ∈ ls1, ¬ Touches k l)
    (h2 : ∀ l ∈ ls2, ¬ Touches k l) (hr : run env (init env) (ls1 ++ l :: ls2) = some s)
    (he : s.epc = .add2 u c hand exec ts) (hu : u.taskId = k) :
    u = t.getNextExecTimestamp.2 ∧ alarm 0 t = some exec ∧ Absent k s ∧
      (∀ e ∈ s.chan, ¬ EventTouches k e) := by
  rw [run_append] at hr
  cases h3 : run env (init env) ls1 with
  | none => rw [h3] at hr; cases hr
  | some s1 =>
    rw [h3] at hr
    simp only [run, Option.bind_some] at hr
    split at hr
    rotate_left
    · cases hr
    rename_i s2 h4
    obtain ⟨h5, h6⟩ := unborn_run ls1 (Unborn.init env k)
      ⟨by simp [init], by simp [init, BusyWith]⟩ h1 h3
    have h7 := step_act h4
    have h8 : ∃ c, Coming k t c s2 := by
      have hb : Unborn k s2 := unborn_step h5 (by
        rintro u rfl; rcases hl with h | h <;> cases h) (by
        intro h; subst h; rcases hl with h | h <;> cases h) h7
      rcases hl with rfl | rfl
      · cases h7
        exact ⟨none, .queued hb s1.chan [] _ rfl rfl h6.chan (by simp) h6.epc⟩
      · cases h7
        exact ⟨some s1.nextChain, .queued hb s1.chan [] _ rfl rfl h6.chan (by simp) h6.epc⟩
    obtain ⟨c', h8⟩ := h8
    rcases coming_run ls2 h8 h2 hr with h9 | h9
    · cases h9 with
      | queued hb A B e he' hc hA hB hbusy => rw [he] at hbusy; exact absurd hu hbusy
      | reading hb hc hand' he' => rw [he] at he'; cases he'
      | inserting hb hc hand' exec' ts' he' ha =>
        rw [he] at he'; cases he'
        exact ⟨rfl, ha, hb.absent, hc⟩
    · have := h9.epc; rw [he] at this; exact absurd hu this

end DelayTimer
