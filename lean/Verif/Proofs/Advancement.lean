import Verif.Proofs.Removal
import Verif.Proofs.Advance

/-!
# An advance, whatever the scheduler is doing

The event thread takes the task out of the wheel, reads the hand and puts the task behind it. Meanwhile the scheduler may
have the id of the task in its list: it looks for it in vain, in the slot in which it was.
-/

namespace DelayTimer
open Spec

/-- The event thread has taken the only copy of `k` out of the wheel and has not put it back. The scheduler may still have
its id in its list, but then the hand that the event thread has read has not moved. -/
structure Borne (k : Nat) (t : Task) (s : St) : Prop where
  epc : s.epc = .adv1 t ∨ ∃ hand, s.epc = .adv2 t hand
  id : t.taskId = k
  valid : t.valid = true
  cyl : t.cylinderLine = 0
  wheel : ∀ j u, ¬ inWheel s.wheel k j u
  tok : tpcTok k s.tpc = []
  chan : ∀ e ∈ s.chan, ¬ EventTouches k e
  hand : ∀ hand, s.epc = .adv2 t hand → k ∈ pendingOf s.tpc → hand = s.secondHand

/-- With no copy in the wheel and none in hand nothing is attempted or started. -/
theorem nowhere_log {env : Env} {k : Nat} {s : St} {l : Label} {s' : St} (hw : ∀ j u, ¬ inWheel s.wheel k j u)
    (ht : tpcTok k s.tpc = []) (h : Act env s l s') : attempts k s'.log = attempts k s.log ∧
      startTicks k s'.log = startTicks k s.log ∧ startRoutines k s'.log = startRoutines k s.log := by
  refine ⟨?_, ?_⟩
  · rcases attempts_step k h with e | ⟨e0, p, u, f1, f2, _⟩
    · exact e
    · rcases tok_step ht h with h1 | ⟨u, h1⟩
      · rw [f1] at h1; simp [tpcTok, f2] at h1
      · exact absurd h1 (hw _ _)
  · rcases starts_step k h with e | ⟨_, p, u, rec, box, f1, f2, f3, _⟩
    · exact e
    · rw [f1] at ht; simp [tpcTok, f3] at ht

/-- An id that is in the scheduler's list has been there before, with the same hand, unless it has been found due. -/
theorem pending_step {env : Env} {k : Nat} {s : St} {l : Label} {s' : St} (h : Act env s l s')
    (hp : k ∈ pendingOf s'.tpc) :
    (k ∈ pendingOf s.tpc ∧ s'.secondHand = s.secondHand ∧ s'.ticks = s.ticks ∧ past s'.tpc = past s.tpc) ∨
      ∃ u, inWheel s.wheel k s.secondHand u := by
  by_cases hT : TLabel l
  · cases h
    all_goals try (exact False.elim hT)
    all_goals try (simp [pendingOf] at hp; done)
    all_goals try (left; refine ⟨?_, rfl, rfl, ?_⟩ <;> rw [‹s.tpc = _›] <;> first | exact hp | rfl)
    all_goals try (left; refine ⟨?_, rfl, rfl, ?_⟩ <;> rw [‹s.tpc = _›] <;> first | exact List.mem_of_mem_erase hp | rfl)
    case arrive sl h hwh =>
      obtain ⟨u, h1, h2, _⟩ := (mem_arrival_ids sl k).1 hp
      exact Or.inr ⟨u, sl, hwh, h1, h2⟩
  · obtain ⟨h1, h2, h3⟩ := other_thread h hT
    rw [h1] at hp ⊢
    exact Or.inl ⟨hp, h3, h2, rfl⟩

theorem borne_step {env : Env} {k : Nat} {t : Task} {s : St} {l : Label} {s' : St} (hs : Borne k t s)
    (hl : ¬ Touches k l) (h : Act env s l s') :
    Borne k t s' ∧ attempts k s'.log = attempts k s.log ∧ startTicks k s'.log = startTicks k s.log ∧
      startRoutines k s'.log = startRoutines k s.log ∨
    l = .eNext ∧ ∃ hand, s.epc = .adv2 t hand := by
  obtain ⟨he, hid, hv, hcy, hw, ht, hc, hh⟩ := hs
  by_cases hn : l = .eNext ∧ ∃ hand, s.epc = .adv2 t hand
  · exact Or.inr hn
  left
  have hlog := nowhere_log hw ht h
  have ht' : tpcTok k s'.tpc = [] := by
    rcases tok_step ht h with h1 | ⟨u, h1⟩
    · exact h1
    · exact absurd h1 (hw _ _)
  have hw' : ∀ j u, ¬ inWheel s'.wheel k j u := by
    intro j u hj
    rcases copy_from k h hj with ⟨v, hv⟩ | ⟨p, t, upd, _, h1, h2, _⟩ | ⟨t, c, hand, exec, ts, _, _, h1, h2, h3, _⟩ |
      ⟨t, rest, _, h1, h2, h3⟩ | ⟨t, hand, h1, h2, h3⟩
    · exact hw _ _ hv
    · rw [h1] at ht; simp [tpcTok, h2] at ht
    · rw [h2] at he
      rcases he with he | ⟨_, he⟩ <;> cases he
    · rw [h1] at he
      rcases he with he | ⟨_, he⟩ <;> cases he
    · rcases he with he | ⟨hd, he⟩
      · rw [h2] at he; cases he
      · exact hn ⟨h1, hd, he⟩
  have hold : ∀ hand, s'.epc = .adv2 t hand → s.epc = .adv2 t hand ∨ (l = .eNext ∧ hand = s.secondHand ∧ s'.tpc = s.tpc ∧
      s'.secondHand = s.secondHand) := by
    intro hand he'
    clear hlog hw' ht' hh
    cases h
    all_goals try (exact Or.inl he')
    all_goals try (
      have hz := ‹s.epc = _›
      rcases he with he | ⟨hd, he⟩ <;> (rw [hz] at he; cases he)
      done)
    case next_adv1 u hu => cases he'; exact Or.inr ⟨rfl, rfl, rfl, rfl⟩
    all_goals (
      have hz := ‹s.epc = _›
      rcases he with he | ⟨hd, he⟩
      · rw [hz] at he; cases he
      · exact absurd ⟨rfl, hd, he⟩ hn)
  refine ⟨⟨?_, hid, hv, hcy, hw', ht', chan_quiet_step hc hl h, ?_⟩, hlog⟩
  rotate_left
  · intro hand he' hp
    rcases hold hand he' with h1 | ⟨_, h1, _, h2⟩
    · rcases pending_step h hp with ⟨h2, h3, _⟩ | ⟨u, h2⟩
      · rw [h3]; exact hh hand h1 h2
      · exact absurd h2 (hw _ _)
    · rw [h1, h2]
  clear hlog hw' ht' hold hh
  cases h
  all_goals try (exact he)
  all_goals try (
    have hz := ‹s.epc = _›
    rcases he with he | ⟨hd, he⟩ <;> (rw [hz] at he; cases he)
    done)
  case next_adv1 u hu =>
    rcases he with he | ⟨hd, he⟩
    · rw [hu] at he; cases he
      exact Or.inr ⟨_, rfl⟩
    · rw [hu] at he; cases he
  all_goals (
    have hz := ‹s.epc = _›
    rcases he with he | ⟨hd, he⟩
    · rw [hz] at he; cases he
    · exact absurd ⟨rfl, hd, he⟩ hn)

/-- As long as the event thread is at it, the task is nowhere else. -/
theorem borne_run {env : Env} {k : Nat} {t : Task} : ∀ (ls : List Label) {s s' : St}, Borne k t s →
    (∀ l ∈ ls, ¬ Touches k l) → run env s ls = some s' →
    Borne k t s' ∧ attempts k s'.log = attempts k s.log ∧ startTicks k s'.log = startTicks k s.log ∧
      startRoutines k s'.log = startRoutines k s.log ∨
    Quiet k s' := by
  intro ls
  induction ls with
  | nil => intro s s' h _ hr; cases hr; exact Or.inl ⟨h, rfl, rfl, rfl⟩
  | cons l ls ih =>
    intro s s' h ht hr
    obtain ⟨s1, h1, h2⟩ := run_cons hr
    have hact := step_act h1
    rcases borne_step h (ht l List.mem_cons_self) hact with ⟨h3, e1, e2, e3⟩ | ⟨rfl, hand, h3⟩
    · rcases ih h3 (fun l hl => ht l (List.mem_cons_of_mem _ hl)) h2 with ⟨h4, f1, f2, f3⟩ | h4
      · exact Or.inl ⟨h4, by rw [f1, e1], by rw [f2, e2], by rw [f3, e3]⟩
      · exact Or.inr h4
    · refine Or.inr (quiet_run ls ⟨chan_quiet_step h.chan (ht _ List.mem_cons_self) hact, ?_⟩
        (fun l hl => ht l (List.mem_cons_of_mem _ hl)) h2)
      cases hact
      all_goals try (have hx := h3.symm.trans ‹s.epc = _›; cases hx; done)
      all_goals (simp [BusyWith])

/-! ## Put back under the eyes of the scheduler -/

/-- `t` waits for tick `D` in a slot other than the one at the hand, the only copy of `k`; the scheduler has `k` in its
list all the same. -/
structure Overtaken (k : Nat) (t : Task) (D : Nat) (s : St) : Prop where
  valid : t.valid = true
  tok : tpcTok k s.tpc = []
  pending : k ∈ pendingOf s.tpc
  place : ∃ i, inWheel s.wheel k i t ∧ (∀ j u, inWheel s.wheel k j u → j = i ∧ u = t) ∧ i ≠ s.secondHand ∧
    D = nextVisit (base s) i

/-- Every copy of `k` is where it was, unless the event thread or the scheduler is handling one. -/
theorem wheel_frame {env : Env} {k : Nat} {s : St} {l : Label} {s' : St} (hq : Apart k s l) (ht : tpcTok k s.tpc = [])
    (hno : ∀ u, ¬ inWheel s.wheel k s.secondHand u) (h : Act env s l s') :
    ∀ j u, inWheel s'.wheel k j u ↔ inWheel s.wheel k j u := by
  cases h
  all_goals try (exact fun _ _ => Iff.rfl)
  all_goals try (intro j u; simp; done)
  case arrive sl h hw =>
    intro j u
    rw [inWheel_arrive hw]
    constructor
    · rintro (⟨_, v, h1, _⟩ | ⟨_, h1⟩)
      · exact absurd h1 (hno v)
      · exact h1
    · intro h1
      exact Or.inr ⟨fun hj => hno u (hj ▸ h1), h1⟩
  case pop_hit pending id sl u h hmem hw hr =>
    obtain ⟨hu, hid⟩ := removeTask_some hr
    intro j v
    rw [show St.wheel _ = _ from rfl, inWheel_remove hw]
    refine ⟨fun h => h.1, fun h => ⟨h, fun _ hk => ?_⟩⟩
    exact hno u ⟨sl, hw, hu, hid.trans hk⟩
  case slot_ok pending u upd exec sl step slot h hn hstep hslot hw =>
    have hk : u.taskId ≠ k := by
      intro hk; rw [h] at ht; simp [tpcTok, hk] at ht
    intro j v
    rw [show St.wheel _ = _ from rfl, inWheel_add hw]
    exact ⟨fun h => h.elim (fun h => absurd h.2.2 hk) (fun h => h.1), fun h => Or.inr ⟨h, fun _ => hk⟩⟩
  case recv_update u rest m sl he hc hf hw =>
    have hk : u.taskId ≠ k := hq.head rfl (.updateTask u) rest hc
    intro j v
    rw [done_wheel, inWheel_update hw]
    exact ⟨fun h => h.elim (fun h => absurd h.2.2 hk) (fun h => h.1), fun h => Or.inr ⟨h, fun _ => hk⟩⟩
  case recv_advance id rest m sl u he hc hf hw hr =>
    have hk : id ≠ k := hq.head rfl (.advanceTask id) rest hc
    intro j v
    rw [show St.wheel _ = _ from rfl, inWheel_remove hw]
    exact ⟨fun h => h.1, fun h => ⟨h, fun _ => hk⟩⟩
  case recv_remove id rest m sl he hc hf hw =>
    have hk : id ≠ k := hq.head rfl (.removeTask id) rest hc
    intro j v
    rw [show St.wheel _ = _ from rfl, inWheel_remove hw]
    exact ⟨fun h => h.1, fun h => ⟨h, fun _ => hk⟩⟩
  case next_add2 u chain hand exec ts seed slot sl he hseed hslot hw =>
    have hk : u.taskId ≠ k := by have := hq.epc rfl; rw [he] at this; exact this
    intro j v
    rw [show St.wheel _ = _ from rfl, inWheel_add hw]
    exact ⟨fun h => h.elim (fun h => absurd h.2.2 hk) (fun h => h.1), fun h => Or.inr ⟨h, fun _ => hk⟩⟩
  case next_adv2 u hand sl he hw =>
    have hk : u.taskId ≠ k := by have := hq.epc rfl; rw [he] at this; exact this
    intro j v
    rw [done_wheel, inWheel_add hw]
    exact ⟨fun h => h.elim (fun h => absurd h.2.2 hk) (fun h => h.1), fun h => Or.inr ⟨h, fun _ => hk⟩⟩

theorem overtaken_step {env : Env} {k : Nat} {t : Task} {D : Nat} {s : St} {l : Label} {s' : St} (hq : Apart k s l)
    (hcy : t.cylinderLine = 0) (hs : Overtaken k t D s) (h : Act env s l s') :
    (Overtaken k t D s' ∨ Sched k t D s') ∧ attempts k s'.log = attempts k s.log ∧
      startTicks k s'.log = startTicks k s.log ∧ startRoutines k s'.log = startRoutines k s.log := by
  obtain ⟨hv, ht, hp, i, h1, h2, h3, h4⟩ := hs
  have hno : ∀ u, ¬ inWheel s.wheel k s.secondHand u := fun u hu => h3 (h2 _ _ hu).1.symm
  have hfr := wheel_frame hq ht hno h
  have ht' : tpcTok k s'.tpc = [] := by
    rcases tok_step ht h with e | ⟨u, e⟩
    · exact e
    · exact absurd e (hno _)
  have ht0 : { t with cylinderLine := 0 } = t := by rw [← hcy]
  refine ⟨?_, ?_, ?_⟩
  · by_cases hp' : k ∈ pendingOf s'.tpc
    · left
      rcases pending_step h hp' with ⟨_, e1, e2, e3⟩ | ⟨u, e⟩
      · refine ⟨hv, ht', hp', i, (hfr _ _).2 h1, fun j u hj => h2 j u ((hfr _ _).1 hj), by rw [e1]; exact h3, ?_⟩
        rw [h4]; unfold base; rw [e2, e3]
      · exact absurd e (hno _)
    · right
      refine ⟨hv, ht', i, 0, by rw [ht0]; exact (hfr _ _).2 h1, fun j u hj => by rw [ht0]; exact h2 j u ((hfr _ _).1 hj),
        Or.inl ⟨hp', ?_⟩⟩
      have hb : base s' = base s := by
        clear hfr ht' ht0 hno h3 h4 h1 h2
        by_cases hT : TLabel l
        · cases h
          all_goals try (exact False.elim hT)
          all_goals try (rw [‹s.tpc = _›] at hp; simp [pendingOf] at hp; done)
          all_goals (unfold base; rw [‹s.tpc = _›]; rfl)
        · obtain ⟨e1, e2, e3⟩ := other_thread h hT
          unfold base; rw [e1, e2]
      rw [h4, hb]; rfl
  · rcases attempts_step k h with e | ⟨e0, p, u, f1, f2, _⟩
    · exact e
    · rw [f1] at ht'; simp [tpcTok, f2] at ht'
  · rcases starts_step k h with e | ⟨_, p, u, rec, box, f1, f2, f3, _⟩
    · exact e
    · rw [f1] at ht; simp [tpcTok, f3] at ht

/-- What becomes of a task that has been put back. -/
inductive Afoot (clock : Nat → Nat) (k : Nat) (t : Task) (D : Nat) (A S R : List Nat) (s : St) : Prop
  | over (h : Overtaken k t D s) (hA : attempts k s.log = A) (hS : startTicks k s.log = S) (hR : startRoutines k s.log = R)
  | life (h : Life False clock k t D A S R s)

theorem afoot_run {env : Env} {k : Nat} {t : Task} {D : Nat} {A S R : List Nat} (hcy : t.cylinderLine = 0) :
    ∀ (ls : List Label) {s s' : St}, Reachable env s → Quiet k s → Afoot env.clock k t D A S R s →
      (∀ l ∈ ls, ¬ Touches k l) → run env s ls = some s' → Afoot env.clock k t D A S R s' := by
  intro ls
  induction ls with
  | nil => intro s s' _ _ h _ hr; cases hr; exact h
  | cons l ls ih =>
    intro s s' hre hq h ht hr
    obtain ⟨s1, h1, h2⟩ := run_cons hr
    have hact := step_act h1
    refine ih (hre.step h1) (quiet_step hq (ht l List.mem_cons_self) hact) ?_
      (fun l hl => ht l (List.mem_cons_of_mem _ hl)) h2
    cases h with
    | over h hA hS hR =>
      obtain ⟨h3 | h3, e1, e2, e3⟩ := overtaken_step (hq.apart l) hcy h hact
      · exact .over h3 (e1.trans hA) (e2.trans hS) (e3.trans hR)
      · exact .life (h3.life False.elim (e1.trans hA) (e2.trans hS) (e3.trans hR))
    | life h => exact .life (life_step (hq.apart l) (wheelOk hre) (pendOk hre) h hact)

/-- The starts of a task that has been put back. -/
theorem Afoot.starts {clock : Nat → Nat} {k : Nat} {t : Task} {D : Nat} {A S R : List Nat} {s : St}
    (h : Afoot clock k t D A S R s) (hcy : t.cylinderLine = 0) (hlim : t.maximumParallelRunnableNum = none)
    (h0 : runsLeft t ≠ some 0) (hp : s.tpc ≠ .panicked) :
    ∃ ds, startTicks k s.log = S ++ ds ∧
      (∀ i n, ds[i]? = some n → cut (runsLeft t) (timetable clock D (fun j => alarm j t)) i = some n ∧ n ≤ s.ticks) ∧
      ∀ i n, cut (runsLeft t) (timetable clock D (fun j => alarm j t)) i = some n → n < s.ticks → ds[i]? = some n := by
  cases h with
  | life h => exact h.starts hlim h0 hp
  | over h hA hS hR =>
    -- but for the scheduler's list it waits like any other
    obtain ⟨hv, ht, hp', i, h1, h2, h3, h4⟩ := h
    have ht0 : { t with cylinderLine := 0 } = t := by rw [← hcy]
    have hpast : past s.tpc = true := by
      cases hx : s.tpc <;> first | rfl | (rw [hx] at hp'; cases hp')
    have hsch : Sched k t D { s with tpc := .batch [] } := by
      refine ⟨hv, rfl, i, 0, by rw [ht0]; exact h1, fun j u hj => by rw [ht0]; exact h2 j u hj, Or.inl ⟨by simp [pendingOf], ?_⟩⟩
      rw [h4]; unfold base; rw [hpast]; rfl
    exact (hsch.life (M := False) (clock := clock) (A0 := A) (S0 := S) (R0 := R) False.elim hA hS hR).starts hlim h0
      (fun h => by cases h)

/-- Putting the task back. -/
theorem borne_back {env : Env} {k : Nat} {t : Task} {s s1 : St} {hand : Nat} (hwo : WheelOk s) (hb : Borne k t s)
    (he : s.epc = .adv2 t hand) (h : step env s .eNext = some s1) :
    Quiet k s1 ∧
    (hand < 3599 → Afoot env.clock k t (nextVisit (base s) (hand + 1)) (attempts k s.log) (startTicks k s.log)
      (startRoutines k s.log) s1) ∧
    (3599 ≤ hand → (∀ j u, ¬ inWheel s1.wheel k j u) ∧ tpcTok k s1.tpc = [] ∧ startTicks k s1.log = startTicks k s.log) := by
  have hact := step_act h
  obtain ⟨hl1, hl2, hl3⟩ := nowhere_log hb.wheel hb.tok hact
  have hid := hb.id
  cases hact
  all_goals try (have hx := he.symm.trans ‹s.epc = _›; cases hx; done)
  case next_adv2 u hd sl he' hw =>
    have hx := he.symm.trans he'
    cases hx
    have hlt := (hwo.shape.1 (hand + 1)).1 (by rw [hw]; rfl)
    subst hid
    have hin : ∀ j u, inWheel (set s.wheel (hand + 1) (some (sl.addTask t))) t.taskId j u ↔ j = hand + 1 ∧ u = t := by
      intro j u
      rw [inWheel_add hw]
      constructor
      · rintro (⟨h4, h5, _⟩ | ⟨h4, _⟩)
        · exact ⟨h4, h5⟩
        · exact absurd h4 (hb.wheel _ _)
      · rintro ⟨h4, h5⟩; exact Or.inl ⟨h4, h5, rfl⟩
    have ht0 : { t with cylinderLine := 0 } = t := by rw [← hb.cyl]
    refine ⟨⟨by simpa using hb.chan, by simp [BusyWith]⟩, fun _ => ?_, fun hge => by omega⟩
    by_cases hp : t.taskId ∈ pendingOf s.tpc
    · refine .over ⟨hb.valid, by rw [done_tpc]; exact hb.tok, by rw [done_tpc]; exact hp, hand + 1, ?_, ?_, ?_, ?_⟩ hl1 hl2 hl3
      · rw [done_wheel]; exact (hin _ _).2 ⟨rfl, rfl⟩
      · intro j u hj
        rw [done_wheel] at hj
        exact (hin _ _).1 hj
      · have := hb.hand hand he hp
        simp; omega
      · unfold base; rw [done_tpc, done_ticks]
    · refine .life (Sched.life ⟨hb.valid, by rw [done_tpc]; exact hb.tok, hand + 1, 0, ?_, ?_,
        Or.inl ⟨by rw [done_tpc]; exact hp, ?_⟩⟩ False.elim hl1 hl2 hl3)
      · rw [done_wheel, ht0]; exact (hin _ _).2 ⟨rfl, rfl⟩
      · intro j u hj
        rw [done_wheel] at hj
        rw [ht0]; exact (hin _ _).1 hj
      · unfold base; rw [done_tpc, done_ticks]; rfl
  case next_adv2_missing u hd he' hw =>
    have hx := he.symm.trans he'
    cases hx
    refine ⟨⟨by simpa using hb.chan, by simp [BusyWith]⟩, fun hlt => ?_, fun _ => ⟨by simpa using hb.wheel, by simpa using hb.tok, hl2⟩⟩
    have := (hwo.shape.1 (hand + 1)).2 (show hand + 1 < 3600 by omega)
    rw [hw] at this; cases this

/-- An advance that finds the only copy. -/
theorem advance_finds {env : Env} {k : Nat} {t : Task} {D : Nat} {s s1 : St} {rest : List TimerEvent}
    (hc : s.chan = .advanceTask k :: rest) (hrest : ∀ e ∈ rest, ¬ EventTouches k e) (hm : AtItsMark k s)
    (hs : Sched k t D s) (h1 : Act env s .eRecv s1) :
    Borne k { t with cylinderLine := 0 } s1 ∧ s1.log = s.log := by
  obtain ⟨m, sl, v, hfl, hw, hv, hk⟩ := hm
  have hin : inWheel s.wheel k m.slotMark v := ⟨sl, hw, hv, hk⟩
  cases h1
  all_goals (
    have hx := hc.symm.trans ‹s.chan = _›
    injection hx with hx hy
    try (cases hx; done))
  case recv_advance_err id rest' he hc' herr =>
    cases hx
    exact absurd hk (removeTask_none (herr m sl hfl hw) v hv)
  case recv_advance id rest' m' sl' u he hc' hf hw' hr =>
    cases hx; subst hy
    rw [hfl] at hf; cases hf
    rw [hw] at hw'; cases hw'
    obtain ⟨hu, hid⟩ := removeTask_some hr
    obtain ⟨hval, htok, i, c, h3, h4, h5⟩ := hs
    obtain ⟨e1, e2⟩ := h4 _ _ ⟨sl, hw, hu, hid⟩
    have e3 : { u with cylinderLine := 0 } = { t with cylinderLine := 0 } := by rw [e2]
    rw [e3]
    refine ⟨⟨Or.inl rfl, ?_, hval, rfl, fun j w hj => ?_, htok, hrest, fun hand hx => by cases hx⟩, rfl⟩
    · rw [e2] at hid; exact hid
    · rw [show St.wheel _ = _ from rfl, inWheel_remove hw] at hj
      exact hj.2 ((h4 _ _ hj.1).1.trans e1.symm) rfl

/-- An advance that does not find the task at its mark does nothing. -/
theorem advance_misses {env : Env} {k : Nat} {s s1 : St} {rest : List TimerEvent} (hc : s.chan = .advanceTask k :: rest)
    (hm : ¬ AtItsMark k s) (h1 : Act env s .eRecv s1) : Idle k s s1 ∧ s1.chan = rest ∧ s1.epc = .idle := by
  cases h1
  all_goals (
    have hx := hc.symm.trans ‹s.chan = _›
    injection hx with hx hy
    try (cases hx; done))
  case recv_advance_err id rest' he hc' herr =>
    cases hx; subst hy
    exact ⟨⟨by simp, by simp, by simp, by simp, by simp [Spec.attempts], by simp [startTicks], by simp [startRoutines]⟩,
      by simp, by simp⟩
  case recv_advance id rest' m' sl' u he hc' hf hw' hr =>
    cases hx
    obtain ⟨hu, hid⟩ := removeTask_some hr
    exact absurd ⟨m', sl', u, hf, hw', hu, hid⟩ hm

end DelayTimer
