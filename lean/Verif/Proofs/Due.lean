import Verif.Proofs.Token
import Verif.Proofs.Frequency
import Verif.Spec.Schedule

/-!
# Due ticks

A task waiting in the wheel has a due tick, computed from the slot it is in, the number of revolutions it
still has to wait and the position of the wheel. Nothing but an operation on the task itself changes it.
-/

namespace DelayTimer
open Spec

/-- The current iteration has already looked at its slot. -/
def past : TPC → Bool
  | .head => false
  | .store => false
  | .arrive => false
  | .halted => false
  | _ => true

/-- The next tick whose look at its slot is still to come. -/
def base (s : St) : Nat := if past s.tpc then s.ticks + 1 else s.ticks

/-- Ids still to be handled in this iteration. -/
def pendingOf : TPC → List Nat
  | .batch p => p
  | .check p _ => p
  | .spawn p _ _ => p
  | .append p _ _ => p
  | .gate p _ _ => p
  | .rearm p _ _ => p
  | .mark p _ _ _ => p
  | _ => []

/-- The first tick from `b` on at which the hand is at `i`. -/
def nextVisit (b i : Nat) : Nat := b + (i + 3600 - b % 3600) % 3600

theorem quiet_step {env : Env} {k : Nat} {s : St} {l : Label} {s' : St} (hs : Quiet k s)
    (hl : ¬ Touches k l) (h : Act env s l s') : Quiet k s' := by
  obtain ⟨h1, h2⟩ := hs
  cases h
  all_goals try (exact ⟨h1, h2⟩)
  case usend op =>
    refine ⟨?_, h2⟩
    intro e he
    simp only [push_chan, List.mem_append, List.mem_singleton] at he
    rcases he with he | he
    · exact h1 e he
    · subst he; cases op <;> exact hl
  case uinsert t =>
    refine ⟨?_, h2⟩
    intro e he
    simp only [uInsert, push_chan, List.mem_append, List.mem_singleton] at he
    rcases he with he | he
    · exact h1 e he
    · subst he; exact hl
  all_goals try (
    refine ⟨?_, h2⟩
    intro e he
    simp only [push_chan, List.mem_append, List.mem_singleton] at he
    rcases he with he | he
    · exact h1 e he
    · subst he; exact id)
  all_goals try (simp only [‹s.epc = _›, BusyWith] at h2)
  case recv_advance id rest m sl t he hc hf hw hr =>
    have h3 := h1 _ (by rw [hc]; exact List.mem_cons_self)
    have h4 := (removeTask_some hr).2
    exact ⟨fun e he => h1 e (by rw [hc]; exact List.mem_cons_of_mem _ he), by
      show ¬ t.taskId = k; rw [h4]; exact h3⟩
  all_goals try (
    have h3 := h1 _ (by rw [‹s.chan = _›]; exact List.mem_cons_self)
    exact ⟨fun e he => h1 e (by rw [‹s.chan = _›]; exact List.mem_cons_of_mem _ (by simpa using he)),
      by first | exact h3 | simp [BusyWith]⟩)
  all_goals exact ⟨by simpa using h1, by simp [BusyWith, h2]⟩

/-- `t` (up to the number of revolutions left) waits in the wheel for tick `D`, and this is the only
copy of id `k` in the wheel or in the hands of the scheduler. -/
structure Sched (k : Nat) (t : Task) (D : Nat) (s : St) : Prop where
  valid : t.valid = true
  tpc : tpcTok k s.tpc = []
  place : ∃ i c, inWheel s.wheel k i { t with cylinderLine := c } ∧
    (∀ j u, inWheel s.wheel k j u → j = i ∧ u = { t with cylinderLine := c }) ∧
    ((k ∉ pendingOf s.tpc ∧ D = nextVisit (base s) i + 3600 * c) ∨
     ((k ∈ pendingOf s.tpc ∨ s.tpc = .panicked) ∧ i = s.secondHand ∧ c = 0 ∧ D = s.ticks ∧ past s.tpc = true))

/-- The ids to be handled are distinct. -/
def PendOk (s : St) : Prop := (pendingOf s.tpc).Nodup

theorem pendOk_step {env : Env} {s : St} {l : Label} {s' : St} (hw : WheelOk s) (hs : PendOk s)
    (h : Act env s l s') : PendOk s' := by
  unfold PendOk at hs ⊢
  cases h <;>
  first
  | exact hs
  | exact List.nodup_nil
  | (simp only [‹s.tpc = _›, pendingOf] at hs; exact hs)
  | (simp only [‹s.tpc = _›, pendingOf] at hs; exact hs.erase _)
  | exact nodup_arrival_ids _ (hw.shape.2 _ _ ‹_›)
  | simpa using hs

theorem pendOk {env : Env} {s : St} (h : Reachable env s) : PendOk s := by
  refine Reachable.induct PendOk List.nodup_nil (fun s l s' hr hs h => ?_) s h
  exact pendOk_step (wheelOk hr) hs h

theorem Sched.ticks_le {k : Nat} {t : Task} {D : Nat} {s : St} (h : Sched k t D s) : s.ticks ≤ D := by
  obtain ⟨i, c, _, _, h⟩ := h.place
  rcases h with ⟨_, h⟩ | ⟨_, _, _, h, _⟩
  · have : s.ticks ≤ base s := by unfold base; split <;> omega
    unfold nextVisit at h; omega
  · omega

/-- What a step of another party than the wheel hand leaves unchanged. -/
theorem Sched.frame {k : Nat} {t : Task} {D : Nat} {s s' : St} (h : Sched k t D s)
    (hw : ∀ j u, inWheel s'.wheel k j u ↔ inWheel s.wheel k j u)
    (ht : tpcTok k s'.tpc = [])
    (hp : (k ∈ pendingOf s'.tpc ↔ k ∈ pendingOf s.tpc) ∧ (s.tpc = .panicked → s'.tpc = .panicked) ∨
      s'.tpc = .panicked)
    (hpast : past s'.tpc = past s.tpc) (htk : s'.ticks = s.ticks) (hh : s'.secondHand = s.secondHand) :
    Sched k t D s' := by
  obtain ⟨h1, h2, i, c, h3, h4, h5⟩ := h
  have hb : base s' = base s := by unfold base; rw [hpast, htk]
  refine ⟨h1, ht, i, c, (hw _ _).2 h3, fun j u hj => h4 j u ((hw _ _).1 hj), ?_⟩
  rw [hb, hh, htk, hpast]
  rcases h5 with ⟨ha, hb⟩ | ⟨ha, hb⟩
  · refine Or.inl ⟨?_, hb⟩
    rcases hp with ⟨hp, _⟩ | hp
    · rw [hp]; exact ha
    · rw [hp]; simp [pendingOf]
  · refine Or.inr ⟨?_, hb⟩
    rcases hp with ⟨hp, hp'⟩ | hp
    · rcases ha with ha | ha
      · exact Or.inl (hp.2 ha)
      · exact Or.inr (hp' ha)
    · exact Or.inr hp

theorem nextVisit_mod (b i : Nat) (hi : i < 3600) : nextVisit b i % 3600 = i := by
  unfold nextVisit; omega

theorem nextVisit_self (b i : Nat) (h : i = b % 3600) : nextVisit b i = b := by
  unfold nextVisit; omega

theorem nextVisit_succ_self (b i : Nat) (h : i = b % 3600) : nextVisit (b + 1) i = b + 3600 := by
  unfold nextVisit; omega

theorem nextVisit_succ_other (b i : Nat) (hi : i < 3600) (h : i ≠ b % 3600) :
    nextVisit (b + 1) i = nextVisit b i := by
  unfold nextVisit; omega

/-- The action `l` is not one of the event thread on `k`. -/
structure Apart (k : Nat) (s : St) (l : Label) : Prop where
  head : l = .eRecv → ∀ e rest, s.chan = e :: rest → ¬ EventTouches k e
  epc : l = .eNext → ¬ BusyWith k s.epc

theorem Spec.Quiet.apart {k : Nat} {s : St} (h : Quiet k s) (l : Label) : Apart k s l :=
  ⟨fun _ e rest hc => h.chan e (by rw [hc]; exact List.mem_cons_self), fun _ => h.epc⟩

/-- How a waiting task moves: it stays, or it is taken out at its due tick. -/
theorem sched_step {env : Env} {k : Nat} {t : Task} {D : Nat} {s : St} {l : Label} {s' : St}
    (hq : Apart k s l) (hwo : WheelOk s) (hpo : PendOk s) (hs : Sched k t D s) (h : Act env s l s') :
    Sched k t D s' ∨
    (l = .tPop k ∧ D = s.ticks ∧ s'.log = .attempted k D :: s.log ∧ s'.ticks = s.ticks ∧
      (∃ p, k ∉ p ∧ s'.tpc = .check p { t with cylinderLine := 0 }) ∧ (∀ j u, ¬ inWheel s'.wheel k j u)) := by
  have hT := hs.tpc
  cases h
  all_goals try (exact Or.inl ⟨hs.valid, hs.tpc, hs.place⟩)
  -- steps that touch neither the wheel nor the scheduler
  all_goals try (
    refine Or.inl (hs.frame ?_ ?_ ?_ ?_ ?_ ?_) <;> first | (intro j u; simp; done) | (simp; done) | (simpa using hT))
  -- steps that move the scheduler only
  all_goals try (
    refine Or.inl (hs.frame (fun _ _ => Iff.rfl) ?_ ?_ ?_ rfl rfl)
    · first | rfl | (simpa [‹s.tpc = _›, tpcTok] using hT)
    · first | exact Or.inr rfl | (refine Or.inl ⟨?_, ?_⟩ <;> simp [‹s.tpc = _›, pendingOf])
    · simp [‹s.tpc = _›, past]; done)
  case arrive sl h hw =>
    left
    obtain ⟨hv, _, i, c, h3, h4, h5⟩ := hs
    have hb : base s = s.ticks := by simp [base, h, past]
    have h5 : D = nextVisit (base s) i + 3600 * c := by
      rcases h5 with ⟨_, h5⟩ | ⟨_, _, _, _, h6⟩
      · exact h5
      · rw [h] at h6; cases h6
    rw [hb] at h5
    have hi : i < 3600 := by
      obtain ⟨sl', hsl', _⟩ := h3
      exact (hwo.shape.1 i).1 (by rw [hsl']; rfl)
    have hh := hwo.hand
    by_cases hi' : i = s.secondHand
    · by_cases hc : c = 0
      · refine ⟨hv, rfl, i, 0, ?_, ?_, Or.inr ⟨Or.inl ?_, hi', rfl, ?_, rfl⟩⟩
        · rw [inWheel_arrive hw]
          exact Or.inl ⟨hi', _, hi' ▸ h3, by rw [hc, checkArrived_zero rfl]⟩
        · intro j u hj
          rw [inWheel_arrive hw] at hj
          rcases hj with ⟨hj, v, hv1, hv2⟩ | ⟨hj, hj'⟩
          · refine ⟨by rw [hj, hi'], ?_⟩
            rw [hv2, (h4 _ _ hv1).2, hc, checkArrived_zero rfl]
          · exact ⟨(h4 _ _ hj').1, by rw [(h4 _ _ hj').2, hc]⟩
        · show k ∈ sl.arrivalTimeTasks.1
          rw [mem_arrival_ids]
          rw [hi'] at h3
          obtain ⟨sl', hsl', hm, hid⟩ := h3
          rw [hw] at hsl'; cases hsl'
          exact ⟨_, hm, hid, hc, hv⟩
        · show D = s.ticks
          rw [h5, nextVisit_self _ _ (by rw [hi', hh]), hc]; omega
      · refine ⟨hv, rfl, i, c - 1, ?_, ?_, Or.inl ⟨?_, ?_⟩⟩
        · rw [inWheel_arrive hw]
          exact Or.inl ⟨hi', _, hi' ▸ h3, by rw [checkArrived_pos hc]⟩
        · intro j u hj
          rw [inWheel_arrive hw] at hj
          rcases hj with ⟨hj, v, hv1, hv2⟩ | ⟨hj, hj'⟩
          · refine ⟨by rw [hj, hi'], ?_⟩
            rw [hv2, (h4 _ _ hv1).2, checkArrived_pos hc]
          · exact absurd ((h4 _ _ hj').1.trans hi') hj
        · show k ∉ sl.arrivalTimeTasks.1
          rw [mem_arrival_ids]
          rintro ⟨v, hv1, hv2, hv3, _⟩
          have := (h4 s.secondHand v ⟨sl, hw, hv1, hv2⟩).2
          rw [this] at hv3
          exact hc hv3
        · show D = nextVisit (s.ticks + 1) i + 3600 * (c - 1)
          rw [h5, nextVisit_self _ _ (by rw [hi', hh]), nextVisit_succ_self _ _ (by rw [hi', hh])]
          omega
    · have hno : ∀ v, ¬ inWheel s.wheel k s.secondHand v := fun v hv => hi' (h4 _ _ hv).1.symm
      refine ⟨hv, rfl, i, c, ?_, ?_, Or.inl ⟨?_, ?_⟩⟩
      · rw [inWheel_arrive hw]; exact Or.inr ⟨hi', h3⟩
      · intro j u hj
        rw [inWheel_arrive hw] at hj
        rcases hj with ⟨hj, v, hv1, hv2⟩ | ⟨hj, hj'⟩
        · exact absurd hv1 (hno v)
        · exact h4 _ _ hj'
      · show k ∉ sl.arrivalTimeTasks.1
        rw [mem_arrival_ids]
        rintro ⟨v, hv1, hv2, _⟩
        exact hno v ⟨sl, hw, hv1, hv2⟩
      · show D = nextVisit (s.ticks + 1) i + 3600 * c
        rw [h5, nextVisit_succ_other _ _ hi (by rw [← hh]; exact hi')]
  case pop_hit pending id sl u h hmem hw hr =>
    obtain ⟨hu, hid⟩ := removeTask_some hr
    by_cases hk : id = k
    · right
      subst hk
      obtain ⟨_, _, i, c, h3, h4, h5⟩ := hs
      rcases h5 with ⟨h5, _⟩ | ⟨_, h6, h7, h8, _⟩
      · rw [h] at h5; exact absurd hmem h5
      · have hx := h4 s.secondHand u ⟨sl, hw, hu, hid⟩
        refine ⟨rfl, h8, by rw [h8], rfl, ⟨_, ?_, by rw [hx.2, h7]⟩, ?_⟩
        · rw [PendOk, h] at hpo; exact hpo.not_mem_erase
        intro j v hj
        rw [show St.wheel _ = _ from rfl, inWheel_remove hw] at hj
        exact hj.2 ((h4 _ _ hj.1).1.trans h6) rfl
    · left
      refine hs.frame ?_ ?_ (Or.inl ⟨?_, ?_⟩) ?_ rfl rfl
      · intro j v
        rw [show St.wheel _ = _ from rfl, inWheel_remove hw]
        exact ⟨fun h => h.1, fun h => ⟨h, fun _ => hk⟩⟩
      · simp [tpcTok, hid, hk]
      · rw [h]; exact List.mem_erase_of_ne (fun h => hk h.symm)
      · intro hp; rw [h] at hp; cases hp
      · rw [h]; rfl
  case pop_miss pending id h hmem hw =>
    by_cases hk : id = k
    · subst hk
      exfalso
      obtain ⟨_, _, i, c, h3, h4, h5⟩ := hs
      rcases h5 with ⟨h5, _⟩ | ⟨_, h6, h7, h8, _⟩
      · rw [h] at h5; exact h5 hmem
      · rw [h6] at h3
        obtain ⟨sl, h9, h10, h11⟩ := h3
        exact removeTask_none (hw sl h9) _ h10 h11
    · left
      refine hs.frame (fun _ _ => Iff.rfl) rfl (Or.inl ⟨?_, ?_⟩) ?_ rfl rfl
      · rw [h]; exact List.mem_erase_of_ne (fun h => hk h.symm)
      · intro hp; rw [h] at hp; cases hp
      · rw [h]; rfl
  case gate_again pending u u' rec h hd =>
    left
    refine hs.frame (fun _ _ => Iff.rfl) ?_ (Or.inl ⟨?_, ?_⟩) ?_ rfl rfl
    · rw [h] at hT; simpa [tpcTok, down_taskId hd] using hT
    · rw [h]; rfl
    · intro hp; rw [h] at hp; cases hp
    · rw [h]; rfl
  case slot_ok pending u upd exec sl step slot h hn hstep hslot hw =>
    left
    have hk : u.taskId ≠ k := by
      intro hk; rw [h] at hT; simp [tpcTok, hk] at hT
    refine hs.frame ?_ rfl (Or.inl ⟨?_, ?_⟩) ?_ rfl rfl
    · intro j v
      rw [show St.wheel _ = _ from rfl, inWheel_add hw]
      exact ⟨fun h => h.elim (fun h => absurd h.2.2 hk) (fun h => h.1), fun h => Or.inr ⟨h, fun _ => hk⟩⟩
    · rw [h]; rfl
    · intro hp; rw [h] at hp; cases hp
    · rw [h]; rfl
  case lapse h =>
    left
    obtain ⟨hv, _, i, c, h3, h4, h5⟩ := hs
    refine ⟨hv, rfl, i, c, h3, h4, Or.inl ⟨by simp [pendingOf], ?_⟩⟩
    rcases h5 with ⟨_, h5⟩ | ⟨h5, _⟩
    · rw [h5]; simp [base, h, past]
    · rw [h] at h5; rcases h5 with h5 | h5 <;> cases h5
  case recv_update u rest m sl he hc hf hw =>
    left
    have hk : u.taskId ≠ k := hq.head rfl (.updateTask u) rest hc
    refine hs.frame ?_ hT (Or.inl ⟨Iff.rfl, id⟩) rfl rfl rfl
    intro j v
    rw [done_wheel, inWheel_update hw]
    exact ⟨fun h => h.elim (fun h => absurd h.2.2 hk) (fun h => h.1), fun h => Or.inr ⟨h, fun _ => hk⟩⟩
  case recv_advance id rest m sl u he hc hf hw hr =>
    left
    have hk : id ≠ k := hq.head rfl (.advanceTask id) rest hc
    refine hs.frame ?_ hT (Or.inl ⟨Iff.rfl, fun h => h⟩) rfl rfl rfl
    intro j v
    rw [show St.wheel _ = _ from rfl, inWheel_remove hw]
    exact ⟨fun h => h.1, fun h => ⟨h, fun _ => hk⟩⟩
  case recv_remove id rest m sl he hc hf hw =>
    left
    have hk : id ≠ k := hq.head rfl (.removeTask id) rest hc
    refine hs.frame ?_ hT (Or.inl ⟨Iff.rfl, fun h => h⟩) rfl rfl rfl
    intro j v
    rw [show St.wheel _ = _ from rfl, inWheel_remove hw]
    exact ⟨fun h => h.1, fun h => ⟨h, fun _ => hk⟩⟩
  case next_add2 u chain hand exec ts seed slot sl he hseed hslot hw =>
    left
    have hk : u.taskId ≠ k := by have := hq.epc rfl; rw [he] at this; exact this
    refine hs.frame ?_ hT (Or.inl ⟨Iff.rfl, fun h => h⟩) rfl rfl rfl
    intro j v
    rw [show St.wheel _ = _ from rfl, inWheel_add hw]
    exact ⟨fun h => h.elim (fun h => absurd h.2.2 hk) (fun h => h.1), fun h => Or.inr ⟨h, fun _ => hk⟩⟩
  case next_adv2 u hand sl he hw =>
    left
    have hk : u.taskId ≠ k := by have := hq.epc rfl; rw [he] at this; exact this
    refine hs.frame ?_ hT (Or.inl ⟨Iff.rfl, fun h => h⟩) rfl rfl rfl
    intro j v
    rw [done_wheel, inWheel_add hw]
    exact ⟨fun h => h.elim (fun h => absurd h.2.2 hk) (fun h => h.1), fun h => Or.inr ⟨h, fun _ => hk⟩⟩

end DelayTimer
