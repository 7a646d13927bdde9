import Verif.Proofs.Once
import Verif.Spec.Operations

/-! Tasks that are gone, and where the tasks that are not are recorded to wait. -/

namespace DelayTimer
open Spec

theorem chanAdds_nil_iff {k : Nat} {c : List TimerEvent} :
    chanAdds k c = [] ↔ ∀ e ∈ c, ¬ EventAdds k e := by
  induction c with
  | nil => simp [chanAdds]
  | cons e c ih =>
    rw [show e :: c = [e] ++ c from rfl, chanAdds_append, List.append_eq_nil_iff, ih]
    simp only [List.singleton_append, List.mem_cons, forall_eq_or_imp]
    refine and_congr_left fun _ => ?_
    cases e <;> simp [chanAdds, EventAdds]

/-- `k` is unknown to the timer, or its removal is nearly done. -/
structure Gone (k : Nat) (s : St) : Prop where
  absent : Absent k s
  chan : ∀ e ∈ s.chan, ¬ EventAdds k e
  epc : epcTok k s.epc = []
  noAdd3 : ∀ tag m, s.epc = .add3 tag m → m.taskId ≠ k
  flag : s.flags k = none ∨ ∃ ok, s.epc = .remove k ok

theorem Gone.init (env : Env) (k : Nat) : Gone k (init env) :=
  ⟨(Unborn.init env k).absent, by simp [DelayTimer.init], rfl, by simp [DelayTimer.init], Or.inl rfl⟩

theorem gone_step {env : Env} {k : Nat} {s : St} {l : Label} {s' : St} (hs : Gone k s)
    (hl : ¬ Adds k l) (h : Act env s l s') : Gone k s' := by
  obtain ⟨habs, hch, hepc, h3, hfl⟩ := hs
  obtain ⟨hw, ht, hp⟩ := absent_iff.1 habs
  have hw' : ∀ j u, ¬ inWheel s'.wheel k j u := by
    cases h
    all_goals try (exact hw)
    all_goals try (simpa using hw)
    case arrive sl h hwh =>
      intro j u hj
      rw [inWheel_arrive hwh] at hj
      rcases hj with ⟨_, v, hv, _⟩ | ⟨_, hj⟩
      · exact hw _ _ hv
      · exact hw _ _ hj
    case pop_hit pending id sl u h hmem hwh hr =>
      intro j u hj
      rw [show St.wheel _ = _ from rfl, inWheel_remove hwh] at hj
      exact hw _ _ hj.1
    case slot_ok pending t upd exec sl step slot h hx hstep hslot hwh =>
      intro j u hj
      rw [show St.wheel _ = _ from rfl, inWheel_add hwh] at hj
      rcases hj with ⟨_, _, hj⟩ | hj
      · rw [h] at ht; simp only [tpcTok] at ht
        rw [if_pos (show t.taskId = k from hj)] at ht; cases ht
      · exact hw _ _ hj.1
    case recv_update u rest m sl he hc hf hwh =>
      intro j v hj
      rw [done_wheel, inWheel_update hwh] at hj
      rcases hj with ⟨_, _, hj⟩ | hj
      · rcases hfl with hfl | ⟨ok, hfl⟩
        · change u.taskId = k at hj
          change s.flags u.taskId = _ at hf
          rw [hj, hfl] at hf; cases hf
        · rw [he] at hfl; cases hfl
      · exact hw _ _ hj.1
    case recv_advance id rest m sl u he hc hf hwh hr =>
      intro j u hj
      rw [show St.wheel _ = _ from rfl, inWheel_remove hwh] at hj
      exact hw _ _ hj.1
    case recv_remove id rest m sl he hc hf hwh =>
      intro j u hj
      rw [show St.wheel _ = _ from rfl, inWheel_remove hwh] at hj
      exact hw _ _ hj.1
    case next_add2 u chain hand exec ts seed slot sl he hseed hslot hwh =>
      intro j v hj
      rw [show St.wheel _ = _ from rfl, inWheel_add hwh] at hj
      rcases hj with ⟨_, _, hj⟩ | hj
      · rw [he] at hepc; simp only [epcTok] at hepc
        rw [if_pos (show u.taskId = k from hj)] at hepc; cases hepc
      · exact hw _ _ hj.1
    case next_adv2 u hand sl he hwh =>
      intro j v hj
      rw [done_wheel, inWheel_add hwh] at hj
      rcases hj with ⟨_, _, hj⟩ | hj
      · rw [he] at hepc; simp only [epcTok] at hepc
        rw [if_pos (show u.taskId = k from hj)] at hepc; cases hepc
      · exact hw _ _ hj.1
  have ht' : tpcTok k s'.tpc = [] := by
    rcases tok_step ht h with h1 | ⟨u, h1⟩
    · exact h1
    · exact absurd h1 (hw _ _)
  have hp' : k ∉ pendingOf s'.tpc := by
    by_cases hT : TLabel l
    · clear hw' ht'
      cases h
      all_goals try (exact False.elim hT)
      all_goals try (simp [pendingOf]; done)
      all_goals try (rw [‹s.tpc = _›] at hp; exact hp)
      all_goals try (rw [‹s.tpc = _›] at hp; exact fun hx => hp (List.mem_of_mem_erase hx))
      case arrive sl h hwh =>
        intro hx
        obtain ⟨u, h1, h2, _⟩ := (mem_arrival_ids sl k).1 hx
        exact hw _ u ⟨sl, hwh, h1, h2⟩
    · rw [(other_thread h hT).1]; exact hp
  have hch' : ∀ e ∈ s'.chan, ¬ EventAdds k e := by
    rcases chan_step h with ⟨_, h3 | ⟨e, h3, h4⟩⟩ | ⟨_, _, e, h3⟩ | ⟨_, h3⟩
    · rw [h3]; exact hch
    · rw [h3]
      intro x hx
      rcases List.mem_append.1 hx with hx | hx
      · exact hch x hx
      · rw [List.mem_singleton] at hx
        subst hx
        rcases h4 with h4 | ⟨op, rfl, rfl⟩ | ⟨t, rfl, rfl⟩
        · have := h4 k
          cases x <;> first | exact this | exact id
        · cases op <;> first | exact hl | exact id
        · exact hl
    · exact fun x hx => hch x (by rw [h3]; exact List.mem_cons_of_mem _ hx)
    · rw [h3]; exact hch
  have hepc' : epcTok k s'.epc = [] ∧ ∀ tag m, s'.epc = .add3 tag m → m.taskId ≠ k := by
    clear hw' ht' hp' hch'
    cases h
    all_goals try (exact ⟨hepc, h3⟩)
    all_goals try (refine ⟨rfl, fun _ _ h => ?_⟩; cases h; done)
    all_goals try (refine ⟨by simpa using hepc, by simpa using h3⟩; done)
    case recv_add t rest he hc =>
      have h4 := hch _ (by rw [hc]; exact List.mem_cons_self)
      exact ⟨if_neg h4, fun _ _ h => by cases h⟩
    case recv_insert t c rest he hc =>
      have h4 := hch _ (by rw [hc]; exact List.mem_cons_self)
      exact ⟨if_neg h4, fun _ _ h => by cases h⟩
    case recv_advance id rest m sl u he hc hf hwh hr =>
      obtain ⟨h3, h4⟩ := removeTask_some hr
      by_cases hk : id = k
      · exact absurd ⟨sl, hwh, h3, h4.trans hk⟩ (hw _ u)
      · exact ⟨by simp [epcTok, h4, hk], fun _ _ h => by cases h⟩
    case next_add1 t chain hand exec he hn =>
      rw [he] at hepc
      exact ⟨by simp_all [epcTok], fun _ _ h => by cases h⟩
    case next_add2 u chain hand exec ts seed slot sl he hseed hslot hwh =>
      rw [he] at hepc
      refine ⟨rfl, fun _ _ h => ?_⟩
      cases h
      intro hk
      simp only [epcTok] at hepc
      rw [if_pos (show u.taskId = k from hk)] at hepc; cases hepc
    case next_add2_missing u chain hand exec ts seed slot he hseed hslot hwh =>
      rw [he] at hepc
      refine ⟨rfl, fun _ _ h => ?_⟩
      cases h
      intro hk
      simp only [epcTok] at hepc
      rw [if_pos (show u.taskId = k from hk)] at hepc; cases hepc
    case next_adv1 t he =>
      rw [he] at hepc
      exact ⟨hepc, fun _ _ h => by cases h⟩
  refine ⟨absent_iff.2 ⟨hw', ht', hp'⟩, hch', hepc'.1, hepc'.2, ?_⟩
  clear hw' ht' hp' hch' hepc'
  cases h
  all_goals try (exact hfl)
  all_goals try (
    have hx := ‹s.epc = _›
    rcases hfl with hfl | ⟨ok, hfl⟩
    · exact Or.inl hfl
    · rw [hx] at hfl; cases hfl)
  case mark_some pending id slot upd m h hf =>
    rcases hfl with hfl | hfl
    · left
      show set s.flags id _ k = none
      rw [set_apply]
      split
      · rename_i hk; rw [hk, hf] at hfl; cases hfl
      · exact hfl
    · exact Or.inr hfl
  case recv_cancel id rec rest he hc =>
    rcases hfl with hfl | ⟨ok, hfl⟩
    · exact Or.inl ((cancelTask_flags env true { s with chan := rest } id rec CANCELLED k).isNone.2 hfl)
    · rw [he] at hfl; cases hfl
  case recv_timeout id rec rest he hc =>
    rcases hfl with hfl | ⟨ok, hfl⟩
    · exact Or.inl ((cancelTask_flags env false { s with chan := rest } id rec TIMEOUT k).isNone.2 hfl)
    · rw [he] at hfl; cases hfl
  case recv_append id box rest he hc =>
    rcases hfl with hfl | ⟨ok, hfl⟩
    · exact Or.inl ((maintainTaskStatus_flags { s with chan := rest } id box k).isNone.2 hfl)
    · rw [he] at hfl; cases hfl
  case recv_finish b rest he hc =>
    rcases hfl with hfl | ⟨ok, hfl⟩
    · exact Or.inl ((finishTask_flags env { s with chan := rest } b.taskId b.recordId k).isNone.2 hfl)
    · rw [he] at hfl; cases hfl
  case next_add1_err t chain hand he hn =>
    rcases hfl with hfl | ⟨ok, hfl⟩
    · exact Or.inl (by simpa using hfl)
    · rw [he] at hfl; cases hfl
  case next_add3 tag m he =>
    rcases hfl with hfl | ⟨ok, hfl⟩
    · left
      have := h3 tag m he
      simp only [done_flags, set_apply, if_neg (Ne.symm this)]
      simpa using hfl
    · rw [he] at hfl; cases hfl
  case next_remove id ok he =>
    left
    rcases hfl with hfl | ⟨ok', hfl⟩
    · simp only [done_flags]
      rw [set_apply]
      split
      · rfl
      · simpa using hfl
    · rw [he] at hfl; cases hfl
      simp

theorem gone_after {env : Env} {k : Nat} : ∀ (ls : List Label) {s s' : St}, Gone k s →
    (∀ l ∈ ls, ¬ Adds k l) → run env s ls = some s' →
    Gone k s' ∧ attempts k s'.log = attempts k s.log ∧ startTicks k s'.log = startTicks k s.log := by
  intro ls
  induction ls with
  | nil => intro s s' h _ hr; cases hr; exact ⟨h, rfl, rfl⟩
  | cons l ls ih =>
    intro s s' h ht hr
    simp only [run] at hr
    split at hr
    rotate_left
    · cases hr
    rename_i s1 h1
    have ha := step_act h1
    have hg := gone_step h (ht l List.mem_cons_self) ha
    obtain ⟨e1, e2, e3⟩ := ih hg (fun l hl => ht l (List.mem_cons_of_mem _ hl)) hr
    refine ⟨e1, ?_, ?_⟩
    · rw [e2]
      rcases attempts_step k ha with e | ⟨e0, p, u, f1, f2, _⟩
      · exact e
      · have := (absent_iff.1 hg.absent).2.1
        rw [f1] at this; simp [tpcTok, f2] at this
    · rw [e3]
      rcases starts_step k ha with e | ⟨_, p, u, rec, box, f1, f2, f3, _⟩
      · exact e.1
      · have := (absent_iff.1 h.absent).2.1
        rw [f1] at this; simp [tpcTok, f3] at this

/-- How the mark of `k` changes in a step. -/
theorem flag_step {env : Env} (k : Nat) {s : St} {l : Label} {s' : St} (h : Act env s l s') :
    SameMark (s'.flags k) (s.flags k) ∨
    (∃ p i u m, s.tpc = .mark p k i u ∧ l = .tMark ∧ s'.flags k = some m ∧ m.slotMark = i ∧ s.flags k ≠ none) ∨
    (∃ tag m, s.epc = .add3 tag m ∧ l = .eNext ∧ m.taskId = k ∧ s'.flags k = some m) ∨
    (∃ ok, s.epc = .remove k ok ∧ l = .eNext ∧ s'.flags k = none) := by
  cases h
  all_goals try (exact Or.inl (SameMark.refl _))
  all_goals try (refine Or.inl (SameMark.of_eq ?_); simp; done)
  case mark_some pending id slot upd m h hf =>
    by_cases hk : id = k
    · subst hk
      exact Or.inr (Or.inl ⟨_, _, _, _, h, rfl, set_same .., rfl, by rw [hf]; simp⟩)
    · refine Or.inl (SameMark.of_eq ?_)
      exact set_other _ _ _ (fun h => hk h.symm)
  case recv_cancel id rec rest he hc =>
    rw [done_flags]
    exact Or.inl (cancelTask_flags env true { s with chan := rest } id rec CANCELLED k)
  case recv_timeout id rec rest he hc =>
    rw [done_flags]
    exact Or.inl (cancelTask_flags env false { s with chan := rest } id rec TIMEOUT k)
  case recv_finish b rest he hc =>
    rw [done_flags]
    exact Or.inl (finishTask_flags env { s with chan := rest } b.taskId b.recordId k)
  case recv_append id box rest he hc =>
    rw [done_flags]
    exact Or.inl (maintainTaskStatus_flags { s with chan := rest } id box k)
  case next_add3 tag m he =>
    by_cases hk : m.taskId = k
    · subst hk
      exact Or.inr (Or.inr (Or.inl ⟨_, _, he, rfl, rfl, set_same ..⟩))
    · refine Or.inl (SameMark.of_eq ?_)
      exact set_other _ _ _ (fun h => hk h.symm)
  case next_remove id ok he =>
    by_cases hk : id = k
    · subst hk
      exact Or.inr (Or.inr (Or.inr ⟨_, he, rfl, set_same ..⟩))
    · refine Or.inl (SameMark.of_eq ?_)
      exact set_other _ _ _ (fun h => hk h.symm)

/-- Where a copy of `k` in the wheel was before the step. -/
theorem copy_from {env : Env} (k : Nat) {s : St} {l : Label} {s' : St} (h : Act env s l s') {j : Nat} {u : Task}
    (hj : inWheel s'.wheel k j u) :
    (∃ v, inWheel s.wheel k j v) ∨
    (∃ p t upd, l = .tSlot ∧ s.tpc = .rearm p t upd ∧ t.taskId = k ∧ s'.tpc = .mark p k j upd) ∨
    (∃ t c hand exec ts tag m, l = .eNext ∧ s.epc = .add2 t c hand exec ts ∧ t.taskId = k ∧
      s'.epc = .add3 tag m ∧ m.taskId = k ∧ m.slotMark = j) ∨
    (∃ t rest, l = .eRecv ∧ s.epc = .idle ∧ s.chan = .updateTask t :: rest ∧ t.taskId = k) ∨
    (∃ t hand, l = .eNext ∧ s.epc = .adv2 t hand ∧ t.taskId = k) := by
  cases h
  all_goals try (exact Or.inl ⟨u, hj⟩)
  all_goals try (refine Or.inl ⟨u, ?_⟩; simpa using hj)
  case arrive sl h hwh =>
    rw [inWheel_arrive hwh] at hj
    rcases hj with ⟨rfl, v, hv, _⟩ | ⟨_, hj⟩
    · exact Or.inl ⟨v, hv⟩
    · exact Or.inl ⟨u, hj⟩
  case pop_hit pending id sl u h hmem hwh hr =>
    rw [show St.wheel _ = _ from rfl, inWheel_remove hwh] at hj
    exact Or.inl ⟨_, hj.1⟩
  case slot_ok pending t upd exec sl step slot h hx hstep hslot hwh =>
    rw [show St.wheel _ = _ from rfl, inWheel_add hwh] at hj
    rcases hj with ⟨rfl, _, hj⟩ | hj
    · change t.taskId = k at hj
      subst hj
      exact Or.inr (Or.inl ⟨_, _, _, rfl, h, rfl, rfl⟩)
    · exact Or.inl ⟨_, hj.1⟩
  case recv_update u rest m sl he hc hf hwh =>
    rw [done_wheel, inWheel_update hwh] at hj
    rcases hj with ⟨_, _, hj⟩ | hj
    · exact Or.inr (Or.inr (Or.inr (Or.inl ⟨_, _, rfl, he, hc, hj⟩)))
    · exact Or.inl ⟨_, hj.1⟩
  case recv_advance id rest m sl u he hc hf hwh hr =>
    rw [show St.wheel _ = _ from rfl, inWheel_remove hwh] at hj
    exact Or.inl ⟨_, hj.1⟩
  case recv_remove id rest m sl he hc hf hwh =>
    rw [show St.wheel _ = _ from rfl, inWheel_remove hwh] at hj
    exact Or.inl ⟨_, hj.1⟩
  case next_add2 t chain hand exec ts seed slot sl he hseed hslot hwh =>
    rw [show St.wheel _ = _ from rfl, inWheel_add hwh] at hj
    rcases hj with ⟨rfl, _, hj⟩ | hj
    · exact Or.inr (Or.inr (Or.inl ⟨_, _, _, _, _, _, _, rfl, he, hj, rfl, hj, rfl⟩))
    · exact Or.inl ⟨_, hj.1⟩
  case next_adv2 t hand sl he hwh =>
    rw [done_wheel, inWheel_add hwh] at hj
    rcases hj with ⟨_, _, hj⟩ | hj
    · exact Or.inr (Or.inr (Or.inr (Or.inr ⟨_, _, rfl, he, hj⟩)))
    · exact Or.inl ⟨_, hj.1⟩

/-- With plain use of `k`, and without encounters of the two threads on it: at most one copy, and the
mark says where it is. -/
structure Tidy (k : Nat) (s : St) : Prop where
  single : Single k s
  noAdv : .advanceTask k ∉ s.chan
  epcAdv : ∀ t, (s.epc = .adv1 t ∨ ∃ h, s.epc = .adv2 t h) → t.taskId ≠ k
  place : ∀ i t, inWheel s.wheel k i t → (∃ m, s.flags k = some m ∧ m.slotMark = i) ∨
    (∃ tag m, s.epc = .add3 tag m ∧ m.taskId = k) ∨ ∃ p u, s.tpc = .mark p k i u
  adding : ∀ tag m, s.epc = .add3 tag m → m.taskId = k → ∀ i t, inWheel s.wheel k i t → i = m.slotMark
  known : tpcTok k s.tpc ≠ [] → s.flags k ≠ none
  marking : ∀ p i u, s.tpc = .mark p k i u → s.flags k ≠ none ∧ ∃ t, inWheel s.wheel k i t
  removing : ∀ ok, s.epc = .remove k ok →
    (∀ i t, ¬ inWheel s.wheel k i t) ∧ tpcTok k s.tpc = []

theorem inHand_iff {k : Nat} {p : TPC} :
    InHand k p ↔ k ∈ pendingOf p ∨ tpcTok k p ≠ [] ∨ ∃ q i u, p = .mark q k i u := by
  unfold InHand
  cases p <;> simp [Handling, pendingOf, tpcTok, or_comm]

theorem Spec.Unscheduled.loose {k : Nat} {s : St} (h : Unscheduled k s) (ha : ∀ t, (s.epc = .adv1 t ∨ ∃ h, s.epc = .adv2 t h) → t.taskId ≠ k) :
    looseN k s = 0 ∧ ∀ i t, ¬ inWheel s.wheel k i t := by
  obtain ⟨h1, h2, h3⟩ := absent_iff.1 h.absent
  refine ⟨?_, h1⟩
  have h4 := chanAdds_nil_iff.2 h.chan
  have h5 : epcTok k s.epc = [] := by
    have := h.epc
    cases he : s.epc <;> simp [he, Adding, epcTok] at this ⊢ <;> first | exact this | skip
    · exact ha _ (Or.inl he)
    · exact ha _ (Or.inr ⟨_, he⟩)
  simp [looseN, h2, h4, h5]

/-- What the other threads can do to a copy in the wheel. -/
theorem copy_stays {env : Env} {k : Nat} {s : St} {l : Label} {s' : St} (hT : ¬ TLabel l) (h : Act env s l s')
    {i : Nat} {t : Task} (hi : inWheel s.wheel k i t) :
    (∃ u, inWheel s'.wheel k i u) ∨
    (l = .eRecv ∧ s.epc = .idle ∧ s.chan.head? = some (.removeTask k)) ∨ (s.epc = .idle ∧ .advanceTask k ∈ s.chan) := by
  cases h
  all_goals try (exact absurd trivial hT)
  all_goals try (exact Or.inl ⟨t, hi⟩)
  all_goals try (refine Or.inl ⟨t, ?_⟩; simpa using hi)
  case recv_update u rest m sl he hc hf hwh =>
    left
    by_cases hk : i = m.slotMark ∧ u.taskId = k
    · refine ⟨u, ?_⟩
      rw [done_wheel, inWheel_update hwh]
      exact Or.inl ⟨hk.1, rfl, hk.2⟩
    · refine ⟨t, ?_⟩
      rw [done_wheel, inWheel_update hwh]
      exact Or.inr ⟨hi, fun h h' => hk ⟨h, h'⟩⟩
  case recv_advance id rest m sl u he hc hf hwh hr =>
    by_cases hk : id = k
    · exact Or.inr (Or.inr ⟨he, by rw [hc, hk]; exact List.mem_cons_self⟩)
    · refine Or.inl ⟨t, ?_⟩
      rw [show St.wheel _ = _ from rfl, inWheel_remove hwh]
      exact ⟨hi, fun _ => hk⟩
  case recv_remove id rest m sl he hc hf hwh =>
    by_cases hk : id = k
    · exact Or.inr (Or.inl ⟨rfl, he, by rw [hc, hk]; rfl⟩)
    · refine Or.inl ⟨t, ?_⟩
      rw [show St.wheel _ = _ from rfl, inWheel_remove hwh]
      exact ⟨hi, fun _ => hk⟩
  case next_add2 u chain hand exec ts seed slot sl he hseed hslot hwh =>
    left
    by_cases hk : i = slot ∧ u.taskId = k
    · refine ⟨{ u with cylinderLine := seed / SLOT_COUNT }, ?_⟩
      rw [show St.wheel _ = _ from rfl, inWheel_add hwh]
      exact Or.inl ⟨hk.1, rfl, hk.2⟩
    · refine ⟨t, ?_⟩
      rw [show St.wheel _ = _ from rfl, inWheel_add hwh]
      exact Or.inr ⟨hi, fun h h' => hk ⟨h, h'⟩⟩
  case next_adv2 u hand sl he hwh =>
    left
    by_cases hk : i = hand + 1 ∧ u.taskId = k
    · refine ⟨u, ?_⟩
      rw [done_wheel, inWheel_add hwh]
      exact Or.inl ⟨hk.1, rfl, hk.2⟩
    · refine ⟨t, ?_⟩
      rw [done_wheel, inWheel_add hwh]
      exact Or.inr ⟨hi, fun h h' => hk ⟨h, h'⟩⟩

theorem tidy_step {env : Env} {k : Nat} {s : St} {l : Label} {s' : St} (hs : Tidy k s)
    (hc : Calm k s) (hl : PlainCall k l s) (h : Act env s l s') : Tidy k s' := by
  obtain ⟨hsing, hnoadv, hepcadv, hplace, hadding, hknown, hmarking, hremoving⟩ := hs
  obtain ⟨hadd, hupd, hadv⟩ := hl
  have hsing' : Single k s' := by
    by_cases hb : Brings k l
    · have had : Adds k l := by
        cases l <;> try (exact hb)
        rename_i op
        cases op <;> try (exact hb)
        exact absurd hb (hupd _ rfl)
      obtain ⟨h1, h2⟩ := (hadd had).loose hepcadv
      cases h <;> try (exact hb.elim)
      case usend op =>
        cases op <;> try (exact had.elim)
        rename_i t
        refine ⟨?_, fun i t hi => absurd hi (h2 _ _), fun i t j u hi => absurd hi (h2 _ _), ?_⟩
        · simp only [DelayTimer.looseN, push, UserOp.event, chanAdds_append, List.length_append] at h1 ⊢
          have : (chanAdds k [TimerEvent.addTask t]).length ≤ 1 := by
            simp only [chanAdds]; exact List.length_filterMap_le _ _
          omega
        · intro u hu
          simp only [push, UserOp.event, List.mem_append, List.mem_singleton, reduceCtorEq, or_false] at hu
          exact hsing.noUpd u hu
      case uinsert t =>
        refine ⟨?_, fun i t hi => absurd hi (h2 _ _), fun i t j u hi => absurd hi (h2 _ _), ?_⟩
        · simp only [DelayTimer.looseN, push, uInsert, chanAdds_append, List.length_append] at h1 ⊢
          have : (chanAdds k [TimerEvent.insertTask t s.nextChain]).length ≤ 1 := by
            simp only [chanAdds]; exact List.length_filterMap_le _ _
          omega
        · intro u hu
          simp only [push, uInsert, List.mem_append, List.mem_singleton, reduceCtorEq, or_false] at hu
          exact hsing.noUpd u hu
    · exact single_step hsing hb h
  have hnoadv' : .advanceTask k ∉ s'.chan := by
    rcases chan_step h with ⟨_, h3 | ⟨e, h3, h4⟩⟩ | ⟨_, _, e, h3⟩ | ⟨_, h3⟩
    · rw [h3]; exact hnoadv
    · rw [h3, List.mem_append, List.mem_singleton]
      rintro (hx | rfl)
      · exact hnoadv hx
      · rcases h4 with h4 | ⟨op, rfl, he⟩ | ⟨t, rfl, he⟩
        · exact h4 k rfl
        · cases op <;> cases he
          exact hadv rfl
        · cases he
    · exact fun hx => hnoadv (by rw [h3]; exact List.mem_cons_of_mem _ hx)
    · rw [h3]; exact hnoadv
  have hepcadv' : ∀ t, (s'.epc = .adv1 t ∨ ∃ h, s'.epc = .adv2 t h) → t.taskId ≠ k := by
    rcases chan_step h with ⟨h3, -⟩ | ⟨rfl, he, -⟩ | ⟨rfl, h3⟩
    · rw [h3]; exact hepcadv
    · cases h
      case recv_advance id rest m sl t he hc hf hw hr =>
        rintro u (hu | ⟨_, hu⟩) <;> cases hu
        have := (removeTask_some hr).2
        show t.taskId ≠ k
        rintro hk
        exact hnoadv (by rw [hc, ← hk, this]; exact List.mem_cons_self)
      all_goals (rintro u (hu | ⟨_, hu⟩) <;> first | cases hu | skip)
      all_goals exact hepcadv u (by first | exact Or.inl hu | exact Or.inr ⟨_, hu⟩)
    · cases h
      case next_adv1 t he =>
        rintro u (hu | ⟨_, hu⟩) <;> cases hu
        exact hepcadv t (Or.inl he)
      all_goals (rintro u (hu | ⟨_, hu⟩) <;> first | cases hu | skip)
  -- a copy in the wheel after the step
  have hfrom : ∀ j u, inWheel s'.wheel k j u → (∃ v, inWheel s.wheel k j v) ∨
      (∃ p t upd, l = .tSlot ∧ s.tpc = .rearm p t upd ∧ t.taskId = k ∧ s'.tpc = .mark p k j upd) ∨
      (∃ t c hand exec ts tag m, l = .eNext ∧ s.epc = .add2 t c hand exec ts ∧ t.taskId = k ∧
        s'.epc = .add3 tag m ∧ m.taskId = k ∧ m.slotMark = j) := by
    intro j u hj
    rcases copy_from k h hj with h1 | h1 | h1 | ⟨t, rest, _, _, h1, h2⟩ | ⟨t, hand, _, h1, h2⟩
    · exact Or.inl h1
    · exact Or.inr (Or.inl h1)
    · exact Or.inr (Or.inr h1)
    · exact absurd h2 (hsing.noUpd t (by rw [h1]; exact List.mem_cons_self))
    · exact absurd h2 (hepcadv t (Or.inr ⟨_, h1⟩))
  have hmk : ∀ p i u, s.tpc = .mark p k i u → ∀ j t, inWheel s.wheel k j t → j = i := by
    intro p i u hm j t hj
    obtain ⟨_, v, hv⟩ := hmarking p i u hm
    exact (hsing.uniq _ _ _ _ hj hv).1
  have hflag : s.flags k ≠ none → (∀ ok, s.epc ≠ .remove k ok) → s'.flags k ≠ none := by
    intro h1 h2
    rcases flag_step k h with h3 | ⟨_, _, _, m, _, _, h3, _⟩ | ⟨_, m, _, _, _, h3⟩ | ⟨ok, h3, _⟩
    · exact fun h4 => h1 (h3.isNone.1 h4)
    · rw [h3]; simp
    · rw [h3]; simp
    · exact absurd h3 (h2 ok)
  have hadd2 : ∀ t c hand exec ts, s.epc = .add2 t c hand exec ts → t.taskId = k →
      (∀ i u, ¬ inWheel s.wheel k i u) ∧ tpcTok k s.tpc = [] := by
    intro t c hand exec ts he hk
    have h1 : 1 ≤ looseN k s := by simp [looseN, he, epcTok, hk]; omega
    refine ⟨fun i u hi => by have := hsing.excl i u hi; omega, ?_⟩
    have h2 := hsing.one
    simp only [looseN, he, epcTok, if_pos hk, List.length_singleton] at h2
    exact List.length_eq_zero_iff.1 (by omega)
  refine ⟨hsing', hnoadv', hepcadv', ?_, ?_, ?_, ?_, ?_⟩
  · -- place
    intro j u hj
    rcases hfrom j u hj with ⟨v, hv⟩ | ⟨p, t, upd, _, _, _, h1⟩ | ⟨t, c, hand, exec, ts, tag, m, _, _, _, h1, h2, h3⟩
    · rcases hplace j v hv with ⟨m, h1, h2⟩ | ⟨tag, m, h1, h2⟩ | ⟨p, w, h1⟩
      · rcases flag_step k h with h3 | ⟨p, i, w, m', h3, _, h4, h5, _⟩ | ⟨tag, m', h3, _, h4, h5⟩ | ⟨ok, h3, _⟩
        · rw [h1] at h3
          cases h4 : s'.flags k with
          | none => rw [h4] at h3; exact h3.elim
          | some m' =>
            rw [h4] at h3
            exact Or.inl ⟨m', rfl, h3.2.trans h2⟩
        · exact Or.inl ⟨m', h4, h5.trans (hmk p i w h3 j v hv).symm⟩
        · exact Or.inl ⟨m', h5, (hadding tag m' h3 h4 j v hv).symm⟩
        · exact absurd hv ((hremoving ok h3).1 _ _)
      · rcases chan_step h with ⟨h3, -⟩ | ⟨-, h3, -⟩ | ⟨rfl, -⟩
        · exact Or.inr (Or.inl ⟨tag, m, h3.trans h1, h2⟩)
        · rw [h1] at h3; cases h3
        · cases h
          all_goals try (have hx := h1.symm.trans ‹s.epc = _›; cases hx; done)
          case next_add3 tag' m' he =>
            have hx := h1.symm.trans he
            cases hx
            subst h2
            exact Or.inl ⟨m, set_same .., (hadding tag m h1 rfl j v hv).symm⟩
      · by_cases hT : TLabel l
        · cases h
          all_goals try (exact False.elim hT)
          all_goals try (have hx := h1.symm.trans ‹s.tpc = _›; cases hx; done)
          case mark_none p' id slot w' h' hf =>
            have hx := h1.symm.trans h'
            cases hx
            exact absurd hf (hmarking _ _ _ h1).1
          case mark_some p' id slot w' m h' hf =>
            have hx := h1.symm.trans h'
            cases hx
            exact Or.inl ⟨_, set_same .., rfl⟩
        · exact Or.inr (Or.inr ⟨p, w, (other_thread h hT).1.trans h1⟩)
    · exact Or.inr (Or.inr ⟨p, upd, h1⟩)
    · exact Or.inr (Or.inl ⟨tag, m, h1, h2⟩)
  · -- adding
    intro tag m he hk j u hj
    rcases hfrom j u hj with ⟨v, hv⟩ | ⟨p, t, upd, rfl, h0, h00, h1⟩ | ⟨t, c, hand, exec, ts, tag', m', _, _, _, h1, h2, h3⟩
    · rcases chan_step h with ⟨h3, -⟩ | ⟨rfl, h3, -⟩ | ⟨rfl, -⟩
      · exact hadding tag m (h3.symm.trans he) hk j v hv
      · cases h
        all_goals first | (cases he; done) | (have hx := h3.symm.trans he; cases hx; done)
      · cases h
        all_goals try (cases he; done)
        case next_add2 t chain hand exec ts seed slot sl he' hseed hslot hwh =>
          cases he
          exact absurd hv ((hadd2 _ _ _ _ _ he' hk).1 _ _)
        case next_add2_missing t chain hand exec ts seed slot he' hseed hslot hwh =>
          cases he
          exact absurd hv ((hadd2 _ _ _ _ _ he' hk).1 _ _)
    · have he' : s.epc = .add3 tag m := by rw [← he]; clear hsing' hnoadv' hepcadv' hfrom hflag; cases h <;> rfl
      refine absurd hk ((hc ?_).2 tag m he')
      rw [h0]; exact Or.inl (Or.inl h00)
    · rw [h1] at he; cases he; exact h3.symm
  · -- known
    intro ht
    by_cases h1 : tpcTok k s.tpc = []
    · rcases tok_step h1 h with h2 | ⟨u, h2⟩
      · exact absurd h2 ht
      · have hT : TLabel l := Classical.byContradiction fun hT => by
          rw [(other_thread h hT).1] at ht; exact ht h1
        cases h
        all_goals try (exact False.elim hT)
        all_goals try (exact absurd rfl ht)
        all_goals try (rw [‹s.tpc = _›] at h1; exact absurd h1 ht)
        case pop_hit pending id sl v hb hmem hwh hr =>
          have hk : id = k := by
            have := (removeTask_some hr).2
            simp only [tpcTok] at ht
            split at ht
            · exact this.symm.trans ‹_›
            · exact absurd rfl ht
          subst hk
          rcases hplace _ u h2 with ⟨m, h3, _⟩ | ⟨tag, m, h3, h4⟩ | ⟨p, w, h3⟩
          · show s.flags id ≠ none
            rw [h3]; simp
          · exact absurd h4 ((hc (by rw [hb]; exact Or.inl hmem)).2 tag m h3)
          · rw [hb] at h3; cases h3
        case gate_again pending t t' rec h hd =>
          have := down_taskId hd
          rw [h] at h1
          simp only [tpcTok, this] at h1 ht
          split at h1
          · cases h1
          · rename_i hk; rw [if_neg hk] at ht; exact absurd rfl ht
    · exact hflag (hknown h1) (fun ok he => h1 (hremoving ok he).2)
  · -- marking
    intro p i u hm
    by_cases hT : TLabel l
    · cases h
      all_goals try (exact False.elim hT)
      all_goals try (cases hm; done)
      case slot_ok pending t upd exec sl step slot h' hx hstep hslot hwh =>
        cases hm
        refine ⟨hknown (by rw [h']; simp [tpcTok]), ?_⟩
        refine ⟨{ t.getNextExecTimestamp.2 with cylinderLine := step / SLOT_COUNT }, ?_⟩
        rw [show St.wheel _ = _ from rfl, inWheel_add hwh]
        exact Or.inl ⟨rfl, rfl, rfl⟩
    · have hm' : s.tpc = .mark p k i u := (other_thread h hT).1.symm.trans hm
      obtain ⟨h1, t, h2⟩ := hmarking p i u hm'
      refine ⟨hflag h1 (fun ok he => (hremoving ok he).1 _ _ h2), ?_⟩
      rcases copy_stays hT h h2 with h3 | ⟨_, h3⟩ | ⟨_, h3⟩
      · exact h3
      · exact absurd h3 (hc (Or.inr ⟨p, i, u, hm'⟩)).1
      · exact absurd h3 hnoadv
  · -- removing
    intro ok he
    have key : (∀ i t, ¬ inWheel s'.wheel k i t) → tpcTok k s.tpc = [] → (∀ i t, ¬ inWheel s.wheel k i t) ∨ s'.tpc = s.tpc →
        (∀ i t, ¬ inWheel s'.wheel k i t) ∧ tpcTok k s'.tpc = [] := by
      intro h1 h2 h3
      refine ⟨h1, ?_⟩
      rcases h3 with h3 | h3
      · rcases tok_step h2 h with h4 | ⟨u, h4⟩
        · exact h4
        · exact absurd h4 (h3 _ _)
      · rw [h3]; exact h2
    rcases chan_step h with ⟨h3, -⟩ | ⟨rfl, h3, -⟩ | ⟨rfl, -⟩
    · obtain ⟨h1, h2⟩ := hremoving ok (h3.symm.trans he)
      refine key ?_ h2 (Or.inl h1)
      intro i t hi
      rcases hfrom i t hi with ⟨v, hv⟩ | ⟨p, t, upd, rfl, h0, h00, _⟩ | ⟨t, c, hand, exec, ts, tag', m', rfl, h0, _⟩
      · exact h1 _ _ hv
      · rw [h0] at h2; simp [tpcTok, h00] at h2
      · rw [h3.symm.trans he] at h0; cases h0
    · cases h
      all_goals first | (cases he; done) | (have hx := h3.symm.trans he; cases hx; done) | skip
      case recv_remove_skip id rest he0 hch hsk =>
        cases he
        have hn : ¬ InHand k s.tpc := fun hh => (hc hh).1 ⟨h3, by rw [hch]; rfl⟩
        rw [inHand_iff, not_or, not_or] at hn
        refine key ?_ (Classical.byContradiction hn.2.1) (Or.inr rfl)
        intro i t hi
        rcases hplace i t hi with ⟨m, h4, h5⟩ | ⟨tag, m, h4, _⟩ | ⟨p, w, h4⟩
        · have h6 := hsk m h4
          obtain ⟨sl, h7, _⟩ := hi
          rw [h5, h7] at h6; cases h6
        · rw [h3] at h4; cases h4
        · exact hn.2.2 ⟨_, _, _, h4⟩
      case recv_remove id rest m sl he0 hch hf hwh =>
        cases he
        have hn : ¬ InHand k s.tpc := fun hh => (hc hh).1 ⟨h3, by rw [hch]; rfl⟩
        rw [inHand_iff, not_or, not_or] at hn
        refine key ?_ (Classical.byContradiction hn.2.1) (Or.inr rfl)
        intro i t hi
        rw [show St.wheel _ = _ from rfl, inWheel_remove hwh] at hi
        rcases hplace i t hi.1 with ⟨m', h4, h5⟩ | ⟨tag, m', h4, _⟩ | ⟨p, w, h4⟩
        · rw [hf] at h4; cases h4
          exact hi.2 h5.symm rfl
        · rw [h3] at h4; cases h4
        · exact hn.2.2 ⟨_, _, _, h4⟩
    · cases h
      all_goals (cases he; done)

theorem Tidy.init (env : Env) (k : Nat) : Tidy k (init env) := by
  have h1 := (absent_iff.1 (Unborn.init env k).absent).1
  refine ⟨⟨by simp [looseN, DelayTimer.init, chanAdds, epcTok, tpcTok], fun i t hi => absurd hi (h1 _ _),
    fun i t _ _ hi => absurd hi (h1 _ _), by simp [DelayTimer.init]⟩, by simp [DelayTimer.init],
    by simp [DelayTimer.init], fun i t hi => absurd hi (h1 _ _), by simp [DelayTimer.init],
    by simp [DelayTimer.init, tpcTok], by simp [DelayTimer.init], by simp [DelayTimer.init]⟩

theorem tidy_run {env : Env} {k : Nat} : ∀ (ls : List Label) {s s' : St}, Reachable env s → Tidy k s →
    Throughout env s ls (Calm k) → WheneverCalled env s ls (PlainCall k) → run env s ls = some s' →
    Tidy k s' := by
  intro ls
  induction ls with
  | nil => intro s s' _ h _ _ hr; cases hr; exact h
  | cons l ls ih =>
    intro s s' hre h hc hp hr
    simp only [run] at hr
    split at hr
    rotate_left
    · cases hr
    rename_i s1 h1
    refine ih (hre.step h1)
      (tidy_step h (hc [] _ s rfl rfl) (hp [] l ls s rfl rfl) (step_act h1)) ?_ ?_ hr
    · intro l1 l2 s2 e hr2
      exact hc (l :: l1) l2 s2 (by rw [e]; rfl) (by simp only [run, h1]; exact hr2)
    · intro l1 l' l2 s2 e hr2
      exact hp (l :: l1) l' l2 s2 (by rw [e]; rfl) (by simp only [run, h1]; exact hr2)

end DelayTimer
