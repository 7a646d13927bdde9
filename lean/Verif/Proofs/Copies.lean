import Verif.Proofs.Once

/-! Facts that hold of every copy of a task, wherever it is. -/

namespace DelayTimer
open Spec

/-- The copy held by the scheduler, unless it is being run. -/
def heldTok (k : Nat) : TPC → List Task
  | .check _ t => if t.taskId = k then [t] else []
  | .spawn _ t _ => if t.taskId = k then [t] else []
  | .rearm _ t _ => if t.taskId = k then [t] else []
  | _ => []

/-- The copy that the scheduler has just started, before its count-down is decremented. -/
def startedTok (k : Nat) : TPC → List Task
  | .append _ t _ => if t.taskId = k then [t] else []
  | .gate _ t _ => if t.taskId = k then [t] else []
  | _ => []

/-- `P` holds of every copy of `k`, `Q` of the one that has just been started. -/
structure Copies (P Q : Task → Prop) (k : Nat) (s : St) : Prop where
  chan : ∀ t ∈ chanAdds k s.chan, P t
  upd : ∀ t, .updateTask t ∈ s.chan → t.taskId = k → P t
  epc : ∀ t ∈ epcTok k s.epc, P t
  wheel : ∀ i t, inWheel s.wheel k i t → P t
  held : ∀ t ∈ heldTok k s.tpc, P t
  started : ∀ t ∈ startedTok k s.tpc, Q t

theorem broughtBy_nil {k : Nat} {l : Label} (h : ¬ Brings k l) : broughtBy k l = [] := by
  cases l <;> try rfl
  case uSend op => cases op <;> first | rfl | (simp only [broughtBy, Brings] at *; rw [if_neg h])
  case uInsert t => simp only [broughtBy, Brings] at *; rw [if_neg h]

theorem mem_ite_one {c : Prop} [Decidable c] {t u : Task} : t ∈ (if c then [u] else []) ↔ c ∧ t = u := by
  split <;> simp_all

theorem mem_chanAdds {k : Nat} {t : Task} {c : List TimerEvent} :
    t ∈ chanAdds k c ↔ t.taskId = k ∧ (.addTask t ∈ c ∨ ∃ x, .insertTask t x ∈ c) := by
  unfold chanAdds
  rw [List.mem_filterMap]
  constructor
  · rintro ⟨e, he, h⟩
    cases e <;> simp at h
    · obtain ⟨h1, rfl⟩ := h; exact ⟨h1, Or.inl he⟩
    · obtain ⟨h1, rfl⟩ := h; exact ⟨h1, Or.inr ⟨_, he⟩⟩
  · rintro ⟨h1, h | ⟨x, h⟩⟩
    · exact ⟨_, h, by simp [h1]⟩
    · exact ⟨_, h, by simp [h1]⟩

/-- Every step keeps `Copies`, for closed `P`. -/
theorem copies_step {env : Env} {P Q : Task → Prop} {k : Nat} {s : St} {l : Label} {s' : St}
    (hcyl : ∀ t c, P t → P { t with cylinderLine := c })
    (hask : ∀ t, P t → P t.getNextExecTimestamp.2)
    (hdown : ∀ t t', Q t → t.downCountAndSetValid env.overflowChecks = some (true, t') → P t')
    (hPQ : ∀ t, P t → Q t) (hb : ∀ t ∈ broughtBy k l, P t)
    (hs : Copies P Q k s) (h : Act env s l s') : Copies P Q k s' := by
  obtain ⟨h1, h2, h3, h4, h5, h6⟩ := hs
  cases h
  all_goals try (exact ⟨h1, h2, h3, h4, h5, h6⟩)
  all_goals try (refine ⟨h1, h2, h3, h4, ?_, ?_⟩ <;> simp [heldTok, startedTok] <;> done)
  case arrive sl h hw =>
    refine ⟨h1, h2, h3, ?_, by simp [heldTok], by simp [startedTok]⟩
    intro i t hi
    dsimp only at hi
    rw [inWheel_arrive hw] at hi
    rcases hi with ⟨_, u, hu, rfl⟩ | ⟨_, hi⟩
    · unfold Task.checkArrived
      split
      · exact h4 _ _ hu
      · exact hcyl _ _ (h4 _ _ hu)
    · exact h4 _ _ hi
  case pop_hit pending id sl t h hmem hw hr =>
    obtain ⟨h7, h8⟩ := removeTask_some hr
    refine ⟨h1, h2, h3, ?_, ?_, by simp [startedTok]⟩
    · intro i u hi
      dsimp only at hi
      rw [inWheel_remove hw] at hi
      exact h4 _ _ hi.1
    · intro u hu
      simp only [heldTok] at hu
      rw [mem_ite_one] at hu
      obtain ⟨h9, rfl⟩ := hu
      exact h4 _ _ ⟨sl, hw, h7, h9⟩
  case spawn pending t rec h =>
    refine ⟨h1, h2, h3, h4, by simp [heldTok], ?_⟩
    intro u hu
    simp only [startedTok] at hu
    exact hPQ _ (h5 _ (by rw [h]; simpa [heldTok] using hu))
  case append pending t box h =>
    refine ⟨?_, ?_, h3, h4, by simp [heldTok], ?_⟩
    · intro u hu
      refine h1 u ?_
      simpa [chanAdds] using hu
    · intro u hu; simp at hu; exact h2 u hu
    · intro u hu
      exact h6 _ (by rw [h]; simpa [startedTok] using hu)
  case gate_again pending t t' rec h hd =>
    refine ⟨h1, h2, h3, h4, ?_, by simp [startedTok]⟩
    intro u hu
    simp only [heldTok] at hu
    rw [mem_ite_one] at hu
    obtain ⟨h7, rfl⟩ := hu
    exact hdown t _ (h6 t (by rw [h]; simp [startedTok, ← h7, down_taskId hd])) hd
  case slot_ok pending t upd exec sl step slot h hn hstep hslot hw =>
    refine ⟨h1, h2, h3, ?_, by simp [heldTok], by simp [startedTok]⟩
    intro i u hi
    dsimp only at hi
    rw [inWheel_add hw] at hi
    rcases hi with ⟨_, rfl, hk⟩ | ⟨hi, _⟩
    · exact hcyl _ _ (hask t (h5 t (by
        rw [h]; simp only [heldTok]; rw [mem_ite_one]; exact ⟨hk, rfl⟩)))
    · exact h4 _ _ hi
  case recv_add t rest he hc =>
    refine ⟨?_, ?_, ?_, h4, h5, h6⟩
    · intro u hu; exact h1 u (by rw [hc, show TimerEvent.addTask t :: rest = [.addTask t] ++ rest from rfl, chanAdds_append]; exact List.mem_append_right _ hu)
    · intro u hu; exact h2 u (by rw [hc]; exact List.mem_cons_of_mem _ hu)
    · intro u hu
      simp only [epcTok] at hu
      rw [mem_ite_one] at hu
      obtain ⟨h7, rfl⟩ := hu
      exact h1 u (mem_chanAdds.2 ⟨h7, Or.inl (by rw [hc]; simp)⟩)
  case recv_insert t c rest he hc =>
    refine ⟨?_, ?_, ?_, h4, h5, h6⟩
    · intro u hu; exact h1 u (by rw [hc, show TimerEvent.insertTask t c :: rest = [.insertTask t c] ++ rest from rfl, chanAdds_append]; exact List.mem_append_right _ hu)
    · intro u hu; exact h2 u (by rw [hc]; exact List.mem_cons_of_mem _ hu)
    · intro u hu
      simp only [epcTok] at hu
      rw [mem_ite_one] at hu
      obtain ⟨h7, rfl⟩ := hu
      exact h1 u (mem_chanAdds.2 ⟨h7, Or.inr ⟨c, by rw [hc]; simp⟩⟩)
  case recv_update t rest m sl he hc hf hw =>
    refine ⟨?_, ?_, by simp [epcTok], ?_, h5, h6⟩
    · intro u hu; exact h1 u (by rw [hc, show TimerEvent.updateTask t :: rest = [.updateTask t] ++ rest from rfl, chanAdds_append]; exact List.mem_append_right _ hu)
    · intro u hu; exact h2 u (by rw [hc]; exact List.mem_cons_of_mem _ hu)
    · intro i u hi
      simp only [done_wheel] at hi
      rw [inWheel_update hw] at hi
      rcases hi with ⟨_, rfl, hk⟩ | ⟨hi, _⟩
      · exact h2 u (by rw [hc]; simp) hk
      · exact h4 _ _ hi
  case recv_advance id rest m sl t he hc hf hw hr =>
    obtain ⟨h7, h8⟩ := removeTask_some hr
    refine ⟨?_, ?_, ?_, ?_, h5, h6⟩
    · intro u hu; exact h1 u (by rw [hc, show TimerEvent.advanceTask id :: rest = [.advanceTask id] ++ rest from rfl, chanAdds_append]; exact List.mem_append_right _ hu)
    · intro u hu; exact h2 u (by rw [hc]; exact List.mem_cons_of_mem _ hu)
    · intro u hu
      simp only [epcTok] at hu
      rw [mem_ite_one] at hu
      obtain ⟨h9, rfl⟩ := hu
      exact hcyl _ _ (h4 _ _ ⟨sl, hw, h7, h9⟩)
    · intro i u hi
      dsimp only at hi
      rw [inWheel_remove hw] at hi
      exact h4 _ _ hi.1
  case recv_remove id rest m sl he hc hf hw =>
    refine ⟨?_, ?_, by simp [epcTok], ?_, h5, h6⟩
    · intro u hu; exact h1 u (by rw [hc, show TimerEvent.removeTask id :: rest = [.removeTask id] ++ rest from rfl, chanAdds_append]; exact List.mem_append_right _ hu)
    · intro u hu; exact h2 u (by rw [hc]; exact List.mem_cons_of_mem _ hu)
    · intro i u hi
      dsimp only at hi
      rw [inWheel_remove hw] at hi
      exact h4 _ _ hi.1
  case next_add1 t chain hand exec he hn =>
    refine ⟨h1, h2, ?_, h4, h5, h6⟩
    intro u hu
    simp only [epcTok] at hu
    rw [mem_ite_one] at hu
    obtain ⟨h7, rfl⟩ := hu
    exact hask t (h3 t (by rw [he]; simp only [epcTok]; rw [mem_ite_one]; exact ⟨h7, rfl⟩))
  case next_add2 t chain hand exec ts seed slot sl he hseed hslot hw =>
    refine ⟨h1, h2, by simp [epcTok], ?_, h5, h6⟩
    intro i u hi
    dsimp only at hi
    rw [inWheel_add hw] at hi
    rcases hi with ⟨_, rfl, hk⟩ | ⟨hi, _⟩
    · exact hcyl _ _ (h3 t (by rw [he]; simp only [epcTok]; rw [mem_ite_one]; exact ⟨hk, rfl⟩))
    · exact h4 _ _ hi
  case next_adv1 t he =>
    refine ⟨h1, h2, ?_, h4, h5, h6⟩
    intro u hu
    exact h3 u (by rw [he]; simpa [epcTok] using hu)
  case next_adv2 t hand sl he hw =>
    refine ⟨h1, h2, by simp [epcTok], ?_, h5, h6⟩
    intro i u hi
    simp only [done_wheel] at hi
    rw [inWheel_add hw] at hi
    rcases hi with ⟨_, rfl, hk⟩ | ⟨hi, _⟩
    · exact h3 _ (by rw [he]; simp only [epcTok]; rw [mem_ite_one]; exact ⟨hk, rfl⟩)
    · exact h4 _ _ hi
  case usend op =>
    refine ⟨?_, ?_, h3, h4, h5, h6⟩
    · intro u hu
      rw [mem_chanAdds] at hu
      simp only [push_chan, List.mem_append, List.mem_singleton] at hu
      obtain ⟨hk, (h | h) | ⟨x, h | h⟩⟩ := hu
      · exact h1 u (mem_chanAdds.2 ⟨hk, Or.inl h⟩)
      · cases op <;> simp [UserOp.event] at h
        subst h; exact hb _ (by simp [broughtBy, hk])
      · exact h1 u (mem_chanAdds.2 ⟨hk, Or.inr ⟨x, h⟩⟩)
      · cases op <;> simp [UserOp.event] at h
    · intro u hu hk
      simp only [push_chan, List.mem_append, List.mem_singleton] at hu
      rcases hu with h | h
      · exact h2 u h hk
      · cases op <;> simp [UserOp.event] at h
        subst h; exact hb _ (by simp [broughtBy, hk])
  case uinsert t =>
    refine ⟨?_, ?_, h3, h4, h5, h6⟩
    · intro u hu
      rw [mem_chanAdds] at hu
      simp only [uInsert, push_chan, List.mem_append, List.mem_singleton] at hu
      obtain ⟨hk, (h | h) | ⟨x, h | h⟩⟩ := hu
      · exact h1 u (mem_chanAdds.2 ⟨hk, Or.inl h⟩)
      · cases h
      · exact h1 u (mem_chanAdds.2 ⟨hk, Or.inr ⟨x, h⟩⟩)
      · cases h; exact hb _ (by simp [broughtBy, hk])
    · intro u hu hk
      simp only [uInsert, push_chan, List.mem_append, List.mem_singleton] at hu
      rcases hu with h | h
      · exact h2 u h hk
      · cases h
  all_goals
    refine ⟨?_, ?_, ?_, ?_, ?_, ?_⟩
  all_goals first
    | exact h1 | exact h2 | exact h3 | exact h4 | exact h5 | exact h6
    | (simp [heldTok, startedTok, epcTok]; done)
    | (intro u hu; exact h5 u (by rw [‹s.tpc = _›]; simpa [heldTok] using hu))
    | (intro u hu; refine h1 u ?_; rw [mem_chanAdds] at hu ⊢; refine ⟨hu.1, ?_⟩; simp_all; done)
    | (intro u hu; refine h2 u ?_; simp_all; done)
    | (intro u hu; exact h4 _ _ (by simpa using hu))
    | (intro i u hu; exact h4 _ _ (by simpa using hu))
    | (intro u hu; refine h3 u ?_; simpa using hu)
    | (intro u hu; refine h5 u ?_; simpa using hu)
    | (intro u hu; refine h6 u ?_; simpa using hu)

theorem Nobody.copies {P Q : Task → Prop} {k : Nat} {s : St} (h : Nobody k s) : Copies P Q k s := by
  obtain ⟨h1, h2, h3⟩ := absent_iff.1 h.unborn.absent
  refine ⟨by simp [h.chan], fun t ht hk => absurd hk (h.unborn.noUpd t ht), by simp [h.epc],
    fun i t hi => absurd hi (h1 _ _), ?_, ?_⟩
  · intro t ht
    have : t ∈ tpcTok k s.tpc := by cases hp : s.tpc <;> simp_all [heldTok, tpcTok]
    rw [h2] at this; cases this
  · intro t ht
    have : t ∈ tpcTok k s.tpc := by cases hp : s.tpc <;> simp_all [startedTok, tpcTok]
    rw [h2] at this; cases this

end DelayTimer
