import Verif.Proofs.Sweep

/-! How often a copy of a task has been asked for its next alarm: once when it was added, and once after every attempt. -/

namespace DelayTimer
open Spec

/-- `t` stems from a task of `H` by asking for at most `n` alarms. -/
def Asked (H : List Task) (n : Nat) (t : Task) : Prop := ∃ t0 ∈ H, ∀ m, AlarmsFit (n + m) t0 → AlarmsFit m t

theorem asked_mono {H H' : List Task} {n n' : Nat} {t : Task} (h : Asked H n t) (hn : n ≤ n') (hH : ∀ x ∈ H, x ∈ H') :
    Asked H' n' t := by
  obtain ⟨t0, h1, h2⟩ := h
  exact ⟨t0, hH _ h1, fun m hm => h2 m (fits_mono hm (by omega))⟩

theorem asked_ask {H : List Task} {n : Nat} {t : Task} (h : Asked H n t) : Asked H (n + 1) t.getNextExecTimestamp.2 := by
  obtain ⟨t0, h1, h2⟩ := h
  refine ⟨t0, h1, fun m hm => fits_ask (h2 (m + 1) ?_)⟩
  rw [show n + (m + 1) = n + 1 + m by omega]; exact hm

theorem asked_down {H : List Task} {n : Nat} {t t' : Task} {c b : Bool} (h : Asked H n t)
    (hd : t.downCountAndSetValid c = some (b, t')) : Asked H n t' := by
  obtain ⟨t0, h1, h2⟩ := h
  exact ⟨t0, h1, fun m hm => fits_down hd (h2 m hm)⟩

theorem asked_cyl {H : List Task} {n : Nat} {t : Task} (c : Nat) (h : Asked H n t) :
    Asked H n { t with cylinderLine := c } := h

/-- `C` holds of the copies of `k` that have not been asked yet, `W` of all others but those in the hands of the
scheduler, of which `S` holds. -/
structure Places (C W S : Task → Prop) (k : Nat) (s : St) : Prop where
  chan : ∀ t ∈ chanAdds k s.chan, C t
  upd : ∀ t, .updateTask t ∈ s.chan → t.taskId = k → C t
  add1 : ∀ t c h, s.epc = .add1 t c h → t.taskId = k → C t
  epc : ∀ t ∈ epcTok k s.epc, W t
  wheel : ∀ i t, inWheel s.wheel k i t → W t
  held : ∀ t ∈ tpcTok k s.tpc, S t

theorem Places.map {C W S C' W' S' : Task → Prop} {k : Nat} {s : St} (h : Places C W S k s) (hC : ∀ t, C t → C' t)
    (hW : ∀ t, W t → W' t) (hS : ∀ t, S t → S' t) : Places C' W' S' k s :=
  ⟨fun t x => hC t (h.chan t x), fun t a b => hC t (h.upd t a b), fun t c x a b => hC t (h.add1 t c x a b),
    fun t x => hW t (h.epc t x), fun i t x => hW t (h.wheel i t x), fun t x => hS t (h.held t x)⟩

/-- Every step keeps `Places` except an attempt of `k`, which turns `W` into `S'`. -/
theorem places_step {env : Env} {C W S S' : Task → Prop} {k : Nat} {s : St} {l : Label} {s' : St}
    (hCW : ∀ t, C t → W t) (hcyl : ∀ t c, W t → W { t with cylinderLine := c })
    (hadd : ∀ t, C t → W t.getNextExecTimestamp.2) (hask : ∀ t, S t → W t.getNextExecTimestamp.2)
    (hdown : ∀ t t', S t → t.downCountAndSetValid env.overflowChecks = some (true, t') → S' t')
    (hSS : ∀ t, S t → S' t) (hpop : attempts k s'.log ≠ attempts k s.log → ∀ t, W t → S' t)
    (hb : ∀ t ∈ broughtBy k l, C t) (hs : Places C W S k s) (h : Act env s l s') : Places C W S' k s' := by
  obtain ⟨h1, h2, h0, h3, h4, h6⟩ := hs
  have h5 : ∀ t ∈ tpcTok k s.tpc, S' t := fun t ht => hSS t (h6 t ht)
  cases h
  all_goals try (exact ⟨h1, h2, h0, h3, h4, h5⟩)
  all_goals try (refine ⟨h1, h2, h0, h3, h4, ?_⟩ <;> simp [tpcTok] <;> done)
  case arrive sl h hw =>
    refine ⟨h1, h2, h0, h3, ?_, by simp [tpcTok]⟩
    intro i t hi
    dsimp only at hi
    rw [inWheel_arrive hw] at hi
    rcases hi with ⟨_, u, hu, rfl⟩ | ⟨_, hi⟩
    · unfold Task.checkArrived
      split
      · exact h4 _ _ hu
      · exact hcyl _ _ (h4 _ _ hu)
    · exact h4 _ _ hi
  case pop_hit pending id sl t h hmem hw hr =>
    obtain ⟨h7, h8⟩ := removeTask_some hr
    refine ⟨h1, h2, h0, h3, ?_, ?_⟩
    · intro i u hi
      dsimp only at hi
      rw [inWheel_remove hw] at hi
      exact h4 _ _ hi.1
    · intro u hu
      simp only [tpcTok] at hu
      rw [mem_ite_one] at hu
      obtain ⟨h9, rfl⟩ := hu
      exact hpop (by rw [← h8, h9]; simp [attempts]) u (h4 _ _ ⟨sl, hw, h7, h9⟩)
  case append pending t box h =>
    refine ⟨?_, ?_, h0, h3, h4, ?_⟩
    · intro u hu
      refine h1 u ?_
      simpa [chanAdds] using hu
    · intro u hu; simp at hu; exact h2 u hu
    · intro u hu
      exact h5 _ (by rw [h]; simpa [tpcTok] using hu)
  case gate_again pending t t' rec h hd =>
    refine ⟨h1, h2, h0, h3, h4, ?_⟩
    intro u hu
    simp only [tpcTok] at hu
    rw [mem_ite_one] at hu
    obtain ⟨h7, rfl⟩ := hu
    exact hdown t _ (h6 t (by rw [h]; simp [tpcTok, ← h7, down_taskId hd])) hd
  case slot_ok pending t upd exec sl step slot h hn hstep hslot hw =>
    refine ⟨h1, h2, h0, h3, ?_, by simp [tpcTok]⟩
    intro i u hi
    dsimp only at hi
    rw [inWheel_add hw] at hi
    rcases hi with ⟨_, rfl, hk⟩ | ⟨hi, _⟩
    · exact hcyl _ _ (hask t (h6 t (by
        rw [h]; simp only [tpcTok]; rw [mem_ite_one]; exact ⟨hk, rfl⟩)))
    · exact h4 _ _ hi
  case recv_add t rest he hc =>
    have hC : t.taskId = k → C t := fun h7 => h1 t (mem_chanAdds.2 ⟨h7, Or.inl (by rw [hc]; simp)⟩)
    refine ⟨?_, ?_, ?_, ?_, h4, h5⟩
    · intro u hu; exact h1 u (by rw [hc, show TimerEvent.addTask t :: rest = [.addTask t] ++ rest from rfl, chanAdds_append]; exact List.mem_append_right _ hu)
    · intro u hu; exact h2 u (by rw [hc]; exact List.mem_cons_of_mem _ hu)
    · intro u c x hu hk; cases hu; exact hC hk
    · intro u hu
      simp only [epcTok] at hu
      rw [mem_ite_one] at hu
      obtain ⟨h7, rfl⟩ := hu
      exact hCW _ (hC h7)
  case recv_insert t c rest he hc =>
    have hC : t.taskId = k → C t := fun h7 => h1 t (mem_chanAdds.2 ⟨h7, Or.inr ⟨c, by rw [hc]; simp⟩⟩)
    refine ⟨?_, ?_, ?_, ?_, h4, h5⟩
    · intro u hu; exact h1 u (by rw [hc, show TimerEvent.insertTask t c :: rest = [.insertTask t c] ++ rest from rfl, chanAdds_append]; exact List.mem_append_right _ hu)
    · intro u hu; exact h2 u (by rw [hc]; exact List.mem_cons_of_mem _ hu)
    · intro u c x hu hk; cases hu; exact hC hk
    · intro u hu
      simp only [epcTok] at hu
      rw [mem_ite_one] at hu
      obtain ⟨h7, rfl⟩ := hu
      exact hCW _ (hC h7)
  case recv_update t rest m sl he hc hf hw =>
    refine ⟨?_, ?_, by simp, by simp [epcTok], ?_, h5⟩
    · intro u hu; exact h1 u (by rw [hc, show TimerEvent.updateTask t :: rest = [.updateTask t] ++ rest from rfl, chanAdds_append]; exact List.mem_append_right _ hu)
    · intro u hu; exact h2 u (by rw [hc]; exact List.mem_cons_of_mem _ hu)
    · intro i u hi
      simp only [done_wheel] at hi
      rw [inWheel_update hw] at hi
      rcases hi with ⟨_, rfl, hk⟩ | ⟨hi, _⟩
      · exact hCW _ (h2 u (by rw [hc]; simp) hk)
      · exact h4 _ _ hi
  case recv_advance id rest m sl t he hc hf hw hr =>
    obtain ⟨h7, h8⟩ := removeTask_some hr
    refine ⟨?_, ?_, by simp, ?_, ?_, h5⟩
    · intro u hu; exact h1 u (by rw [hc, show TimerEvent.advanceTask id :: rest = [.advanceTask id] ++ rest from rfl, chanAdds_append]; exact List.mem_append_right _ hu)
    · intro u hu; exact h2 u (by rw [hc]; exact List.mem_cons_of_mem _ hu)
    · intro u hu
      simp only [epcTok] at hu
      rw [mem_ite_one] at hu
      obtain ⟨h9, rfl⟩ := hu
      exact hcyl _ _ (h4 _ _ ⟨sl, hw, h7, h9⟩)
    · intro i u hi
      dsimp only at hi
      rw [inWheel_remove hw] at hi
      exact h4 _ _ hi.1
  case recv_remove id rest m sl he hc hf hw =>
    refine ⟨?_, ?_, by simp, by simp [epcTok], ?_, h5⟩
    · intro u hu; exact h1 u (by rw [hc, show TimerEvent.removeTask id :: rest = [.removeTask id] ++ rest from rfl, chanAdds_append]; exact List.mem_append_right _ hu)
    · intro u hu; exact h2 u (by rw [hc]; exact List.mem_cons_of_mem _ hu)
    · intro i u hi
      dsimp only at hi
      rw [inWheel_remove hw] at hi
      exact h4 _ _ hi.1
  case next_add1 t chain hand exec he hn =>
    refine ⟨h1, h2, by simp, ?_, h4, h5⟩
    intro u hu
    simp only [epcTok] at hu
    rw [mem_ite_one] at hu
    obtain ⟨h7, rfl⟩ := hu
    exact hadd t (h0 t chain hand he h7)
  case next_add2 t chain hand exec ts seed slot sl he hseed hslot hw =>
    refine ⟨h1, h2, by simp, by simp [epcTok], ?_, h5⟩
    intro i u hi
    dsimp only at hi
    rw [inWheel_add hw] at hi
    rcases hi with ⟨_, rfl, hk⟩ | ⟨hi, _⟩
    · exact hcyl _ _ (h3 t (by rw [he]; simp only [epcTok]; rw [mem_ite_one]; exact ⟨hk, rfl⟩))
    · exact h4 _ _ hi
  case next_adv1 t he =>
    refine ⟨h1, h2, by simp, ?_, h4, h5⟩
    intro u hu
    exact h3 u (by rw [he]; simpa [epcTok] using hu)
  case next_adv2 t hand sl he hw =>
    refine ⟨h1, h2, by simp, by simp [epcTok], ?_, h5⟩
    intro i u hi
    simp only [done_wheel] at hi
    rw [inWheel_add hw] at hi
    rcases hi with ⟨_, rfl, hk⟩ | ⟨hi, _⟩
    · exact h3 _ (by rw [he]; simp only [epcTok]; rw [mem_ite_one]; exact ⟨hk, rfl⟩)
    · exact h4 _ _ hi
  case usend op =>
    refine ⟨?_, ?_, h0, h3, h4, h5⟩
    · intro u hu
      rw [mem_chanAdds] at hu
      simp only [push_chan, List.mem_append, List.mem_singleton] at hu
      obtain ⟨hk, (h | h) | ⟨x, h | h⟩⟩ := hu
      · exact h1 u (mem_chanAdds.2 ⟨hk, Or.inl h⟩)
      · cases op <;> simp [UserOp.event] at h
        subst h; exact hb _ (by simp [broughtBy, hk])
      · exact h1 u (mem_chanAdds.2 ⟨hk, Or.inr ⟨x, h⟩⟩)
      · cases op <;> simp [UserOp.event] at h
    · intro u hu hk
      simp only [push_chan, List.mem_append, List.mem_singleton] at hu
      rcases hu with h | h
      · exact h2 u h hk
      · cases op <;> simp [UserOp.event] at h
        subst h; exact hb _ (by simp [broughtBy, hk])
  case uinsert t =>
    refine ⟨?_, ?_, h0, h3, h4, h5⟩
    · intro u hu
      rw [mem_chanAdds] at hu
      simp only [uInsert, push_chan, List.mem_append, List.mem_singleton] at hu
      obtain ⟨hk, (h | h) | ⟨x, h | h⟩⟩ := hu
      · exact h1 u (mem_chanAdds.2 ⟨hk, Or.inl h⟩)
      · cases h
      · exact h1 u (mem_chanAdds.2 ⟨hk, Or.inr ⟨x, h⟩⟩)
      · cases h; exact hb _ (by simp [broughtBy, hk])
    · intro u hu hk
      simp only [uInsert, push_chan, List.mem_append, List.mem_singleton] at hu
      rcases hu with h | h
      · exact h2 u h hk
      · cases h
  all_goals
    refine ⟨?_, ?_, ?_, ?_, ?_, ?_⟩
  all_goals first
    | exact h1 | exact h2 | exact h0 | exact h3 | exact h4 | exact h5
    | (simp [tpcTok, epcTok]; done)
    | (intro u hu; exact h5 u (by rw [‹s.tpc = _›]; simpa [tpcTok] using hu))
    | (intro u hu; refine h1 u ?_; rw [mem_chanAdds] at hu ⊢; refine ⟨hu.1, ?_⟩; simp_all; done)
    | (intro u hu; refine h2 u ?_; simp_all; done)
    | (intro u c x hu; refine h0 u c x ?_; simpa using hu)
    | (intro u c x hu; simp_all; done)
    | (intro u hu; exact h4 _ _ (by simpa using hu))
    | (intro i u hu; exact h4 _ _ (by simpa using hu))
    | (intro u hu; refine h3 u ?_; simpa using hu)
    | (intro u hu; refine h5 u ?_; simpa using hu)

/-- What is in the wheel has been asked for one alarm more than there were attempts, what the scheduler holds for one
less. -/
theorem asked {env : Env} {ls : List Label} {s : St} (h : run env (init env) ls = some s) (k : Nat) :
    Places (Asked (handed k ls) 0) (Asked (handed k ls) ((attempts k s.log).length + 1))
      (Asked (handed k ls) (attempts k s.log).length) k s := by
  refine handed_induct (fun ls s => Places (Asked (handed k ls) 0) (Asked (handed k ls) ((attempts k s.log).length + 1))
      (Asked (handed k ls) (attempts k s.log).length) k s) ?_ ?_ ls s h
  · have := (Nobody.init env k).copies (P := fun _ => False) (Q := fun _ => False)
    exact ⟨fun t ht => (this.chan t ht).elim, fun t a b => (this.upd t a b).elim, fun t c h a => by (cases a),
      fun t ht => (this.epc t ht).elim, fun i t hi => (this.wheel i t hi).elim, fun t ht => by (cases ht)⟩
  · intro ls s l s' _ hs ha
    have hH : ∀ x ∈ handed k ls, x ∈ handed k (ls ++ [l]) := fun x hx => by
      rw [handed_append]; exact List.mem_append_left _ hx
    have hs1 := hs.map (fun t ht => asked_mono ht (Nat.le_refl _) hH) (fun t ht => asked_mono ht (Nat.le_refl _) hH)
      (fun t ht => asked_mono ht (Nat.le_refl _) hH)
    have hb : ∀ t ∈ broughtBy k l, Asked (handed k (ls ++ [l])) 0 t := fun t ht =>
      ⟨t, by rw [handed_append]; exact List.mem_append_right _ (by simpa [handed] using ht), fun m hm => by simpa using hm⟩
    rcases attempts_step k ha with he | ⟨_, _, _, _, _, he⟩
    · have := places_step (C := Asked (handed k (ls ++ [l])) 0)
        (W := Asked (handed k (ls ++ [l])) ((attempts k s.log).length + 1))
        (S := Asked (handed k (ls ++ [l])) (attempts k s.log).length) (S' := Asked (handed k (ls ++ [l])) (attempts k s.log).length)
        (fun t ht => asked_mono ht (by omega) (fun _ h => h)) (fun t c ht => ht)
        (fun t ht => asked_mono (asked_ask ht) (by omega) (fun _ h => h)) (fun t ht => asked_ask ht)
        (fun t t' ht hd => asked_down ht hd) (fun t ht => ht) (fun hx => absurd he hx) hb hs1 ha
      rw [he]; exact this
    · have hlen : (attempts k s'.log).length = (attempts k s.log).length + 1 := by rw [he]; simp [attempts]
      have := places_step (C := Asked (handed k (ls ++ [l])) 0)
        (W := Asked (handed k (ls ++ [l])) ((attempts k s.log).length + 1))
        (S := Asked (handed k (ls ++ [l])) (attempts k s.log).length) (S' := Asked (handed k (ls ++ [l])) ((attempts k s.log).length + 1))
        (fun t ht => asked_mono ht (by omega) (fun _ h => h)) (fun t c ht => ht)
        (fun t ht => asked_mono (asked_ask ht) (by omega) (fun _ h => h)) (fun t ht => asked_ask ht)
        (fun t t' ht hd => asked_mono (asked_down ht hd) (by omega) (fun _ h => h))
        (fun t ht => asked_mono ht (by omega) (fun _ h => h)) (fun _ t ht => ht) hb hs1 ha
      rw [hlen]
      exact this.map (fun t ht => ht) (fun t ht => asked_mono ht (by omega) (fun _ h => h)) (fun t ht => ht)

end DelayTimer
