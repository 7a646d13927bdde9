import Verif.Proofs.Hand

/-! Ids that are handed to the timer at most once. -/

namespace DelayTimer
open Spec

/-- No copy of `k` is anywhere, and none is on its way. -/
structure Nobody (k : Nat) (s : St) : Prop where
  unborn : Unborn k s
  chan : chanAdds k s.chan = []
  epc : epcTok k s.epc = []

theorem Nobody.init (env : Env) (k : Nat) : Nobody k (init env) := ⟨Unborn.init env k, rfl, rfl⟩

theorem nobody_step {env : Env} {k : Nat} {s : St} {l : Label} {s' : St} (hs : Nobody k s)
    (hl : ¬ Brings k l) (h : Act env s l s') : Nobody k s' := by
  have h1 := hs.chan
  have h2 := hs.epc
  refine ⟨unborn_step hs.unborn (by rintro u rfl; exact hl) ?_ h, ?_, ?_⟩
  · intro _ u c a b d he hk
    rw [he] at h2
    simp [epcTok, hk] at h2
  · rcases chan_step h with ⟨_, h3 | ⟨e, h3, h4⟩⟩ | ⟨_, _, e, h3⟩ | ⟨_, h3⟩
    · rw [h3]; exact h1
    · rw [h3, chanAdds_append, h1, List.nil_append]
      rcases h4 with h4 | ⟨op, rfl, rfl⟩ | ⟨t, rfl, rfl⟩
      · have := h4 k
        cases e <;> simp_all [chanAdds, EventTouches]
      · cases op <;> simp_all [chanAdds, Brings, UserOp.event]
      · simp_all [chanAdds, Brings]
    · rw [h3, show e :: s'.chan = [e] ++ s'.chan from rfl, chanAdds_append] at h1
      exact (List.append_eq_nil_iff.1 h1).2
    · rw [h3]; exact h1
  · obtain ⟨hadv⟩ := hs.unborn
    cases h
    all_goals try (exact h2)
    all_goals try (simp [epcTok]; done)
    all_goals try (simpa using h2)
    case recv_add t rest he hc =>
      rw [hc] at h1; simp_all [chanAdds, epcTok]
    case recv_insert t c rest he hc =>
      rw [hc] at h1; simp_all [chanAdds, epcTok]
    case recv_advance id rest m sl u he hc hf hwh hr =>
      obtain ⟨h3, h4⟩ := removeTask_some hr
      by_cases hk : id = k
      · exact absurd ⟨_, sl, u, hwh, h3, h4.trans hk⟩ hadv.wheel
      · simp [epcTok, h4, hk]
    all_goals (rw [‹s.epc = _›] at h2; simp_all [epcTok])

theorem nobody_run {env : Env} {k : Nat} : ∀ (ls : List Label) {s s' : St}, Nobody k s →
    (∀ l ∈ ls, ¬ Brings k l) → run env s ls = some s' → Nobody k s' := by
  intro ls
  induction ls with
  | nil => intro s s' h _ hr; cases hr; exact h
  | cons l ls ih =>
    intro s s' h ht hr
    simp only [run] at hr
    split at hr
    · rename_i s1 h1
      exact ih (nobody_step h (ht l List.mem_cons_self) (step_act h1))
        (fun l hl => ht l (List.mem_cons_of_mem _ hl)) hr
    · cases hr

theorem single_run {env : Env} {k : Nat} : ∀ (ls : List Label) {s s' : St}, Single k s →
    (∀ l ∈ ls, ¬ Brings k l) → run env s ls = some s' → Single k s' := by
  intro ls
  induction ls with
  | nil => intro s s' h _ hr; cases hr; exact h
  | cons l ls ih =>
    intro s s' h ht hr
    simp only [run] at hr
    split at hr
    · rename_i s1 h1
      exact ih (single_step h (ht l List.mem_cons_self) (step_act h1))
        (fun l hl => ht l (List.mem_cons_of_mem _ hl)) hr
    · cases hr

theorem Nobody.looseN {k : Nat} {s : St} (h : Nobody k s) : looseN k s = 0 := by
  obtain ⟨h1, h2, h3⟩ := absent_iff.1 h.unborn.absent
  simp [DelayTimer.looseN, h.chan, h.epc, h2]

/-- Handing in a task when there is no copy of its id. -/
theorem Nobody.handIn {env : Env} {k : Nat} {t : Task} {s : St} {l : Label} {s' : St} (h : Nobody k s)
    (hl : HandsIn t l) (ha : Act env s l s') : Single k s' := by
  obtain ⟨h1, h2, h3⟩ := absent_iff.1 h.unborn.absent
  rcases hl with rfl | rfl
  · cases ha
    refine ⟨?_, fun i t hi => absurd hi (h1 _ _), fun i t j u hi => absurd hi (h1 _ _), ?_⟩
    · have := h.looseN
      simp only [DelayTimer.looseN, push, UserOp.event, chanAdds_append, List.length_append] at this ⊢
      have : (chanAdds k [TimerEvent.addTask t]).length ≤ 1 := by
        simp only [chanAdds]; exact List.length_filterMap_le _ _
      omega
    · intro u hu
      simp only [push, UserOp.event, List.mem_append, List.mem_singleton, reduceCtorEq, or_false] at hu
      exact h.unborn.noUpd u hu
  · cases ha
    refine ⟨?_, fun i t hi => absurd hi (h1 _ _), fun i t j u hi => absurd hi (h1 _ _), ?_⟩
    · have := h.looseN
      simp only [DelayTimer.looseN, push, uInsert, chanAdds_append, List.length_append] at this ⊢
      have : (chanAdds k [TimerEvent.insertTask t s.nextChain]).length ≤ 1 := by
        simp only [chanAdds]; exact List.length_filterMap_le _ _
      omega
    · intro u hu
      simp only [push, uInsert, List.mem_append, List.mem_singleton, reduceCtorEq, or_false] at hu
      exact h.unborn.noUpd u hu

/-- An execution in which `k` is handed in at most once. -/
theorem single_once {env : Env} {k : Nat} {t : Task} {ls1 ls2 : List Label} {l : Label} {s : St}
    (hl : HandsIn t l) (h1 : ∀ l ∈ ls1, ¬ Brings k l) (h2 : ∀ l ∈ ls2, ¬ Brings k l)
    (hr : run env (init env) (ls1 ++ l :: ls2) = some s) : Single k s := by
  rw [run_append] at hr
  cases h3 : run env (init env) ls1 with
  | none => rw [h3] at hr; cases hr
  | some s1 =>
    rw [h3] at hr
    simp only [run, Option.bind_some] at hr
    split at hr
    · rename_i s2 h4
      exact single_run ls2 ((nobody_run ls1 (Nobody.init env k) h1 h3).handIn hl (step_act h4)) h2 hr
    · cases hr

theorem Spec.Touches.of_brings {k : Nat} {l : Label} (h : Brings k l) : Touches k l := by
  cases l <;> try (exact h)
  rename_i op; cases op <;> first | exact h | exact h.elim

/-- A task that was handed in once and is being re-armed meets the hypotheses of the theorems on
re-arming. -/
theorem justRun_once {env : Env} {k : Nat} {t u : Task} {ls1 ls2 : List Label} {l : Label} {s : St}
    {p : List Nat} {upd : Bool} (hl : HandsIn t l)
    (h1 : ∀ l ∈ ls1, ¬ Touches k l) (h2 : ∀ l ∈ ls2, ¬ Touches k l)
    (hr : run env (init env) (ls1 ++ l :: ls2) = some s) (hp : s.tpc = .rearm p u upd) (hk : u.taskId = k)
    (hv : u.valid = true) : JustRun k u s := by
  have hsing := single_once hl (fun l hl h => h1 l hl (Touches.of_brings h))
    (fun l hl h => h2 l hl (Touches.of_brings h)) hr
  have htok : tpcTok k s.tpc ≠ [] := by rw [hp]; simp [tpcTok, hk]
  refine ⟨⟨p, upd, hp⟩, hk, hv, ?_, ?_⟩
  · rintro ⟨i, sl, v, hi⟩
    have := hsing.excl i v ⟨sl, hi⟩
    simp only [looseN] at this
    exact htok (List.length_eq_zero_iff.1 (by omega))
  · rw [run_append] at hr
    cases h3 : run env (init env) ls1 with
    | none => rw [h3] at hr; cases hr
    | some s1 =>
      rw [h3] at hr
      simp only [run, Option.bind_some] at hr
      split at hr
      rotate_left
      · cases hr
      rename_i s2 h4
      obtain ⟨h5, h6⟩ := unborn_run ls1 (Unborn.init env k)
        ⟨by simp [init], by simp [init, BusyWith]⟩ h1 h3
      have h7 := step_act h4
      have h8 : ∃ c, Coming k t c s2 := by
        have hb : Unborn k s2 := unborn_step h5 (by
          rintro u rfl; rcases hl with h | h <;> cases h) (by
          intro h; subst h; rcases hl with h | h <;> cases h) h7
        rcases hl with rfl | rfl
        · cases h7
          exact ⟨none, .queued hb s1.chan [] _ rfl rfl h6.chan (by simp) h6.epc⟩
        · cases h7
          exact ⟨some s1.nextChain, .queued hb s1.chan [] _ rfl rfl h6.chan (by simp) h6.epc⟩
      obtain ⟨c', h8⟩ := h8
      rcases coming_run ls2 h8 h2 hr with h9 | h9
      · exfalso
        have hb : Unborn k s := by cases h9 <;> assumption
        exact htok (absent_iff.1 hb.absent).2.1
      · exact h9

end DelayTimer
