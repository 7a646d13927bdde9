import Verif.Proofs.Wheel
import Verif.Spec.Schedule

/-!
# Where the copies of a task are

A task id `k` may be held by events in the channel, by the event thread, by the scheduler thread and by
the wheel. `Single` says that there is at most one copy altogether.
-/

namespace DelayTimer
open Spec

/-- The tasks with id `k` in add and insert events. -/
def chanAdds (k : Nat) (c : List TimerEvent) : List Task :=
  c.filterMap fun e =>
    match e with
    | .addTask t => if t.taskId = k then some t else none
    | .insertTask t _ => if t.taskId = k then some t else none
    | _ => none

/-- The task with id `k` held by the event thread. -/
def epcTok (k : Nat) : EPC → List Task
  | .add1 t _ _ => if t.taskId = k then [t] else []
  | .add2 t _ _ _ _ => if t.taskId = k then [t] else []
  | .adv1 t => if t.taskId = k then [t] else []
  | .adv2 t _ => if t.taskId = k then [t] else []
  | _ => []

/-- The task with id `k` held by the scheduler. -/
def tpcTok (k : Nat) : TPC → List Task
  | .check _ t => if t.taskId = k then [t] else []
  | .spawn _ t _ => if t.taskId = k then [t] else []
  | .append _ t _ => if t.taskId = k then [t] else []
  | .gate _ t _ => if t.taskId = k then [t] else []
  | .rearm _ t _ => if t.taskId = k then [t] else []
  | _ => []

/-- Copies outside the wheel. -/
def loose (k : Nat) (s : St) : List Task := chanAdds k s.chan ++ epcTok k s.epc ++ tpcTok k s.tpc

/-- The wheel holds `t` with id `k` in slot `i`. -/
def inWheel (w : Nat → Option Slot) (k i : Nat) (t : Task) : Prop :=
  ∃ sl, w i = some sl ∧ t ∈ sl ∧ t.taskId = k

theorem inWheel_id {w : Nat → Option Slot} {k i : Nat} {t : Task} (h : inWheel w k i t) :
    t.taskId = k := h.choose_spec.2.2

theorem inWheel_set (w : Nat → Option Slot) (i : Nat) (sl : Slot) (k j : Nat) (t : Task) :
    inWheel (set w i (some sl)) k j t ↔
      (j = i ∧ t ∈ sl ∧ t.taskId = k) ∨ (j ≠ i ∧ inWheel w k j t) := by
  unfold inWheel
  rw [set_apply]
  by_cases h : j = i
  · simp [h]
  · simp [h]

theorem inWheel_add {w : Nat → Option Slot} {i : Nat} {sl : Slot} (hi : w i = some sl) (t' : Task)
    (k j : Nat) (t : Task) :
    inWheel (set w i (some (sl.addTask t'))) k j t ↔
      (j = i ∧ t = t' ∧ t'.taskId = k) ∨ (inWheel w k j t ∧ (j = i → t'.taskId ≠ k)) := by
  rw [inWheel_set]
  unfold inWheel
  by_cases h : j = i
  · subst h
    simp only [mem_addTask, hi, Option.some.injEq, exists_eq_left', true_and, ne_eq, not_true,
      false_and, or_false]
    constructor
    · rintro ⟨h1 | ⟨h1, h2⟩, h3⟩
      · exact Or.inl ⟨h1, by rw [← h1]; exact h3⟩
      · exact Or.inr ⟨⟨h1, h3⟩, fun _ h => h2 (h3.trans h.symm)⟩
    · rintro (⟨h1, h2⟩ | ⟨⟨h1, h2⟩, h3⟩)
      · exact ⟨Or.inl h1, by rw [h1]; exact h2⟩
      · exact ⟨Or.inr ⟨h1, fun h => h3 trivial (h.symm.trans h2)⟩, h2⟩
  · simp [h]

theorem inWheel_update {w : Nat → Option Slot} {i : Nat} {sl : Slot} (hi : w i = some sl) (t' : Task)
    (k j : Nat) (t : Task) :
    inWheel (set w i (some (sl.updateTask t'))) k j t ↔
      (j = i ∧ t = t' ∧ t'.taskId = k) ∨ (inWheel w k j t ∧ (j = i → t'.taskId ≠ k)) := by
  rw [← inWheel_add hi, inWheel_set, inWheel_set]
  simp only [mem_addTask, mem_updateTask]

theorem inWheel_remove {w : Nat → Option Slot} {i : Nat} {sl : Slot} (hi : w i = some sl) (id : Nat)
    (k j : Nat) (t : Task) :
    inWheel (set w i (some (sl.removeTask id).2)) k j t ↔ inWheel w k j t ∧ (j = i → id ≠ k) := by
  rw [inWheel_set]
  unfold inWheel
  by_cases h : j = i
  · subst h
    simp only [mem_removeTask, hi, Option.some.injEq, exists_eq_left', true_and, ne_eq, not_true,
      false_and, or_false, true_implies]
    constructor
    · rintro ⟨⟨h1, h2⟩, h3⟩; exact ⟨⟨h1, h3⟩, fun h => h2 (h3.trans h.symm)⟩
    · rintro ⟨⟨h1, h2⟩, h3⟩; exact ⟨⟨h1, fun h => h3 (h.symm.trans h2)⟩, h2⟩
  · simp [h]

theorem inWheel_arrive {w : Nat → Option Slot} {i : Nat} {sl : Slot} (hi : w i = some sl)
    (k j : Nat) (t : Task) :
    inWheel (set w i (some sl.arrivalTimeTasks.2)) k j t ↔
      (j = i ∧ ∃ u, inWheel w k i u ∧ t = u.checkArrived.2) ∨ (j ≠ i ∧ inWheel w k j t) := by
  rw [inWheel_set]
  unfold inWheel
  by_cases h : j = i
  · subst h
    simp only [mem_arrival, hi, Option.some.injEq, exists_eq_left', true_and, ne_eq, not_true,
      false_and, or_false]
    constructor
    · rintro ⟨⟨u, h1, h2⟩, h3⟩
      exact ⟨u, ⟨h1, by rw [h2] at h3; simpa using h3⟩, h2⟩
    · rintro ⟨u, ⟨h1, h2⟩, h3⟩
      exact ⟨⟨u, h1, h3⟩, by rw [h3]; simpa using h2⟩
  · simp [h]

/-- Number of copies outside the wheel. -/
def looseN (k : Nat) (s : St) : Nat :=
  (chanAdds k s.chan).length + (epcTok k s.epc).length + (tpcTok k s.tpc).length

structure Single (k : Nat) (s : St) : Prop where
  one : looseN k s ≤ 1
  excl : ∀ i t, inWheel s.wheel k i t → looseN k s = 0
  uniq : ∀ i t j u, inWheel s.wheel k i t → inWheel s.wheel k j u → i = j ∧ t = u
  noUpd : ∀ t, .updateTask t ∈ s.chan → t.taskId ≠ k

@[simp] theorem chanAdds_append (k : Nat) (a b : List TimerEvent) :
    chanAdds k (a ++ b) = chanAdds k a ++ chanAdds k b := List.filterMap_append

@[simp] theorem getNext_taskId (t : Task) : t.getNextExecTimestamp.2.taskId = t.taskId := rfl

theorem down_taskId {oc : Bool} {t t' : Task} {b : Bool}
    (h : t.downCountAndSetValid oc = some (b, t')) : t'.taskId = t.taskId := by
  unfold Task.downCountAndSetValid at h
  split at h
  · cases h
  · cases h; rfl

/-- Copies disappear or stay. -/
theorem Single.shrink {k : Nat} {s s' : St} (hs : Single k s) (hl : looseN k s' ≤ looseN k s)
    (hw : ∀ i t, inWheel s'.wheel k i t → inWheel s.wheel k i t)
    (hu : ∀ t, .updateTask t ∈ s'.chan → t.taskId ≠ k) : Single k s' where
  one := Nat.le_trans hl hs.one
  excl i t h := by have := hs.excl i t (hw i t h); omega
  uniq i t j u h1 h2 := hs.uniq i t j u (hw _ _ h1) (hw _ _ h2)
  noUpd := hu

/-- A copy is taken out of the wheel. -/
theorem Single.takeOut {k : Nat} {s s' : St} {i : Nat} {sl : Slot} {t : Task} (hs : Single k s)
    (hi : s.wheel i = some sl) (ht : t ∈ sl)
    (hl : looseN k s' ≤ looseN k s + if t.taskId = k then 1 else 0)
    (hw : s'.wheel = set s.wheel i (some (sl.removeTask t.taskId).2))
    (hu : ∀ t, .updateTask t ∈ s'.chan → t.taskId ≠ k) : Single k s' := by
  by_cases hk : t.taskId = k
  · have hin : inWheel s.wheel k i t := ⟨sl, hi, ht, hk⟩
    have h0 := hs.excl i t hin
    have hnone : ∀ j u, ¬ inWheel s'.wheel k j u := by
      intro j u h
      rw [hw, inWheel_remove hi] at h
      obtain ⟨h1, h2⟩ := h
      exact h2 (hs.uniq _ _ _ _ h1 hin).1 hk
    rw [if_pos hk] at hl
    exact ⟨by omega, fun j u h => absurd h (hnone j u), fun j u _ _ h => absurd h (hnone j u), hu⟩
  · rw [if_neg hk] at hl
    refine hs.shrink hl ?_ hu
    intro j u h
    rw [hw, inWheel_remove hi] at h
    exact h.1

/-- A copy is put into the wheel. -/
theorem Single.putIn {k : Nat} {s s' : St} {i : Nat} {sl : Slot} {t : Task} (hs : Single k s)
    (hi : s.wheel i = some sl)
    (hl : (looseN k s' + if t.taskId = k then 1 else 0) ≤ looseN k s)
    (hw : s'.wheel = set s.wheel i (some (sl.addTask t)))
    (hu : ∀ t, .updateTask t ∈ s'.chan → t.taskId ≠ k) : Single k s' := by
  by_cases hk : t.taskId = k
  · rw [if_pos hk] at hl
    have h1 := hs.one
    have hin : ∀ j u, inWheel s'.wheel k j u → j = i ∧ u = t := by
      intro j u h
      rw [hw, inWheel_add hi] at h
      rcases h with ⟨ha, hb, _⟩ | ⟨ha, _⟩
      · exact ⟨ha, hb⟩
      · have := hs.excl _ _ ha; omega
    refine ⟨by omega, fun j u h => by omega, ?_, hu⟩
    intro j u j' u' ha hb
    obtain ⟨ha1, ha2⟩ := hin _ _ ha
    obtain ⟨hb1, hb2⟩ := hin _ _ hb
    exact ⟨by rw [ha1, hb1], by rw [ha2, hb2]⟩
  · rw [if_neg hk] at hl
    refine hs.shrink (by omega) ?_ hu
    intro j u h
    rw [hw, inWheel_add hi] at h
    rcases h with ⟨_, _, h⟩ | h
    · exact absurd h hk
    · exact h.1

theorem chanAdds_cons (k : Nat) (e : TimerEvent) (c : List TimerEvent) :
    (chanAdds k (e :: c)).length = (chanAdds k [e]).length + (chanAdds k c).length := by
  rw [show e :: c = [e] ++ c from rfl, chanAdds_append, List.length_append]

@[simp] theorem push_chan (s : St) (e : TimerEvent) : (push s e).chan = s.chan ++ [e] := rfl
@[simp] theorem push_log (s : St) (e : TimerEvent) : (push s e).log = .queued e.tag :: s.log := rfl
@[simp] theorem done_epc (env : Env) (s : St) (tag : Tag) (pub : Option PublicEvent)
    (res : Option Bool) : (done env s tag pub res).epc = .idle := rfl
@[simp] theorem done_log (env : Env) (s : St) (tag : Tag) (pub : Option PublicEvent)
    (res : Option Bool) : (done env s tag pub res).log = .dispatched tag res :: s.log := rfl

theorem single_step {env : Env} {k : Nat} {s : St} {l : Label} {s' : St} (hs : Single k s)
    (hl : ¬ Brings k l) (h : Act env s l s') : Single k s' := by
  have h4 := hs.noUpd
  have h1 := hs.one
  cases h
  all_goals try (exact ⟨hs.1, hs.2, hs.3, hs.4⟩)
  case arrive sl h hw =>
    have hN : looseN k { s with wheel := set s.wheel s.secondHand (some sl.arrivalTimeTasks.2), tpc := .batch sl.arrivalTimeTasks.1 } = looseN k s := by simp [looseN, h, tpcTok]
    refine ⟨by rw [hN]; exact h1, ?_, ?_, h4⟩
    · intro i t h
      rw [hN]
      rw [inWheel_arrive hw] at h
      rcases h with ⟨_, u, hu, _⟩ | ⟨_, h⟩
      · exact hs.excl _ _ hu
      · exact hs.excl _ _ h
    · intro i t j u hi hj
      rw [inWheel_arrive hw] at hi hj
      rcases hi with ⟨hi, x, hx, hx'⟩ | ⟨hi, hi'⟩
      · rcases hj with ⟨hj, y, hy, hy'⟩ | ⟨hj, hj'⟩
        · have := (hs.uniq _ _ _ _ hx hy).2
          subst hx' hy'
          exact ⟨by rw [hi, hj], by rw [this]⟩
        · exact absurd (hs.uniq _ _ _ _ hj' hx).1 hj
      · rcases hj with ⟨hj, y, hy, hy'⟩ | ⟨hj, hj'⟩
        · exact absurd (hs.uniq _ _ _ _ hi' hy).1 hi
        · exact hs.uniq _ _ _ _ hi' hj'
  case usend op =>
    refine hs.shrink ?_ (fun _ _ h => h) ?_
    · cases op <;> simp [looseN, push, UserOp.event, chanAdds] <;> simp_all [Brings]
    · cases op <;> simp [push, UserOp.event] <;> simp_all [Brings]
      rintro t (h | h)
      · exact h4 t h
      · rw [h]; exact hl
  case uinsert t =>
    refine hs.shrink ?_ (fun _ _ h => h) ?_
    · simp [looseN, uInsert, push, chanAdds]; simp_all [Brings]
    · simp [push, uInsert]; simp_all
  case pop_hit pending id sl t h hmem hw hr =>
    obtain ⟨ht, hid⟩ := removeTask_some hr
    refine hs.takeOut hw ht ?_ (by rw [hid]) h4
    simp only [looseN, h, tpcTok]; split <;> simp
  case recv_advance id rest m sl t he hc hf hw hr =>
    obtain ⟨ht, hid⟩ := removeTask_some hr
    refine hs.takeOut hw ht ?_ (by rw [hid]) (by simp_all)
    simp only [looseN, hc, he, epcTok, chanAdds_cons k _ rest]; split <;> simp <;> omega
  case next_add2 t chain hand exec ts seed slot sl he hseed hslot hw =>
    refine hs.putIn hw ?_ rfl h4
    simp only [looseN, he, epcTok]; split <;> simp <;> omega
  case slot_ok pending t upd exec sl step slot h hn hstep hslot hw =>
    refine hs.putIn hw ?_ rfl h4
    simp only [looseN, h, tpcTok]; split <;> simp_all
  case next_adv2 t hand sl he hw =>
    refine hs.putIn hw ?_ rfl h4
    simp only [looseN, he, epcTok, done]; by_cases hk : t.taskId = k <;> simp [hk]; omega
  case recv_update t rest m sl he hc hf hw =>
    have ht : t.taskId ≠ k := h4 t (by simp [hc])
    refine hs.shrink ?_ ?_ (by simp_all)
    · simp only [looseN, hc, he, done, chanAdds_cons k _ rest]; omega
    · intro i u h
      simp only [done_wheel] at h
      rw [inWheel_update hw] at h
      rcases h with ⟨_, _, h⟩ | h
      · exact absurd h ht
      · exact h.1
  case recv_remove id rest m sl he hc hf hw =>
    refine hs.shrink ?_ ?_ (by simp_all)
    · simp only [looseN, hc, he, epcTok, chanAdds_cons k _ rest]; omega
    · intro i u h
      dsimp only at h
      rw [inWheel_remove hw] at h
      exact h.1
  case gate_again pending t t' rec h hd =>
    have := down_taskId hd
    refine hs.shrink ?_ (fun _ _ h => h) h4
    simp only [looseN, h, tpcTok, this]
    split <;> simp
  all_goals
    refine hs.shrink ?_ (by intro i t h; simpa using h) ?_
  all_goals first
    | (intro t ht; first | exact h4 t ht | (refine h4 t ?_; simp_all; done) | (simp at ht; exact h4 t ht))
    | (simp_all [looseN, tpcTok, epcTok, chanAdds]; done)
    | (simp_all [looseN, tpcTok, epcTok, chanAdds]; omega)
    | (simp_all [looseN, tpcTok, epcTok, chanAdds]; split <;> simp_all <;> omega)

end DelayTimer
