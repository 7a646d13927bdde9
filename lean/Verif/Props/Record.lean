import Verif.Spec.Record
import Verif.Props.Certain
import Verif.Props.Forget

/-!
# A task is on record from its addition to its removal (C94)

The table of marks is what `update_task`, `advance_task`, the parallel limit and the instance chain go by. An entry is made by an
addition and taken out by a removal, and by nothing else. In particular the end of a task, by its count or by its time table, does
not take it out.
-/

namespace DelayTimer
open Spec

/-- The event thread is about to write down what it was asked to add. -/
def TagOk : EPC → Prop
  | .add3 tag m => tag = .add m.taskId ∨ ∃ c, tag = .insert m.taskId c
  | _ => True

theorem tagOk_step {env : Env} {s : St} {l : Label} {s' : St} (hs : TagOk s.epc) (h : Act env s l s') : TagOk s'.epc := by
  cases h
  all_goals try (exact hs)
  all_goals try (exact True.intro)
  case next_add2 t chain hand exec ts seed slot sl he hseed hslot hw =>
    cases chain
    · exact Or.inl rfl
    · exact Or.inr ⟨_, rfl⟩
  case next_add2_missing t chain hand exec ts seed slot he hseed hslot hw =>
    cases chain
    · exact Or.inl rfl
    · exact Or.inr ⟨_, rfl⟩

theorem tagOk {env : Env} {s : St} (h : Reachable env s) : TagOk s.epc :=
  Reachable.induct (fun s => TagOk s.epc) True.intro (fun _ _ _ _ hs h => tagOk_step hs h) s h

theorem SameMark.isSome {a b : Option TaskMark} (h : SameMark a b) : a.isSome = b.isSome := by
  have := h.isNone
  cases a <;> cases b <;> simp_all

theorem record_step {env : Env} {k : Nat} {s : St} {l : Label} {s' : St} (ht : TagOk s.epc)
    (hs : (s.flags k).isSome = recorded k s.log) (h : Act env s l s') : (s'.flags k).isSome = recorded k s'.log := by
  cases h
  case mark_some pending id slot upd m h hf =>
    rw [← hs]
    show (set s.flags id _ k).isSome = _
    rw [set_apply]; split
    · subst ‹k = id›; rw [hf]; rfl
    · rfl
  case recv_cancel id rec rest he hc =>
    rw [done_flags, (cancelTask_flags env true { s with chan := rest } id rec CANCELLED k).isSome]
    rcases cancelTask_log env true { s with chan := rest } id rec CANCELLED with e | e | ⟨_, _, e⟩ <;> simpa [recorded, done, e] using hs
  case recv_timeout id rec rest he hc =>
    rw [done_flags, (cancelTask_flags env false { s with chan := rest } id rec TIMEOUT k).isSome]
    rcases cancelTask_log env false { s with chan := rest } id rec TIMEOUT with e | e | ⟨_, _, e⟩ <;> simpa [recorded, done, e] using hs
  case recv_append id box rest he hc =>
    rw [done_flags, (maintainTaskStatus_flags { s with chan := rest } id box k).isSome]
    simpa [recorded, done] using hs
  case recv_finish b rest he hc =>
    rw [done_flags, (finishTask_flags env { s with chan := rest } b.taskId b.recordId k).isSome]
    rcases finishTask_log env { s with chan := rest } b.taskId b.recordId with e | e | ⟨_, _, e⟩ <;> simpa [recorded, done, e] using hs
  case next_add1_err t chain hand he hn =>
    rw [done_flags]
    cases chain <;> simpa [recorded, done, addTag] using hs
  case next_add3 tag m he =>
    rw [he] at ht
    rw [done_flags]
    show (set s.flags m.taskId _ k).isSome = _
    rw [set_apply]
    rcases ht with rfl | ⟨c, rfl⟩
    all_goals
      split
      · subst ‹k = _›; simp [recorded, done]
      · have hne : m.taskId ≠ k := fun e => ‹¬ _› e.symm
        simpa [recorded, done, beq_false_of_ne hne, bne] using hs
  case next_remove id ok he =>
    rw [done_flags]
    show (set s.flags id _ k).isSome = _
    rw [set_apply]
    split
    · subst ‹k = _›; simp [recorded, done]
    · have hne : id ≠ k := fun e => ‹¬ _› e.symm
      simpa [recorded, done, beq_false_of_ne hne, bne] using hs
  all_goals exact hs

/-- **C94** There is a record of `k` exactly if, of its successful additions and its removals worked off so far, the last was an
addition. -/
theorem C94_record {env : Env} {s : St} (h : Reachable env s) (k : Nat) : (s.flags k).isSome = recorded k s.log := by
  refine Reachable.induct (fun s => (s.flags k).isSome = recorded k s.log) rfl (fun s _ _ hr hs h => ?_) s h
  exact record_step (tagOk hr) hs h

/-- `k` is on record and no removal is on its way. -/
structure Lodged (k : Nat) (s : St) : Prop where
  known : s.flags k ≠ none
  chan : .removeTask k ∉ s.chan
  epc : ∀ ok, s.epc ≠ .remove k ok

theorem not_removes_event {k : Nat} {s : St} {l : Label} {e : TimerEvent} (hl : l ≠ .uSend (.remove k))
    (h : (∀ k, ¬ EventTouches k e) ∨ (∃ op, l = .uSend op ∧ e = op.event) ∨
       ∃ t, l = .uInsert t ∧ e = .insertTask t s.nextChain) : e ≠ .removeTask k := by
  rintro rfl
  rcases h with h | ⟨op, rfl, h⟩ | ⟨t, _, h⟩
  · exact h k rfl
  · cases op <;> cases h
    exact hl rfl
  · cases h

/-- No removal gets on its way by itself. -/
theorem unremoved_step {env : Env} {k : Nat} {s : St} {l : Label} {s' : St} (hc : .removeTask k ∉ s.chan)
    (hl : l ≠ .uSend (.remove k)) (h : Act env s l s') : .removeTask k ∉ s'.chan := by
  rcases chan_step h with ⟨_, h4 | ⟨e, h4, h5⟩⟩ | ⟨_, _, e, h4⟩ | ⟨_, h4⟩
  · rw [h4]; exact hc
  · rw [h4]
    intro hx
    rcases List.mem_append.1 hx with hx | hx
    · exact hc hx
    · exact not_removes_event hl h5 (List.mem_singleton.1 hx).symm
  · intro hx; exact hc (by rw [h4]; exact List.mem_cons_of_mem _ hx)
  · rw [h4]; exact hc

theorem lodged_step {env : Env} {k : Nat} {s : St} {l : Label} {s' : St} (hs : Lodged k s) (hl : l ≠ .uSend (.remove k))
    (h : Act env s l s') : Lodged k s' := by
  obtain ⟨h1, h2, h3⟩ := hs
  refine ⟨?_, unremoved_step h2 hl h, ?_⟩
  · by_cases hb : l = .eNext → ¬ BusyWith k s.epc
    · exact marked_step hb h1 h
    · have hb := Classical.not_imp.1 hb
      obtain ⟨rfl, _⟩ := hb
      cases h
      all_goals try (exact h1)
      all_goals try (simpa using h1)
      case next_add3 tag m he =>
        show set s.flags m.taskId _ k ≠ none
        rw [set_apply]; split <;> simp [h1]
      case next_remove id ok he =>
        have hk : id ≠ k := fun e => h3 ok (by rw [he, e])
        show set s.flags id _ k ≠ none
        rw [set_other _ _ _ (fun h => hk h.symm)]; exact h1
  · intro ok hx
    cases h
    all_goals try (exact h3 ok hx)
    all_goals try (cases hx; done)
    all_goals (
      cases hx
      exact h2 (by rw [‹s.chan = _›]; exact List.mem_cons_self))

/-- **C94** A record is kept until a removal is called, whatever becomes of the task. -/
theorem C94_kept {env : Env} {k : Nat} : ∀ {ls : List Label} {s s' : St}, s.flags k ≠ none → .removeTask k ∉ s.chan →
    (∀ ok, s.epc ≠ .remove k ok) → .uSend (.remove k) ∉ ls → run env s ls = some s' → s'.flags k ≠ none := by
  suffices H : ∀ (ls : List Label) {s s' : St}, Lodged k s → .uSend (.remove k) ∉ ls → run env s ls = some s' → Lodged k s' from
    fun {_ _ _} h1 h2 h3 h4 h5 => (H _ ⟨h1, h2, h3⟩ h4 h5).known
  intro ls
  induction ls with
  | nil => intro s s' hs _ h; cases h; exact hs
  | cons l ls ih =>
    intro s s' hs hl h
    obtain ⟨s1, h1, h2⟩ := run_cons h
    exact ih (lodged_step hs (fun e => hl (by rw [e]; exact List.mem_cons_self)) (step_act h1))
      (fun h => hl (List.mem_cons_of_mem _ h)) h2

/-- An addition of a task with id `k` that has a first alarm. -/
def Enters (k : Nat) : TimerEvent → Prop
  | .addTask t => t.taskId = k ∧ t.getNextExecTimestamp.1 ≠ none
  | .insertTask t _ => t.taskId = k ∧ t.getNextExecTimestamp.1 ≠ none
  | _ => False

/-- The event thread is at it. -/
def Entering (k : Nat) : EPC → Prop
  | .add1 t _ _ => t.taskId = k ∧ t.getNextExecTimestamp.1 ≠ none
  | .add2 t _ _ _ _ => t.taskId = k
  | .add3 _ m => m.taskId = k
  | _ => False

/-- An addition of `k`, the `N`th event, is on its way or has been carried out, and no removal comes after it. -/
def Filed (k N : Nat) (s : St) : Prop :=
  (∃ a e b, s.chan = a ++ e :: b ∧ Enters k e ∧ .removeTask k ∉ b ∧ (queuedTags s.log).length = N + 1 + b.length) ∨
  (Entering k s.epc ∧ .removeTask k ∉ s.chan ∧ (queuedTags s.log).length = N + 1 + s.chan.length) ∨
  Lodged k s

theorem filed_step {env : Env} {k N : Nat} {s s' : St} {l : Label} (hs : Filed k N s) (hl : l ≠ .uSend (.remove k))
    (h : Act env s l s') : Filed k N s' := by
  rcases hs with ⟨a, x, b, h1, hx, h2, h3⟩ | ⟨h1, h2, h3⟩ | h1
  · rcases chan_step h with ⟨_, h4 | ⟨e, h4, h5⟩⟩ | ⟨rfl, hi, e, h4⟩ | ⟨rfl, h4⟩
    · rcases queue_step h with ⟨_, h6⟩ | ⟨x, h6, _⟩ | ⟨x, _, h6, _⟩
      · exact Or.inl ⟨a, x, b, by rw [h4, h1], hx, h2, by omega⟩
      · rw [h4] at h6; have := congrArg List.length h6; simp at this
      · rw [h4] at h6; have := congrArg List.length h6; simp at this
    · rcases queue_step h with ⟨h6, _⟩ | ⟨y, h6, h7⟩ | ⟨y, _, h6, _⟩
      · rw [h4] at h6; have := congrArg List.length h6; simp at this
      · refine Or.inl ⟨a, x, b ++ [e], by rw [h4, h1]; simp, hx, fun hy => ?_, by simp; omega⟩
        rcases List.mem_append.1 hy with hy | hy
        · exact h2 hy
        · exact not_removes_event hl h5 (List.mem_singleton.1 hy).symm
      · rw [h4] at h6; have := congrArg List.length h6; simp at this; omega
    · have h7 : (queuedTags s'.log).length = (queuedTags s.log).length := by
        rcases queue_step h with ⟨h6, h7⟩ | ⟨x, h6, _⟩ | ⟨x, _, _, h7⟩
        · exact h7
        · rw [h6] at h4; have := congrArg List.length h4; simp at this; omega
        · exact h7
      rw [h1] at h4
      cases a with
      | cons y a =>
        simp only [List.cons_append, List.cons.injEq] at h4
        exact Or.inl ⟨a, x, b, h4.2.symm, hx, h2, by omega⟩
      | nil =>
        simp only [List.nil_append, List.cons.injEq] at h4
        obtain ⟨_, h4⟩ := h4
        refine Or.inr (Or.inl ⟨?_, by rw [← h4]; exact h2, by rw [← h4]; omega⟩)
        have hc : s.chan = x :: b := h1
        cases h
        all_goals (
          have hy := hc.symm.trans ‹s.chan = _›
          injection hy with hy _
          subst hy
          exact hx)
    · rcases queue_step h with ⟨_, h6⟩ | ⟨y, h6, _⟩ | ⟨y, _, h6, _⟩
      · exact Or.inl ⟨a, x, b, by rw [h4, h1], hx, h2, by omega⟩
      · rw [h4] at h6; have := congrArg List.length h6; simp at this
      · rw [h4] at h6; have := congrArg List.length h6; simp at this
  · have h2' := unremoved_step h2 hl h
    rcases chan_step h with ⟨h8, h4 | ⟨e, h4, h5⟩⟩ | ⟨rfl, hi, e, h4⟩ | ⟨rfl, h4⟩
    · refine Or.inr (Or.inl ⟨by rw [h8]; exact h1, h2', ?_⟩)
      rcases queue_step h with ⟨_, h6⟩ | ⟨x, h6, _⟩ | ⟨x, _, h6, _⟩
      · rw [h4]; omega
      · rw [h4] at h6; have := congrArg List.length h6; simp at this
      · rw [h4] at h6; have := congrArg List.length h6; simp at this
    · refine Or.inr (Or.inl ⟨by rw [h8]; exact h1, h2', ?_⟩)
      rcases queue_step h with ⟨h6, _⟩ | ⟨x, h6, h7⟩ | ⟨x, _, h6, _⟩
      · rw [h4] at h6; have := congrArg List.length h6; simp at this
      · rw [h4]; simp; omega
      · rw [h4] at h6; have := congrArg List.length h6; simp at this; omega
    · rw [hi] at h1; exact h1.elim
    · have h7 : (queuedTags s'.log).length = (queuedTags s.log).length := by
        rcases queue_step h with ⟨_, h7⟩ | ⟨x, h6, _⟩ | ⟨x, _, _, h7⟩
        · exact h7
        · rw [h4] at h6; have := congrArg List.length h6; simp at this
        · exact h7
      have hr : Entering k s'.epc ∨ Lodged k s' := by
        clear h7 h4
        cases h
        case next_add1_err t chain hand he hn => rw [he] at h1; exact absurd hn h1.2
        case next_add1 t chain hand exec he hn =>
          rw [he] at h1
          exact Or.inl ((getNext_taskId t).trans h1.1)
        case next_add2 t chain hand exec ts seed slot sl he hseed hslot hw => rw [he] at h1; exact Or.inl h1
        case next_add2_missing t chain hand exec ts seed slot he hseed hslot hw => rw [he] at h1; exact Or.inl h1
        case next_add3 tag m he =>
          rw [he] at h1
          refine Or.inr ⟨?_, h2', fun ok hx => (by cases hx)⟩
          show set s.flags m.taskId _ k ≠ none
          rw [set_apply, if_pos (Eq.symm h1)]; simp
        all_goals (rw [‹s.epc = _›] at h1; exact h1.elim)
      exact hr.elim (fun h => Or.inr (Or.inl ⟨h, h2', by rw [h4]; omega⟩)) (fun h => Or.inr (Or.inr h))
  · exact Or.inr (Or.inr (lodged_step h1 hl h))

theorem filed_run {env : Env} {k N : Nat} : ∀ (ls : List Label) {s s' : St}, Filed k N s → (∀ l ∈ ls, l ≠ .uSend (.remove k)) →
    run env s ls = some s' → Filed k N s' := by
  intro ls
  induction ls with
  | nil => intro s s' hs _ h; cases h; exact hs
  | cons l ls ih =>
    intro s s' hs hl h
    obtain ⟨s1, h1, h2⟩ := run_cons h
    exact ih (filed_step hs (hl l List.mem_cons_self) (step_act h1)) (fun l h => hl l (List.mem_cons_of_mem _ h)) h2

theorem entering_tags {k : Nat} {e : EPC} (h : Entering k e) : (epcTags e).length = 1 := by
  cases e <;> first | rfl | exact h.elim

theorem filed_done {env : Env} {k N : Nat} {s : St} (hr : Reachable env s) (hs : Filed k N s)
    (hd : N < (dispatchedTags s.log).length) : Lodged k s := by
  have hlen := congrArg List.length (fifo hr)
  simp only [List.length_append, List.length_map] at hlen
  rcases hs with ⟨a, e, b, h1, _, h2, h3⟩ | ⟨h1, h2, h3⟩ | h
  · rw [h1] at hlen; simp at hlen; omega
  · rw [entering_tags h1] at hlen; omega
  · exact h

theorem filed_called {env : Env} {k : Nat} {t : Task} {l : Label} {s s' : St} (hl : HandsIn t l) (hk : t.taskId = k)
    (ha : t.getNextExecTimestamp.1 ≠ none) (h : step env s l = some s') :
    Filed k (queuedTags s.log).length s' ∧ (queuedTags s'.log).length = (queuedTags s.log).length + 1 := by
  rcases hl with rfl | rfl <;> simp only [step] at h <;> cases h
  · exact ⟨Or.inl ⟨s.chan, .addTask t, [], by simp [push, UserOp.event], ⟨hk, ha⟩, fun hx => (by cases hx),
      by simp [push, queuedTags, UserOp.event]⟩, by simp [push, queuedTags, UserOp.event]⟩
  · exact ⟨Or.inl ⟨s.chan, .insertTask t s.nextChain, [], by simp [uInsert, push], ⟨hk, ha⟩, fun hx => (by cases hx),
      by simp [uInsert, push, queuedTags]⟩, by simp [uInsert, push, queuedTags]⟩

/-- **C94** In an unending execution: a task that has a first alarm is handed in under `k` at moment `n1`, and no removal of `k`
is called afterwards. If the event thread is not held up forever and lives, then from some moment on there is a record of `k`, for
ever: also when the task has long come to its end. -/
theorem C94_for_ever {env : Env} (c : Course env) (hfe : c.WeaklyFair (ByEvents · = true)) (hli : c.Listening) {k n1 : Nat}
    {t : Task} {l : Label} (hlab : c.lab n1 = some l) (hl : HandsIn t l) (hk : t.taskId = k)
    (ha : t.getNextExecTimestamp.1 ≠ none) (hno : ∀ m, n1 < m → c.lab m ≠ some (.uSend (.remove k))) :
    ∃ n, n1 < n ∧ ∀ m, n ≤ m → (c.st m).flags k ≠ none := by
  obtain ⟨m0, h0, hd⟩ := C70_processed c hfe hli (n1 + 1)
  obtain ⟨hf, hq⟩ := filed_called hl hk ha (course_step c hlab)
  refine ⟨m0, by omega, fun n hn => ?_⟩
  obtain ⟨ls, f1, f2, _⟩ := between_mem c (n := n1 + 1) (m := n) (P := fun l => l ≠ .uSend (.remove k)) (by omega)
    (fun i l hi h e => hno i (by omega) (e ▸ h))
  have hle := hd.length_le
  obtain ⟨ls3, _, e1⟩ := course_between c hn
  have hgrow : (dispatchedTags (c.st m0).log).length ≤ (dispatchedTags (c.st n).log).length := by
    obtain ⟨news, hn⟩ := log_grows e1
    rw [hn, dispatchedTags_append, List.length_append]; omega
  exact (filed_done (course_reach c n) (filed_run ls hf f1 f2) (by omega)).known

end DelayTimer

namespace DelayTimer.Ex

open Spec

/-- C94, `C94_record` and `C94_kept`: task 1 was to run once and has done so; nothing of it is scheduled or going on any more. It is
on record, and stays so while another task is added and removed. That one is not on record any more. -/
example : ∃ s s', run env0 (init env0) single = some s ∧ run env0 s singleRest = some s' ∧ s.flags 1 ≠ none ∧
    .removeTask 1 ∉ s.chan ∧ (∀ ok, s.epc ≠ .remove 1 ok) ∧ .uSend (.remove 1) ∉ singleRest ∧
    recorded 1 s.log = true ∧ recorded 1 s'.log = true ∧ recorded 2 s'.log = false ∧
    .dispatched (.add 2) (some true) ∈ s'.log ∧ s'.trace 1 = [] ∧ ¬ Waiting 1 s := by
  have hr : (run env0 (init env0) single).isSome = true := by decide +kernel
  have hk := single_ok.2.2.2.2.2.2.2.2.2.1
  refine ⟨singleS, play env0 (single ++ singleRest), play_run hr, play_on (by decide +kernel), hk, ?_, ?_, ?_,
    by decide +kernel, by decide +kernel, by decide +kernel, by decide +kernel, by rfl, ?_⟩
  · rw [show singleS.chan = [] from rfl]; simp
  · rw [show singleS.epc = .idle from rfl]; simp
  · simp [singleRest, add, idles, idle]
  · exact (C50_partial single_ok.1 single_ok.2.1 single_ok.2.2.1 (Nat.le_refl 1) single_ok.2.2.2.1
      single_ok.2.2.2.2.2.1).1.1.1

/-- C94, `C94_for_ever`: an unending execution in which task 1 is handed in to run once. -/
example : ∃ (c : Course env0) (l : Label), c.WeaklyFair (ByEvents · = true) ∧ c.Listening ∧ c.lab 0 = some l ∧
    HandsIn (times 1 1 101 3) l ∧ (times 1 1 101 3).getNextExecTimestamp.1 ≠ none ∧
    ∀ m, 0 < m → c.lab m ≠ some (.uSend (.remove 1)) := by
  obtain ⟨c, h1, h2, h3, _, h4⟩ := fair_course (pre := [.uSend (.add (times 1 1 101 3))]) (play_run (env := env0) (by rfl))
  have hup := upTo_take (c := c) (n := 1) (by have := h1; simp only [List.length_singleton] at this; rw [this]; rfl)
  refine ⟨c, _, h3.events, (unchecked_lives rfl c).1, ?_, Or.inl rfl, by decide, ?_⟩
  · rw [(hup 0 (by omega)).2 (by omega), show c.upTo 1 = _ from h1]; rfl
  · intro m hm hl
    exact h4 m _ hm hl

end DelayTimer.Ex
