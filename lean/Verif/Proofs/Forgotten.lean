import Verif.Proofs.Start
import Verif.Spec.Operations

/-!
# A task whose record is gone

A removal drops the record of its task whether or not it found the task in the wheel. Whoever is left
without a record is out of reach of every later removal, update and advance.
-/

namespace DelayTimer
open Spec

/-- The event thread is not bringing `k` in, moving it or about to record it. -/
def Unhandled (k : Nat) : EPC → Prop
  | .add1 t _ _ => t.taskId ≠ k
  | .add2 t _ _ _ _ => t.taskId ≠ k
  | .add3 _ m => m.taskId ≠ k
  | .adv1 t => t.taskId ≠ k
  | .adv2 t _ => t.taskId ≠ k
  | _ => True

/-- `k` has no record, or is losing it, and is not being added. -/
structure Forgotten (k : Nat) (s : St) : Prop where
  unknown : s.flags k = none ∨ ∃ ok, s.epc = .remove k ok
  chan : ∀ e ∈ s.chan, ¬ EventAdds k e
  epc : Unhandled k s.epc

/-- Nothing happens to the copies of `k` and to the scheduler. -/
structure Idle (k : Nat) (s s' : St) : Prop where
  wheel : ∀ j u, inWheel s'.wheel k j u ↔ inWheel s.wheel k j u
  tpc : s'.tpc = s.tpc
  ticks : s'.ticks = s.ticks
  hand : s'.secondHand = s.secondHand
  attempts : Spec.attempts k s'.log = Spec.attempts k s.log
  starts : startTicks k s'.log = startTicks k s.log
  routines : startRoutines k s'.log = startRoutines k s.log

theorem life_idle {clock : Nat → Nat} {k : Nat} {t0 : Task} {D0 : Nat} {A0 S0 R0 : List Nat} {s s' : St}
    (hi : Idle k s s') (hl : Life False clock k t0 D0 A0 S0 R0 s) : Life False clock k t0 D0 A0 S0 R0 s' := by
  obtain ⟨⟨ns, ds, hA, hS, hR, hT, hle, hP⟩, _⟩ := hl
  refine ⟨⟨ns, ds, by rw [hi.attempts, hA], by rw [hi.starts, hS], by rw [hi.routines, hR], hT,
    by rw [hi.ticks]; exact hle, ?_⟩, False.elim⟩
  cases hP with
  | sched t D hs hD ha hsub hall =>
    refine .sched t D (hs.frame hi.wheel ?_ ?_ ?_ hi.ticks hi.hand) hD ha hsub hall
    · rw [hi.tpc]; exact hs.tpc
    · rw [hi.tpc]; exact Or.inl ⟨Iff.rfl, id⟩
    · rw [hi.tpc]
  | fly t ms hf hns hD hst =>
    refine .fly t ms ⟨by rw [hi.tpc]; exact hf.tok, by rw [hi.tpc]; exact hf.notPending,
      fun j u hj => hf.nowhere j u ((hi.wheel j u).1 hj), hf.valid⟩ (by rw [hi.ticks]; exact hns)
      (by rw [hi.ticks]; exact hD) (by rw [hi.ticks, hi.tpc]; exact hst)
  | gone ht hn hne hsub hall he =>
    refine .gone (by rw [hi.tpc]; exact ht) (fun j u hj => hn j u ((hi.wheel j u).1 hj)) hne hsub
      (by rw [hi.tpc]; exact hall) ?_
    unfold Ended at he ⊢
    rw [hi.tpc]; exact he

/-- What the event thread does for a task without a record does not reach the task. -/
theorem forgotten_apart {env : Env} {k : Nat} {s : St} {l : Label} {s' : St} (hf : Forgotten k s)
    (h : Act env s l s') : Apart k s l ∨ Idle k s s' := by
  by_cases hb : l = .eNext ∧ BusyWith k s.epc
  · right
    obtain ⟨hl, hb⟩ := hb
    have hu := hf.epc
    subst hl
    cases h
    all_goals try (rw [‹s.epc = _›] at hb hu; first | exact absurd hb hu | exact False.elim hb)
    case next_remove id ok he =>
      refine ⟨?_, ?_, ?_, ?_, ?_, ?_, ?_⟩ <;> simp [attempts, startTicks, startRoutines]
  · by_cases hc : l = .eRecv ∧ ∃ e rest, s.chan = e :: rest ∧ EventTouches k e
    · right
      obtain ⟨hl, e, rest, hc, ht⟩ := hc
      have ha := hf.chan e (by rw [hc]; exact List.mem_cons_self)
      have hr := hf.unknown
      subst hl
      have hn : s.epc = .idle → s.flags k = none := by
        intro he
        rcases hr with hr | ⟨ok, hr⟩
        · exact hr
        · rw [he] at hr; cases hr
      cases h
      all_goals (
        have hx := hc.symm.trans ‹s.chan = _›
        injection hx with hx _
        subst hx)
      all_goals try (exact False.elim ht)
      all_goals try (exact absurd ht ha)
      all_goals try (
        refine ⟨?_, ?_, ?_, ?_, ?_, ?_, ?_⟩ <;>
          first | exact fun _ _ => Iff.rfl | rfl | (simp; done))
      all_goals (
        have hz := hn ‹s.epc = _›
        rw [← show _ = k from ht, ‹s.flags _ = some _›] at hz
        cases hz)
    · left
      refine ⟨fun hl e rest h1 h2 => hc ⟨hl, e, rest, h1, h2⟩, fun hl h1 => hb ⟨hl, h1⟩⟩


theorem unadded_step {env : Env} {k : Nat} {s : St} {l : Label} {s' : St} (h1 : ∀ e ∈ s.chan, ¬ EventAdds k e)
    (hl : ¬ Adds k l) (h : Act env s l s') : ∀ e ∈ s'.chan, ¬ EventAdds k e := by
  cases h
  all_goals try (exact h1)
  case usend op =>
    intro e he
    simp only [push_chan, List.mem_append, List.mem_singleton] at he
    rcases he with he | he
    · exact h1 e he
    · subst he; cases op <;> first | exact hl | exact id
  case uinsert t =>
    intro e he
    simp only [uInsert, push_chan, List.mem_append, List.mem_singleton] at he
    rcases he with he | he
    · exact h1 e he
    · subst he; exact hl
  all_goals try (
    intro e he
    simp only [push_chan, List.mem_append, List.mem_singleton] at he
    rcases he with he | he
    · exact h1 e he
    · subst he; exact id)
  all_goals try (
    exact fun e he => h1 e (by rw [‹s.chan = _›]; exact List.mem_cons_of_mem _ (by simpa using he)))
  all_goals simpa using h1

theorem unhandled_step {env : Env} {k : Nat} {s : St} {l : Label} {s' : St} (hf : Forgotten k s)
    (h : Act env s l s') : Unhandled k s'.epc := by
  obtain ⟨h1, h2, h3⟩ := hf
  have hn : s.epc = .idle → s.flags k = none := by
    intro he
    rcases h1 with hr | ⟨ok, hr⟩
    · exact hr
    · rw [he] at hr; cases hr
  cases h
  all_goals try (exact h3)
  all_goals try (simp [Unhandled]; done)
  case recv_add t rest he hc => exact h2 _ (by rw [hc]; exact List.mem_cons_self)
  case recv_insert t c rest he hc => exact h2 _ (by rw [hc]; exact List.mem_cons_self)
  case recv_advance id rest m sl t he hc hf hw hr =>
    intro hk
    have := (removeTask_some hr).2
    have hz := hn he
    rw [← hk, show ({ t with cylinderLine := 0 } : Task).taskId = t.taskId from rfl, this, hf] at hz
    cases hz
  all_goals (rw [‹s.epc = _›] at h3; simpa [Unhandled] using h3)

theorem forgotten_step {env : Env} {k : Nat} {s : St} {l : Label} {s' : St} (hf : Forgotten k s)
    (hl : ¬ Adds k l) (h : Act env s l s') : Forgotten k s' := by
  refine ⟨?_, unadded_step hf.chan hl h, unhandled_step hf h⟩
  obtain ⟨h1, h2, h3⟩ := hf
  have hn : s.epc ≠ .remove k true → s.epc ≠ .remove k false → s.flags k = none := by
    intro he he'
    rcases h1 with hr | ⟨ok, hr⟩
    · exact hr
    · cases ok
      · exact absurd hr he'
      · exact absurd hr he
  cases h
  all_goals try (exact h1)
  all_goals try (simpa using h1)
  case mark_some pending id slot upd m h hf' =>
    refine h1.imp_left fun h1 => ?_
    show set s.flags id _ k = none
    rw [set_apply]; split
    · subst_vars; rw [h1] at hf'; cases hf'
    · exact h1
  case recv_cancel id rec rest he hc =>
    left
    rw [done_flags, (cancelTask_flags env true { s with chan := rest } id rec CANCELLED k).isNone]
    exact hn (by simp [he]) (by simp [he])
  case recv_timeout id rec rest he hc =>
    left
    rw [done_flags, (cancelTask_flags env false { s with chan := rest } id rec TIMEOUT k).isNone]
    exact hn (by simp [he]) (by simp [he])
  case recv_finish b rest he hc =>
    left
    rw [done_flags, (finishTask_flags env { s with chan := rest } b.taskId b.recordId k).isNone]
    exact hn (by simp [he]) (by simp [he])
  case recv_append id box rest he hc =>
    left
    rw [done_flags, (maintainTaskStatus_flags { s with chan := rest } id box k).isNone]
    exact hn (by simp [he]) (by simp [he])
  case next_add3 tag m he =>
    left
    rw [he] at h3
    have hm : m.taskId ≠ k := h3
    rw [done_flags]
    show set s.flags m.taskId _ k = none
    rw [set_other _ _ _ (fun h => hm h.symm)]
    exact hn (by simp [he]) (by simp [he])
  case next_remove id ok he =>
    left
    rw [done_flags]
    show set s.flags id _ k = none
    rw [set_apply]; split
    · rfl
    · rename_i hk
      refine hn ?_ ?_ <;> (rw [he]; intro hx; cases hx; exact hk rfl)
  all_goals (left; simpa using hn (by simp [‹s.epc = _›]) (by simp [‹s.epc = _›]))

/-- A task without a record lives on, whatever is called for it. -/
theorem forgotten_run {env : Env} {k : Nat} {t0 : Task} {D0 : Nat} {A0 S0 R0 : List Nat} :
    ∀ (ls : List Label) {s s' : St}, Reachable env s → Forgotten k s →
      Life False env.clock k t0 D0 A0 S0 R0 s → (∀ l ∈ ls, ¬ Adds k l) → run env s ls = some s' →
      Life False env.clock k t0 D0 A0 S0 R0 s' ∧ Forgotten k s' ∧ Reachable env s' := by
  intro ls
  induction ls with
  | nil => intro s s' hr hq hl _ h; cases h; exact ⟨hl, hq, hr⟩
  | cons l ls ih =>
    intro s s' hr hq hl ht h
    simp only [run] at h
    split at h
    · rename_i s1 h1
      have ha := step_act h1
      refine ih (hr.step h1) (forgotten_step hq (ht l List.mem_cons_self) ha) ?_
        (fun l hl => ht l (List.mem_cons_of_mem _ hl)) h
      rcases forgotten_apart hq ha with hp | hi
      · exact life_step hp (wheelOk hr) (pendOk hr) hl ha
      · exact life_idle hi hl
    · cases h

end DelayTimer
