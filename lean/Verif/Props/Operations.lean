import Verif.Proofs.Place
import Verif.Proofs.Reports
import Verif.Proofs.Indep
import Verif.Examples
import Verif.Props.Events

/-!
# Removing, unknown ids, stopping, one id – one scheduled task (C12, C13, C17, C18)
-/

namespace DelayTimer
open Spec

/-! ## C18 -/

theorem Spec.AtMostOnce.of_single {k : Nat} {s : St} (h : Single k s) : AtMostOnce k s := by
  refine ⟨fun i sl t j sl' u h1 h2 h3 h4 h5 h6 => h.uniq _ _ _ _ ⟨sl, h1, h2, h3⟩ ⟨sl', h4, h5, h6⟩, ?_⟩
  rintro ⟨i, sl, t, h1, h2, h3⟩ p u hp hk
  have h4 := h.excl i t ⟨sl, h1, h2, h3⟩
  have h5 : tpcTok k s.tpc = [] := List.length_eq_zero_iff.1 (by unfold looseN at h4; omega)
  rcases hp with e | ⟨_, e⟩ | ⟨_, e⟩ | ⟨_, e⟩ | ⟨_, e⟩ <;> rw [e] at h5 <;> simp [tpcTok, hk] at h5

/-- **C18**, first half: an id that is handed to the timer once and never updated is scheduled at most
once, whatever removals, advances and interleavings there are.

Missing for the full property: an id that is added while it is scheduled, see `Ex.C18_fails_twice`. -/
theorem C18_once_partial {env : Env} {k : Nat} {t : Task} {ls1 ls2 : List Label} {l : Label} {s : St}
    (hl : HandsIn t l) (h1 : ∀ l ∈ ls1, ¬ Brings k l) (h2 : ∀ l ∈ ls2, ¬ Brings k l)
    (hr : run env (init env) (ls1 ++ l :: ls2) = some s) : AtMostOnce k s :=
  .of_single (single_once hl h1 h2 hr)

/-- **C18**: if `k` is added only while it is not scheduled and never updated or advanced, and if the
event thread neither removes nor records `k` while the scheduler is handling it, then `k` is scheduled
at most once, and the timer's record of where it waits is right whenever neither thread is in the
middle of handling it. `k` may be removed and added again any number of times.

Missing: advanced ids (`Ex.C18_fails_advanced`), ids added while they are scheduled
(`Ex.C18_fails_twice`), and encounters of the two threads (`Ex.C18_fails_encounter`,
`Ex.C12_fails_in_hand`). -/
theorem C18_record_partial {env : Env} {k : Nat} {ls : List Label} {s : St}
    (hr : run env (init env) ls = some s) (hc : Throughout env (init env) ls (Calm k))
    (hp : WheneverCalled env (init env) ls (PlainCall k)) :
    AtMostOnce k s ∧
    (¬ InHand k s.tpc → (∀ tag m, s.epc = .add3 tag m → m.taskId ≠ k) → RecordAccurate k s) := by
  have ht := tidy_run ls (Reachable.init env) (Tidy.init env k) hc hp hr
  refine ⟨.of_single ht.single, ?_⟩
  intro h1 h2 i sl t h3 h4 h5
  rcases ht.place i t ⟨sl, h3, h4, h5⟩ with h | ⟨tag, m, h6, h7⟩ | ⟨p, u, h6⟩
  · exact h
  · exact absurd h7 (h2 tag m h6)
  · exact absurd (Or.inr ⟨p, i, u, h6⟩) h1

/-! ## C12 -/

/-- The removal of a task of which the scheduler has no hold and whose recorded place is right. -/
theorem gone_of_remove {env : Env} {k : Nat} {s s1 : St} {rest : List TimerEvent}
    (hc : s.chan = .removeTask k :: rest) (hrest : ∀ e ∈ rest, ¬ EventAdds k e)
    (ha : RecordAccurate k s) (hh : ¬ Handling k s.tpc) (h1 : step env s .eRecv = some s1) :
    Gone k s1 ∧ s1.log = s.log := by
  have htok : tpcTok k s.tpc = [] ∧ k ∉ pendingOf s.tpc := by
    cases ht : s.tpc <;> simp [ht, Handling, tpcTok, pendingOf] at hh ⊢ <;> simp [hh]
  have hact := step_act h1
  cases hact
  all_goals try (have hx := hc.symm.trans ‹s.chan = _›; cases hx; done)
  case recv_remove_skip id rest' he' hc' hs =>
    have hx := hc.symm.trans hc'
    cases hx
    refine ⟨⟨absent_iff.2 ⟨?_, htok.1, htok.2⟩, hrest, rfl, by simp, Or.inr ⟨_, rfl⟩⟩, rfl⟩
    rintro i t ⟨sl, h1, h2, h3⟩
    obtain ⟨m, h4, h5⟩ := ha i sl t h1 h2 h3
    have := hs m h4
    rw [h5, show s.wheel i = some sl from h1] at this
    cases this
  case recv_remove id rest' m sl he' hc' hf hw =>
    have hx := hc.symm.trans hc'
    cases hx
    refine ⟨⟨absent_iff.2 ⟨?_, htok.1, htok.2⟩, hrest, rfl, by simp, Or.inr ⟨_, rfl⟩⟩, rfl⟩
    intro i t hi
    rw [show St.wheel _ = _ from rfl, inWheel_remove hw] at hi
    obtain ⟨⟨sl', h1, h2, h3⟩, h6⟩ := hi
    obtain ⟨m', h4, h5⟩ := ha i sl' t h1 h2 h3
    rw [hf] at h4; cases h4
    exact h6 h5.symm rfl

/-- **C12**: when the removal of `k` is taken from the channel while the scheduler is not handling `k`
and the record of where `k` waits is right, no start of `k` is even attempted from then on until `k` is
added again, whatever else happens — including updates and advances of `k`.

Missing: removals taken while the scheduler is handling `k` (`Ex.C12_fails_in_hand`) and removals of
tasks whose record is wrong because they have been advanced (`Ex.C12_fails_advanced`) or added twice
(`Ex.C12_fails_twice`). -/
theorem C12_partial {env : Env} {k : Nat} {s s1 s' : St} {rest : List TimerEvent} {ls : List Label}
    (hc : s.chan = .removeTask k :: rest) (hrest : ∀ e ∈ rest, ¬ EventAdds k e)
    (ha : RecordAccurate k s) (hh : ¬ Handling k s.tpc) (h1 : step env s .eRecv = some s1)
    (hl : ∀ l ∈ ls, ¬ Adds k l) (hr : run env s1 ls = some s') :
    startTicks k s'.log = startTicks k s.log ∧ attempts k s'.log = attempts k s.log ∧ Absent k s' := by
  obtain ⟨hg, hlog⟩ := gone_of_remove hc hrest ha hh h1
  obtain ⟨h2, h3, h4⟩ := gone_after ls hg hl hr
  exact ⟨by rw [h4, hlog], by rw [h3, hlog], h2.absent⟩

/-- **C12** for histories: `k` is used plainly and the threads do not meet on it; then the removal is
final. -/
theorem C12_plain_partial {env : Env} {k : Nat} {ls ls' : List Label} {s s1 s' : St} {rest : List TimerEvent}
    (hr : run env (init env) ls = some s) (hcalm : Throughout env (init env) ls (Calm k))
    (hp : WheneverCalled env (init env) ls (PlainCall k))
    (he : s.epc = .idle) (hc : s.chan = .removeTask k :: rest) (hrest : ∀ e ∈ rest, ¬ EventAdds k e)
    (h1 : step env s .eRecv = some s1)
    (hl : ∀ l ∈ ls', ¬ Adds k l) (hr' : run env s1 ls' = some s') :
    startTicks k s'.log = startTicks k s.log := by
  have hin : ¬ InHand k s.tpc := fun h => (hcalm ls [] s (by simp) hr h).1 ⟨he, by rw [hc]; rfl⟩
  exact (C12_partial hc hrest ((C18_record_partial hr hcalm hp).2 hin (by rw [he]; simp))
    (fun h => hin (Or.inl h)) h1 hl hr').1

/-! ## C13 -/

/-- **C13**: an id that has never been added is unknown: it has no mark, is not scheduled and is never
started, whatever calls are made on it. -/
theorem C13_never_added {env : Env} {k : Nat} {ls : List Label} {s : St}
    (hl : ∀ l ∈ ls, ¬ Adds k l) (hr : run env (init env) ls = some s) :
    Absent k s ∧ startTicks k s.log = [] ∧ attempts k s.log = [] ∧
      (s.flags k = none ∨ ∃ ok, s.epc = .remove k ok) := by
  obtain ⟨h1, h2, h3⟩ := gone_after ls (Gone.init env k) hl hr
  exact ⟨h1.absent, h3, h2, h1.flag⟩

/-- **C13**: an update of an unknown id changes nothing. -/
theorem C13_update {env : Env} {s : St} {t : Task} {rest : List TimerEvent} (he : s.epc = .idle)
    (hc : s.chan = .updateTask t :: rest) (hf : s.flags t.taskId = none) :
    step env s .eRecv = some { s with
      chan := rest
      log := .dispatched (.update t.taskId) (some true) :: s.log } := by
  simp only [step, eRecv, he, hc, hf, done, publicOf, TimerEvent.tag]
  cases env.statusReport <;> simp

/-- **C13**: advancing an unknown id fails and changes nothing. -/
theorem C13_advance {env : Env} {s : St} {k : Nat} {rest : List TimerEvent} (he : s.epc = .idle)
    (hc : s.chan = .advanceTask k :: rest) (hf : s.flags k = none) :
    step env s .eRecv = some { s with
      chan := rest
      log := .dispatched (.advance k) none :: s.log } := by
  simp only [step, eRecv, he, hc, hf, done, publicOf, TimerEvent.tag]
  cases env.statusReport <;> simp

/-- **C13**: removing an unknown id fails and changes nothing. Other threads may run between the two
steps of the removal: `s1` is any state in which the event thread is still at that point. -/
theorem C13_remove {env : Env} {s : St} {k : Nat} {rest : List TimerEvent} (he : s.epc = .idle)
    (hc : s.chan = .removeTask k :: rest) (hf : s.flags k = none) :
    step env s .eRecv = some { s with chan := rest, epc := .remove k false } ∧
    ∀ s1 : St, s1.epc = .remove k false → s1.flags k = none →
      step env s1 .eNext = some { s1 with epc := .idle, log := .dispatched (.remove k) none :: s1.log } := by
  refine ⟨by simp only [step, eRecv, he, hc, hf], ?_⟩
  intro s1 h1 h2
  have hset : set s1.flags k none = s1.flags := by
    funext x; rw [set_apply]; split
    · rename_i h; rw [h, h2]
    · rfl
  simp only [step, eNext, h1, h2, dropMark, done, hset]
  cases env.statusReport <;> simp

/-- **C13**: cancelling a run that the timer does not know changes nothing. -/
theorem C13_cancel {env : Env} {s : St} (hr : Reachable env s) {k : Nat} {rec : Int} {rest : List TimerEvent}
    (he : s.epc = .idle) (hc : s.chan = .cancelTask k rec :: rest) (hq : ∀ b ∈ s.trace k, b.recordId ≠ rec) :
    step env s .eRecv = some { s with
      chan := rest
      log := .dispatched (.cancel k rec) none :: s.log } := by
  have h1 : quitOne env (s.trace k) rec = none := by
    rw [quitOne_sorted env _ rec ((traceOk hr).sorted k), if_neg]
    rintro ⟨b, hb, h⟩; exact hq b hb h
  simp only [step, eRecv, he, hc, cancelTask, h1, done, publicOf, TimerEvent.tag]
  cases env.statusReport <;> simp

/-! ## C17 -/

/-- **C17**: once the scheduler has observed the stop, it is halted for good: no task is started or even
attempted, and the wheel does not move. -/
theorem C17_halted {env : Env} {ls : List Label} {s s' : St} (hh : s.tpc = .halted)
    (hr : run env s ls = some s') :
    s'.tpc = .halted ∧ s'.ticks = s.ticks ∧
      ∀ k, startTicks k s'.log = startTicks k s.log ∧ attempts k s'.log = attempts k s.log := by
  induction ls generalizing s with
  | nil => cases hr; exact ⟨hh, rfl, fun _ => ⟨rfl, rfl⟩⟩
  | cons l ls ih =>
    simp only [run] at hr
    split at hr
    rotate_left
    · cases hr
    rename_i s1 h1
    have ha := step_act h1
    have hT : ¬ TLabel l := by
      intro hT
      cases ha
      all_goals try (exact hT)
      all_goals (have hx := hh.symm.trans ‹s.tpc = _›; cases hx)
    obtain ⟨e1, e2, e3⟩ := other_thread ha hT
    obtain ⟨f1, f2, f3⟩ := ih (e1.trans hh) hr
    refine ⟨f1, f2.trans e2, fun k => ?_⟩
    rw [(f3 k).1, (f3 k).2]
    refine ⟨?_, ?_⟩
    · rcases starts_step k ha with e | ⟨_, p, u, rec, box, f1, _⟩
      · exact e.1
      · rw [hh] at f1; cases f1
    · rcases attempts_step k ha with e | ⟨rfl, _⟩
      · exact e
      · exact absurd trivial hT

/-- **C17**: from the moment the stop is processed the scheduler completes at most the tick it is in; all
later starts belong to that tick, and there is none if the tick had not begun. -/
theorem C17_last_tick {env : Env} {ls : List Label} {s s' : St} (hm : s.motivation = false)
    (hr : run env s ls = some s') :
    s'.motivation = false ∧ s'.ticks ≤ s.ticks + 1 ∧
      ∀ k, ∃ ds, startTicks k s'.log = startTicks k s.log ++ ds ∧ (∀ n ∈ ds, n = s.ticks) ∧
        (s.tpc = .head → ds = []) := by
  suffices h : ∀ (ls : List Label) (s1 : St), s1.motivation = false →
      (s1.ticks = s.ticks ∨ s1.ticks = s.ticks + 1 ∧ (s1.tpc = .head ∨ s1.tpc = .halted)) →
      (s.tpc = .head → s1.tpc = .head ∨ s1.tpc = .halted) → run env s1 ls = some s' →
      s'.motivation = false ∧ s'.ticks ≤ s.ticks + 1 ∧
      ∀ k, ∃ ds, startTicks k s'.log = startTicks k s1.log ++ ds ∧ (∀ n ∈ ds, n = s.ticks) ∧
        (s.tpc = .head → ds = []) from h ls s hm (Or.inl rfl) Or.inl hr
  clear hr hm
  intro ls
  induction ls with
  | nil =>
    intro s1 h1 h2 h3 hr
    cases hr
    exact ⟨h1, by omega, fun k => ⟨[], by simp, by simp, by simp⟩⟩
  | cons l ls ih =>
    intro s1 h1 h2 h3 hr
    simp only [run] at hr
    split at hr
    rotate_left
    · cases hr
    rename_i s2 hs2
    have ha := step_act hs2
    have hm2 : s2.motivation = false := by
      cases ha
      all_goals first | exact h1 | rfl | (simpa using h1)
    have hhead : (s1.tpc = .head ∨ s1.tpc = .halted) → (s2.tpc = .head ∨ s2.tpc = .halted) ∧ s2.ticks = s1.ticks := by
      intro hx
      by_cases hT : TLabel l
      · cases ha
        all_goals try (exact False.elim hT)
        all_goals try (exact ⟨Or.inr rfl, rfl⟩)
        all_goals try (
          have hz := ‹s1.tpc = _›
          rcases hx with hx | hx <;> (have hy := hx.symm.trans hz; cases hy)
          done)
        case load_go h hm => rw [h1] at hm; cases hm
      · obtain ⟨e1, e2, _⟩ := other_thread ha hT
        rw [e1, e2]; exact ⟨hx, rfl⟩
    have ht2 : s2.ticks = s.ticks ∨ s2.ticks = s.ticks + 1 ∧ (s2.tpc = .head ∨ s2.tpc = .halted) := by
      rcases h2 with h2 | ⟨h2, h4⟩
      · by_cases hT : TLabel l
        · cases ha
          all_goals try (exact False.elim hT)
          all_goals try (exact Or.inl h2)
          exact Or.inr ⟨congrArg (· + 1) h2, Or.inl rfl⟩
        · exact Or.inl ((other_thread ha hT).2.1.trans h2)
      · obtain ⟨h5, h6⟩ := hhead h4
        exact Or.inr ⟨h6.trans h2, h5⟩
    obtain ⟨f1, f2, f3⟩ := ih s2 hm2 ht2 (fun h => (hhead (h3 h)).1) hr
    refine ⟨f1, f2, fun k => ?_⟩
    obtain ⟨ds, g1, g2, g3⟩ := f3 k
    rcases starts_step k ha with e | ⟨_, p, u, rec, box, e1, _, rfl, e2⟩
    · exact ⟨ds, by rw [g1, e.1], g2, g3⟩
    · have hno : ¬ (s1.tpc = .head ∨ s1.tpc = .halted) := by rw [e1]; simp
      have hT : s1.ticks = s.ticks := by
        rcases h2 with h2 | h2
        · exact h2
        · exact absurd h2.2 hno
      refine ⟨s1.ticks :: ds, by rw [g1, e2]; simp [startTicks], ?_, fun h => absurd (h3 h) hno⟩
      intro n hn
      rcases List.mem_cons.1 hn with rfl | hn
      · exact hT
      · exact g2 n hn

/-- **C17**: nothing but the scheduler itself takes notice of its being halted: every action of the event
thread, of running bodies, of the sweeper and of API callers does exactly what it would do next to a
running scheduler. In particular ends, cancellations and time-outs are processed and reported as ever. -/
theorem C17_unaffected (env : Env) (s : St) (p : TPC) {l : Label} (hl : ¬ TLabel l) :
    step env { s with tpc := p } l = (step env s l).map (fun s' => { s' with tpc := p }) :=
  step_with_tpc env s p hl

/-- A closed gate belongs to the run that the scheduler is just starting. -/
theorem gates {env : Env} {s : St} (hr : Reachable env s) :
    ∀ rec r, s.rt rec = some r → r.gate = false →
      (∃ p t box, s.tpc = .append p t box ∧ box.recordId = rec) ∨ ∃ p t, s.tpc = .gate p t rec := by
  refine Reachable.induct (fun s => ∀ rec r, s.rt rec = some r → r.gate = false →
      (∃ p t box, s.tpc = .append p t box ∧ box.recordId = rec) ∨ ∃ p t, s.tpc = .gate p t rec)
    (by intro rec r h; cases h) (fun s l s' _ hs h => ?_) s hr
  intro rec r h1 h2
  have key : s'.rt = s.rt → s'.tpc = s.tpc ∨ (∀ p t box, s.tpc ≠ .append p t box) ∧ (∀ p t r, s.tpc ≠ .gate p t r) →
      (∃ p t box, s'.tpc = .append p t box ∧ box.recordId = rec) ∨ ∃ p t, s'.tpc = .gate p t rec := by
    intro e1 e2
    rw [e1] at h1
    rcases e2 with e2 | ⟨e2, e3⟩
    · rw [e2]; exact hs rec r h1 h2
    · rcases hs rec r h1 h2 with ⟨p, t, box, h3, _⟩ | ⟨p, t, h3⟩
      · exact absurd h3 (e2 _ _ _)
      · exact absurd h3 (e3 _ _ _)
  have key2 : ∀ x, s'.rt = setI s.rt x ((s.rt x).map (fun r => { r with gate := true })) →
      (∃ p t, s.tpc = .gate p t x) → False := by
    rintro x e1 ⟨p, t, e2⟩
    rw [e1, setI_apply] at h1
    split at h1
    · rename_i hx
      cases h3 : s.rt x with
      | none => rw [h3] at h1; cases h1
      | some r0 => rw [h3] at h1; cases h1; cases h2
    · rename_i hx
      rcases hs rec r h1 h2 with ⟨p', t', box, h3, _⟩ | ⟨p', t', h3⟩
      · rw [e2] at h3; cases h3
      · rw [e2] at h3; cases h3; exact hx rfl
  cases h
  all_goals try (exact key rfl (Or.inl rfl))
  all_goals try (refine key rfl (Or.inr ?_); rw [‹s.tpc = _›]; simp; done)
  all_goals try (refine key ?_ (Or.inl ?_) <;> simp; done)
  case spawn p t x h =>
    change setI s.rt x _ rec = _ at h1
    rw [setI_apply] at h1
    split at h1
    · rename_i hx
      exact Or.inl ⟨_, _, _, rfl, hx.symm⟩
    · rcases hs rec r h1 h2 with ⟨p', t', box, h3, _⟩ | ⟨p', t', h3⟩ <;> (rw [h] at h3; cases h3)
  case append p t box h =>
    rcases hs rec r h1 h2 with ⟨p', t', box', h3, h4⟩ | ⟨p', t', h3⟩
    · rw [h] at h3; cases h3
      exact Or.inr ⟨_, _, by rw [← h4]⟩
    · rw [h] at h3; cases h3
  case gate_panic p t x h hd => exact (key2 x rfl ⟨_, _, h⟩).elim
  case gate_again p t t' x h hd => exact (key2 x rfl ⟨_, _, h⟩).elim
  case gate_last p t t' x h hd => exact (key2 x rfl ⟨_, _, h⟩).elim
  case body x r' hx hb hl =>
    change setI s.rt x _ rec = _ at h1
    rw [setI_apply] at h1
    split at h1
    · rename_i he
      cases h1
      rw [he]
      exact hs x r' hx h2
    · exact hs rec r h1 h2
  case panic_caught x r' hx hb hl hc =>
    change setI s.rt x _ rec = _ at h1
    rw [setI_apply] at h1
    split at h1
    · rename_i he
      cases h1
      rw [he]
      exact hs x r' hx h2
    · exact hs rec r h1 h2
  case panic_lost x r' hx hb hl hc =>
    change setI s.rt x _ rec = _ at h1
    rw [setI_apply] at h1
    split at h1
    · rename_i he
      cases h1
      rw [he]
      exact hs x r' hx h2
    · exact hs rec r h1 h2
  case finish x now r' hx hb hg hf =>
    change setI s.rt x _ rec = _ at h1
    rw [setI_apply] at h1
    split at h1
    · cases h1
      rw [hg] at h2; cases h2
    · exact hs rec r h1 h2

/-- **C17**: when the scheduler has halted, every run whose future has got past its body can report its completion,
if it has not done so already, and the event thread gets to process it. -/
theorem C17_completes {env : Env} {pre : List Label} {s : St} (hrun : run env (init env) pre = some s)
    (hadd : Addable env pre) (hh : s.tpc = .halted) {rec : Int} {r : RtInst}
    (hrt : s.rt rec = some r) (hb : r.bodyDone = true) (hf : r.finishSent = false) (now : Nat) :
    ∃ s1 ls s', step env s (.rFinish rec now) = some s1 ∧ (∀ l ∈ ls, l = .eRecv ∨ l = .eNext) ∧
      run env s1 ls = some s' ∧ .finish r.taskId rec ∈ dispatchedTags s'.log := by
  have hr : Reachable env s := ⟨_, hrun⟩
  have hg : r.gate = true := by
    cases hg : r.gate with
    | true => rfl
    | false =>
      rcases gates hr rec r hrt hg with ⟨_, _, _, h, _⟩ | ⟨_, _, h⟩ <;> (rw [hh] at h; cases h)
  have h1 : step env s (.rFinish rec now) = some
      { push s (.finishTask { taskId := r.taskId, recordId := rec, finishTime := now }) with
        rt := setI s.rt rec (some { r with finishSent := true }) } := by
    simp [step, rFinish, hrt, hb, hg, hf]
  obtain ⟨ls, s', h2, h3, h4⟩ := drains (hr.step h1) (adds_step (adds_of_added hrun hadd) rfl (step_act h1))
  refine ⟨_, ls, s', h1, h2, h3, ?_⟩
  rw [h4]
  simp [push, queuedTags, TimerEvent.tag]

/-! ## Examples and counterexamples -/

namespace Ex

/-- A check in every state of an execution. -/
def always (env : Env) (f : St → Bool) : St → List Label → Bool
  | s, [] => f s
  | s, l :: ls => f s && match step env s l with
    | some s' => always env f s' ls
    | none => true

theorem throughout_of {env : Env} {f : St → Bool} {P : St → Prop} (hf : ∀ s, f s = true → P s) :
    ∀ (ls : List Label) (s : St), always env f s ls = true → Throughout env s ls P := by
  intro ls
  induction ls with
  | nil =>
    intro s h l1 l2 s' e hr
    obtain ⟨rfl, rfl⟩ := List.append_eq_nil_iff.1 e.symm
    cases hr; exact hf _ h
  | cons l ls ih =>
    intro s h l1 l2 s' e hr
    simp only [always, Bool.and_eq_true] at h
    cases l1 with
    | nil => cases hr; exact hf _ h.1
    | cons a l1 =>
      simp only [List.cons_append, List.cons.injEq] at e
      obtain ⟨rfl, rfl⟩ := e
      simp only [run] at hr
      split at hr
      · rename_i s1 h1
        rw [h1] at h
        exact ih s1 h.2 l1 l2 s' rfl hr
      · cases hr

def inHand (k : Nat) : TPC → Bool
  | .batch p => p.contains k
  | .check p t => t.taskId == k || p.contains k
  | .spawn p t _ => t.taskId == k || p.contains k
  | .append p t _ => t.taskId == k || p.contains k
  | .gate p t _ => t.taskId == k || p.contains k
  | .rearm p t _ => t.taskId == k || p.contains k
  | .mark p id _ _ => id == k || p.contains k
  | _ => false

def calm (k : Nat) (s : St) : Bool :=
  !inHand k s.tpc ||
    match s.epc, s.chan with
    | .idle, .removeTask id :: _ => id != k
    | .add3 _ m, _ => m.taskId != k
    | _, _ => true

theorem calm_of {k : Nat} (s : St) (h : calm k s = true) : Calm k s := by
  intro hi
  have h1 : inHand k s.tpc = true := by
    rcases hi with hi | ⟨q, i, u, hi⟩
    · revert hi; cases s.tpc <;> simp +contextual [Handling, inHand]
    · simp [hi, inHand]
  simp only [calm, h1, Bool.not_true, Bool.false_or] at h
  refine ⟨?_, ?_⟩
  · rintro ⟨h2, h3⟩
    cases hc : s.chan with
    | nil => rw [hc] at h3; cases h3
    | cons e rest =>
      rw [hc] at h3; cases h3
      simp [h2, hc] at h
  · intro tag m h2 hk
    simp [h2, hk] at h

/-- The call neither brings nor advances `k`. -/
def tame (k : Nat) : Label → Bool
  | .uSend (.add t) => t.taskId != k
  | .uSend (.update t) => t.taskId != k
  | .uSend (.advance id) => id != k
  | .uInsert t => t.taskId != k
  | _ => true

theorem tame_of {k : Nat} {l : Label} (h : tame k l = true) : ¬ Brings k l ∧ l ≠ .uSend (.advance k) := by
  cases l <;> try (exact ⟨id, by simp⟩)
  · rename_i op; cases op <;> simp_all [tame, Brings]
  · simp_all [tame, Brings]

theorem plain_init (env : Env) (t : Task) (op : Label) (hop : op = .uSend (.add t) ∨ op = .uInsert t)
    {ls : List Label} (h : ls.all (tame t.taskId) = true) :
    WheneverCalled env (init env) (op :: ls) (PlainCall t.taskId) := by
  intro ls1 l ls2 s' e hr
  cases ls1 with
  | nil =>
    cases hr
    simp only [List.nil_append, List.cons.injEq] at e
    obtain ⟨rfl, rfl⟩ := e
    refine ⟨fun _ => ⟨(Unborn.init env _).absent, by simp [init], by simp [init, Adding]⟩, ?_, ?_⟩
    · rintro u rfl; rcases hop with hop | hop <;> cases hop
    · rintro rfl; rcases hop with hop | hop <;> cases hop
  | cons a ls1 =>
    simp only [List.cons_append, List.cons.injEq] at e
    obtain ⟨rfl, rfl⟩ := e
    obtain ⟨h1, h2⟩ := tame_of (List.all_eq_true.1 h l (by simp))
    refine ⟨fun ha => ?_, ?_, h2⟩
    · exfalso
      apply h1
      cases l <;> try (exact ha)
      rename_i op'
      cases op' <;> try (exact ha)
      exact ha.elim
    · rintro u rfl; exact h1

/-- Task 1 is added, runs twice, and its removal is called. -/
def used : List Label :=
  add (every 1 101 5) ++ idles 2 ++ fire 1 1 ++ idles 4 ++ fire 1 2 ++ [.eRecv, .eRecv, .uSend (.remove 1)]

example : ∃ s, run env0 (init env0) used = some s ∧ Throughout env0 (init env0) used (Calm 1) ∧
    WheneverCalled env0 (init env0) used (PlainCall 1) ∧ s.epc = .idle ∧ s.chan = [.removeTask 1] ∧
    startTicks 1 s.log = [2, 7] := by
  refine ⟨_, play_run (by rfl), throughout_of calm_of _ _ (by decide +kernel), ?_, rfl, rfl, by decide +kernel⟩
  exact plain_init env0 (every 1 101 5) _ (Or.inl rfl) (by decide +kernel)

/-- The hypotheses of `C12_partial` are met in that execution, and the task is scheduled up to then. -/
example : ∃ s s1, Reachable env0 s ∧ s.chan = .removeTask 1 :: [] ∧ RecordAccurate 1 s ∧
    ¬ Handling 1 s.tpc ∧ step env0 s .eRecv = some s1 ∧ Waiting 1 s := by
  refine ⟨play env0 used, (step env0 (play env0 used) .eRecv).getD (init env0), play_reachable (by rfl), rfl,
    ?_, ?_, by rfl, ⟨12, _, _, by rfl, List.mem_cons_self, by rfl⟩⟩
  · refine (C18_record_partial (play_run (by rfl)) (throughout_of calm_of _ _ (by decide +kernel))
      (plain_init env0 (every 1 101 5) _ (Or.inl rfl) (by decide +kernel))).2 ?_ ?_
    · change ¬ InHand 1 (play env0 used).tpc
      rw [show (play env0 used).tpc = .head by rfl]
      rintro (h | ⟨_, _, _, h⟩)
      · exact h
      · cases h
    · intro tag m h; cases h
  · rw [show (play env0 used).tpc = .head by rfl]; exact id

/-- **C18** fails for an id that is added while it is scheduled. -/
theorem C18_fails_twice : ∃ s, Reachable env0 s ∧ ¬ AtMostOnce 1 s := by
  refine ⟨play env0 (add (every 1 103 5) ++ add (every 1 107 5)), play_reachable (by rfl), ?_⟩
  intro h
  have := h.1 4 _ _ 8 _ _ (by rfl) List.mem_cons_self (by rfl) (by rfl) List.mem_cons_self (by rfl)
  exact absurd this.1 (by decide)

/-- Task 1 is added and advanced. -/
def advanced : List Label := add (every 1 120 50) ++ [.uSend (.advance 1), .eRecv, .eNext, .eNext]

/-- **C18** fails for an advanced task: it waits in slot 1, the record says slot 21. -/
theorem C18_fails_advanced : ∃ s, Reachable env0 s ∧ s.epc = .idle ∧ s.tpc = .head ∧ ¬ RecordAccurate 1 s := by
  refine ⟨play env0 advanced, play_reachable (by rfl), rfl, rfl, ?_⟩
  intro h
  obtain ⟨m, h1, h2⟩ := h 1 _ _ (by rfl) List.mem_cons_self (by rfl)
  have h3 : ((play env0 advanced).flags 1).map (·.slotMark) = some 21 := by rfl
  rw [h1, Option.map_some, h2] at h3
  cases h3

/-- Task 1 is added, but is run for the first time before its mark is recorded. -/
def encounter : List Label :=
  [.uSend (.add (every 1 101 5)), .eRecv, .eNext, .eNext] ++ idles 2 ++ fire 1 1 ++ [.eNext, .eRecv]

/-- **C18** fails when the scheduler gets to run a task before the event thread has recorded it: one
`add_task` and nothing else has been called, and the record is wrong. -/
theorem C18_fails_encounter : ∃ s, Reachable env0 s ∧ s.epc = .idle ∧ s.tpc = .head ∧ s.chan = [] ∧
    ¬ RecordAccurate 1 s := by
  refine ⟨play env0 encounter, play_reachable (by rfl), rfl, rfl, rfl, ?_⟩
  intro h
  obtain ⟨m, h1, h2⟩ := h 7 _ _ (by rfl) List.mem_cons_self (by rfl)
  have h3 : ((play env0 encounter).flags 1).map (·.slotMark) = some 2 := by rfl
  rw [h1, Option.map_some, h2] at h3
  cases h3

/-- The calls made in an execution. -/
def calls (ls : List Label) : List UserOp :=
  ls.filterMap fun l => match l with
    | .uSend op => some op
    | _ => none

/-- After the calls `ops` and then `remove_task(k)` there is a state `s` in which the removal has just been
processed; nothing is called on `k` any more, and still `k` is started later. -/
def StartsAfterRemoval (env : Env) (ops : List UserOp) (k : Nat) : Prop :=
  ∃ ls s ls' s', run env (init env) ls = some s ∧ calls ls = ops ++ [.remove k] ∧ s.log.head? = some (.dispatched (.remove k) (some true)) ∧
    s.epc = .idle ∧ s.chan = [] ∧ (∀ l ∈ ls', ¬ Touches k l) ∧ run env s ls' = some s' ∧
    startTicks k s'.log ≠ startTicks k s.log

/-- **C12** fails for a task that the scheduler is just running: it is put back into the wheel after the
removal. -/
theorem C12_fails_in_hand : StartsAfterRemoval env0 [.add (every 1 101 5)] 1 := by
  refine ⟨add (every 1 101 5) ++ idles 2 ++ pop 1 1 ++ [.eRecv, .uSend (.remove 1), .eRecv, .eNext], _,
    [.tSlot, .tMark, .tLapse] ++ idles 4 ++ fire 1 2, play env0 (add (every 1 101 5) ++ idles 2 ++ pop 1 1 ++
      [.eRecv, .uSend (.remove 1), .eRecv, .eNext] ++ ([.tSlot, .tMark, .tLapse] ++ idles 4 ++ fire 1 2)),
    play_run (by rfl), rfl, rfl, rfl, rfl, ?_, ?_, ?_⟩
  · have : ([.tSlot, .tMark, .tLapse] ++ idles 4 ++ fire 1 2 : List Label).all (fun l => decide (¬ Touches 1 l)) = true := by
      decide +kernel
    intro l hl
    exact of_decide_eq_true (List.all_eq_true.1 this l hl)
  · rfl
  · decide +kernel

/-- **C12** fails for a task that has been advanced: the removal looks for it in the wrong slot. -/
theorem C12_fails_advanced : StartsAfterRemoval env0 [.add (every 1 120 50), .advance 1] 1 := by
  refine ⟨advanced ++ [.uSend (.remove 1), .eRecv, .eNext], _,
    idles 1 ++ fire 1 1, play env0 (advanced ++ [.uSend (.remove 1), .eRecv, .eNext] ++ (idles 1 ++ fire 1 1)),
    play_run (by rfl), rfl, rfl, rfl, rfl, ?_, ?_, ?_⟩
  · have : (idles 1 ++ fire 1 1 : List Label).all (fun l => decide (¬ Touches 1 l)) = true := by
      decide +kernel
    intro l hl
    exact of_decide_eq_true (List.all_eq_true.1 this l hl)
  · rfl
  · decide +kernel

/-- **C12** fails for an id that has been added twice: only one copy is removed. -/
theorem C12_fails_twice :
    StartsAfterRemoval env0 [.add (every 1 103 5), .add (every 1 107 5)] 1 := by
  refine ⟨add (every 1 103 5) ++ add (every 1 107 5) ++ [.uSend (.remove 1), .eRecv, .eNext], _,
    idles 4 ++ fire 1 1, play env0 (add (every 1 103 5) ++ add (every 1 107 5) ++
      [.uSend (.remove 1), .eRecv, .eNext] ++ (idles 4 ++ fire 1 1)),
    play_run (by rfl), rfl, rfl, rfl, rfl, ?_, ?_, ?_⟩
  · have : (idles 4 ++ fire 1 1 : List Label).all (fun l => decide (¬ Touches 1 l)) = true := by
      decide +kernel
    intro l hl
    exact of_decide_eq_true (List.all_eq_true.1 this l hl)
  · rfl
  · decide +kernel

/-- C13: calls on the unknown id 7 while task 1 is scheduled. -/
def strangers : List Label :=
  add (every 1 101 5) ++ [.uSend (.update (every 7 103 1)), .uSend (.advance 7), .uSend (.cancel 7 3), .uSend (.remove 7)]

example : ∃ s, Reachable env0 s ∧ s.epc = .idle ∧ s.flags 7 = none ∧
    s.chan = [.updateTask (every 7 103 1), .advanceTask 7, .cancelTask 7 3, .removeTask 7] ∧
    (∀ b ∈ s.trace 7, b.recordId ≠ 3) :=
  ⟨play env0 strangers, play_reachable (by rfl), rfl, rfl, rfl, by intro b hb; cases hb⟩

example : (strangers.all fun l => decide (¬ Adds 7 l)) = true := by decide +kernel

/-- C17: task 1 is running when the timer is stopped; the scheduler has halted. -/
def stopped : List Label :=
  add (every 1 101 5) ++ idles 2 ++ fire 1 1 ++ [.eRecv, .uSend .stop, .eRecv, .tLoad, .rBody 1]

example : ∃ s r, Reachable env0 s ∧ s.tpc = .halted ∧ s.motivation = false ∧ s.rt 1 = some r ∧
    r.bodyDone = true ∧ r.finishSent = false :=
  ⟨play env0 stopped, _, play_reachable (by rfl), rfl, rfl, rfl, rfl, rfl⟩

/-- C17: the stop is processed in the middle of a tick in which task 1 is still to be run; it is run. -/
example : ∃ s s', Reachable env0 s ∧ s.motivation = false ∧
    run env0 s [.tPop 1, .tCheck 1, .tSpawn false, .tAppend, .tGate, .tSlot, .tMark, .tLapse, .tLoad] = some s' ∧
    s'.tpc = .halted ∧ startTicks 1 s'.log = [2] := by
  refine ⟨play env0 (add (every 1 101 5) ++ idles 2 ++ [.tLoad, .tStore, .tArrive, .uSend .stop, .eRecv]), _,
    play_reachable (by rfl), rfl, rfl, rfl, by decide +kernel⟩

end Ex

end DelayTimer
