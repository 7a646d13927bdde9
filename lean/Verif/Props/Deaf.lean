import Verif.Props.Cancel

/-!
# C64: what ends the event thread

The thread that processes the events ends only on a task whose first alarm does not fit 64 bits; then no later event is
ever processed.
-/

namespace DelayTimer
open Spec

/-- The event thread has panicked on the first alarm of the task that it was adding. -/
def EStuck (env : Env) (s : St) : Prop := env.overflowChecks = true ∧ ∃ t c h, s.epc = .add1 t c h ∧ ¬ AlarmsFit 1 t

theorem stuck_step {env : Env} {s s' : St} {l : Label} (h : EStuck env s) (hs : step env s l = some s') :
    s'.epc = s.epc ∧ dispatchedTags s'.log = dispatchedTags s.log := by
  obtain ⟨ho, t, c, hand, he, hf⟩ := h
  have hx : step env s .eNext = none := by
    have : t.alarmOverflows = true := by
      cases hv : t.alarmOverflows with
      | true => rfl
      | false => exact absurd (alarmOverflows_iff.1 hv) hf
    simp [step, eNext, he, ho, this]
  have ha := step_act hs
  cases ha
  case next_add1_err => rw [hx] at hs; cases hs
  case next_add1 => rw [hx] at hs; cases hs
  all_goals try (exact ⟨rfl, rfl⟩)
  all_goals try (have hy := he.symm.trans ‹s.epc = _›; cases hy; done)
  all_goals (refine ⟨?_, ?_⟩ <;> simp [dispatchedTags, push, uInsert])

theorem stuck_forever {env : Env} : ∀ (ls : List Label) {s s' : St}, EStuck env s → run env s ls = some s' →
    EStuck env s' ∧ dispatchedTags s'.log = dispatchedTags s.log := by
  intro ls
  induction ls with
  | nil => intro s s' h hr; cases hr; exact ⟨h, rfl⟩
  | cons l ls ih =>
    intro s s' h hr
    simp only [run] at hr
    cases hs : step env s l with
    | none => rw [hs] at hr; cases hr
    | some s1 =>
      rw [hs] at hr
      obtain ⟨h1, h2⟩ := stuck_step h hs
      obtain ⟨h3, h4⟩ := ih ⟨h.1, by rw [h1]; exact h.2⟩ hr
      exact ⟨h3, h4.trans h2⟩

theorem deaf_of_stuck {env : Env} {s : St} (h : EStuck env s) : Deaf env s := by
  intro ls s' hr l hl
  obtain ⟨⟨ho, t, c, hand, he, hf⟩, _⟩ := stuck_forever ls h hr
  have : t.alarmOverflows = true := by
    cases hv : t.alarmOverflows with
    | true => rfl
    | false => exact absurd (alarmOverflows_iff.1 hv) hf
  cases l <;> first | (cases hl; done) | simp [step, eRecv, eNext, he, ho, this]

/-- **C64**: if the event thread will never do anything any more, then, in a build with overflow checks, a task was
added whose first alarm, or the second after it, does not fit 64 bits. -/
theorem C64_cause {env : Env} {ls : List Label} {s : St} (hr : run env (init env) ls = some s) (hd : Deaf env s) :
    env.overflowChecks = true ∧ ∃ t ∈ added ls, ¬ AlarmsFit 1 t := by
  refine Classical.byContradiction fun hn => ?_
  have hadd : Addable env ls := fun ho t ht =>
    Classical.byContradiction fun hf => hn ⟨ho, t, ht, hf⟩
  have h1 : step env s (.uSend .stop) = some (push s .stopTimer) := rfl
  have h2 := adds_step (adds_of_added hr hadd) (l := .uSend .stop) rfl (step_act h1)
  obtain ⟨l, s', hl, h3⟩ := event_enabled h2 (by simp [backlog, push]; omega)
  have := hd [.uSend .stop] (push s .stopTimer) (by simp only [run, h1]) l (by rcases hl with rfl | rfl <;> rfl)
  rw [this] at h3; cases h3

theorem queue_step {env : Env} {s s' : St} {l : Label} (h : Act env s l s') :
    (s'.chan = s.chan ∧ (queuedTags s'.log).length = (queuedTags s.log).length) ∨
      (∃ x, s'.chan = s.chan ++ [x] ∧ (queuedTags s'.log).length = (queuedTags s.log).length + 1) ∨
      ∃ x, l = .eRecv ∧ s.chan = x :: s'.chan ∧ (queuedTags s'.log).length = (queuedTags s.log).length := by
  cases h
  all_goals try (exact Or.inl ⟨rfl, rfl⟩)
  all_goals try (refine Or.inl ⟨?_, ?_⟩ <;> simp [queuedTags] <;> done)
  case recv_cancel id rec rest he hc =>
    refine Or.inr (Or.inr ⟨_, rfl, hc.trans (by simp; rfl), ?_⟩)
    rcases cancelTask_log env true { s with chan := rest } id rec CANCELLED with h | h | ⟨_, _, h⟩ <;> simp [h, queuedTags]
  case recv_timeout id rec rest he hc =>
    refine Or.inr (Or.inr ⟨_, rfl, hc.trans (by simp; rfl), ?_⟩)
    rcases cancelTask_log env false { s with chan := rest } id rec TIMEOUT with h | h | ⟨_, _, h⟩ <;> simp [h, queuedTags]
  case recv_finish b rest he hc =>
    refine Or.inr (Or.inr ⟨_, rfl, hc.trans (by simp; rfl), ?_⟩)
    rcases finishTask_log env { s with chan := rest } b.taskId b.recordId with h | h | ⟨_, _, h⟩ <;> simp [h, queuedTags]
  case recv_append id box rest he hc => exact Or.inr (Or.inr ⟨_, rfl, hc.trans (by simp; rfl), by simp [queuedTags]⟩)
  all_goals try (refine Or.inr (Or.inr ⟨_, rfl, ‹s.chan = _›, ?_⟩); simp [queuedTags]; done)
  all_goals (refine Or.inr (Or.inl ⟨_, rfl, ?_⟩); simp [queuedTags, push, uInsert])

/-- The events accepted before the one that adds `t` are those up to the `N`-th, and it has not been processed. -/
def Jam (t : Task) (N : Nat) (s : St) : Prop :=
  (∃ a b e, s.chan = a ++ e :: b ∧ (e = .addTask t ∨ ∃ c, e = .insertTask t c) ∧
      (queuedTags s.log).length = N + 1 + b.length) ∨
    ∃ c h, s.epc = .add1 t c h ∧ (dispatchedTags s.log).length = N

theorem jam_step {env : Env} {t : Task} {N : Nat} {s s' : St} {l : Label} (ho : env.overflowChecks = true)
    (hf : ¬ AlarmsFit 1 t) (hfifo : Fifo s) (h : Jam t N s) (hs : step env s l = some s') : Jam t N s' := by
  rcases h with ⟨a, b, e, h1, h2, h3⟩ | ⟨c, hand, h1, h2⟩
  · rcases queue_step (step_act hs) with ⟨h4, h5⟩ | ⟨x, h4, h5⟩ | ⟨x, rfl, h4, h5⟩
    · exact Or.inl ⟨a, b, e, by rw [h4, h1], h2, by omega⟩
    · exact Or.inl ⟨a, b ++ [x], e, by rw [h4, h1]; simp, h2, by simp; omega⟩
    · cases a with
      | cons y a =>
        rw [h1] at h4
        simp only [List.cons_append, List.cons.injEq] at h4
        exact Or.inl ⟨a, b, e, h4.2.symm, h2, by omega⟩
      | nil =>
        rw [h1] at h4
        simp only [List.nil_append, List.cons.injEq] at h4
        have hidle : s.epc = .idle := by
          simp only [step, eRecv] at hs
          cases he : s.epc <;> rw [he] at hs <;> first | rfl | (simp at hs)
        unfold Fifo at hfifo
        rw [hidle, h1] at hfifo
        have hlen := congrArg List.length hfifo
        simp [epcTags] at hlen
        right
        simp only [step, eRecv, hidle, h1, List.nil_append] at hs
        rcases h2 with rfl | ⟨c, rfl⟩
        · cases hs
          exact ⟨_, _, rfl, by dsimp only; omega⟩
        · cases hs
          exact ⟨_, _, rfl, by dsimp only; omega⟩
  · obtain ⟨h3, h4⟩ := stuck_step ⟨ho, t, c, hand, h1, hf⟩ hs
    exact Or.inr ⟨c, hand, h3.trans h1, by rw [h4]; exact h2⟩

/-- **C64**: and that does end it. Of the events accepted after the addition of such a task, none is ever processed,
nor is the addition itself. -/
theorem C64_ends {env : Env} {pre post : List Label} {l : Label} {t : Task} {s0 s : St} (ho : env.overflowChecks = true)
    (hl : addedBy l = [t]) (hf : ¬ AlarmsFit 1 t) (h0 : run env (init env) pre = some s0)
    (hr : run env s0 (l :: post) = some s) : dispatchedTags s.log <+: queuedTags s0.log := by
  obtain ⟨s1, h1, h2⟩ : ∃ s1, step env s0 l = some s1 ∧ run env s1 post = some s := by
    simp only [run] at hr
    cases hs : step env s0 l with
    | none => rw [hs] at hr; cases hr
    | some s1 => rw [hs] at hr; exact ⟨s1, rfl, hr⟩
  have hreach : Reachable env s0 := ⟨_, h0⟩
  have hq : ∃ tag, queuedTags s1.log = queuedTags s0.log ++ [tag] := by
    cases l <;> simp only [addedBy] at hl <;> try (cases hl; done)
    · rename_i op
      cases h1
      exact ⟨_, by simp [queuedTags, push]; rfl⟩
    · cases h1
      exact ⟨_, by simp [queuedTags, uInsert, push]; rfl⟩
  have hj : Jam t (queuedTags s0.log).length s1 := by
    refine Or.inl ?_
    cases l <;> simp only [addedBy] at hl <;> try (cases hl; done)
    · rename_i op
      cases op <;> cases hl
      cases h1
      exact ⟨s0.chan, [], _, rfl, Or.inl rfl, by simp [queuedTags, push]⟩
    · cases hl
      cases h1
      exact ⟨s0.chan, [], _, rfl, Or.inr ⟨_, rfl⟩, by simp [queuedTags, uInsert, push]⟩
  have hgo : ∀ (ls : List Label) (s1 s : St), Reachable env s1 → Jam t (queuedTags s0.log).length s1 →
      run env s1 ls = some s → Jam t (queuedTags s0.log).length s ∧ queuedTags s1.log <+: queuedTags s.log := by
    intro ls
    induction ls with
    | nil => intro s1 s _ hj hr; cases hr; exact ⟨hj, List.prefix_refl _⟩
    | cons l ls ih =>
      intro s1 s hx hj hr
      simp only [run] at hr
      cases hs : step env s1 l with
      | none => rw [hs] at hr; cases hr
      | some s2 =>
        rw [hs] at hr
        obtain ⟨a, b⟩ := ih s2 s (hx.step hs) (jam_step ho hf (fifo hx) hj hs) hr
        exact ⟨a, (queuedTags_step (step_act hs)).trans b⟩
  obtain ⟨h3, h4⟩ := hgo post s1 s (hreach.step h1) hj h2
  have hle : (dispatchedTags s.log).length ≤ (queuedTags s0.log).length := by
    have hlen := congrArg List.length (fifo ((hreach.step h1).run h2))
    simp only [List.length_append, List.length_map] at hlen
    rcases h3 with ⟨a, b, e, h5, _, h6⟩ | ⟨c, h, _, h5⟩
    · rw [h5] at hlen; simp at hlen; omega
    · omega
  have hpre : queuedTags s0.log <+: queuedTags s.log := by
    obtain ⟨tag, hq⟩ := hq
    exact List.IsPrefix.trans ⟨[tag], hq.symm⟩ h4
  exact List.prefix_of_prefix_length_le (C51_order ((hreach.step h1).run h2)).1 hpre hle

/-! ## Examples -/
namespace Ex

/-- A build with overflow checks. -/
def envStrict : Env := { env0 with overflowChecks := true }

/-- Task 1 is added, then a task with first alarm `a`; task 1 is removed after that. -/
def farLs (a : Nat) : List Label :=
  add (every 1 105 5) ++ [.uSend (.add (every 2 a 5)), .uSend (.remove 1), .eRecv]

/-- The addition of task 2 and everything after it is never processed; task 1 cannot even be removed any more. -/
example : ∃ s, run envStrict (init envStrict) (farLs U64_MAX) = some s ∧ Deaf envStrict s ∧
    queuedTags s.log = [.add 1, .add 2, .remove 1] ∧ dispatchedTags s.log = [.add 1] :=
  ⟨_, rfl, deaf_of_stuck ⟨rfl, _, _, _, rfl, fun hf => absurd (hf 0 (by decide) _ rfl) (by decide +kernel)⟩, rfl, rfl⟩

/-- The hypotheses of `C64_ends`. -/
example : ∃ s0 s, run envStrict (init envStrict) (add (every 1 105 5)) = some s0 ∧
    run envStrict s0 (.uSend (.add (every 2 U64_MAX 5)) :: [.uSend (.remove 1), .eRecv] ++ idles 3) = some s ∧
    addedBy (.uSend (.add (every 2 U64_MAX 5))) = [every 2 U64_MAX 5] ∧ ¬ AlarmsFit 1 (every 2 U64_MAX 5) :=
  ⟨_, _, rfl, rfl, rfl, fun hf => absurd (hf 0 (by decide) _ rfl) (by decide +kernel)⟩

/-- One second earlier all is well. -/
example : ∃ s s', run envStrict (init envStrict) (farLs (U64_MAX - 1)) = some s ∧ Addable envStrict (farLs (U64_MAX - 1)) ∧
    run envStrict s [.eNext, .eNext, .eNext, .eRecv, .eNext] = some s' ∧
    dispatchedTags s'.log = [.add 1, .add 2, .remove 1] := by
  refine ⟨_, _, rfl, fun _ t ht => ?_, rfl, rfl⟩
  have h : added (farLs (U64_MAX - 1)) = [every 1 105 5, every 2 (U64_MAX - 1) 5] := rfl
  rw [h] at ht
  intro j hj a ha
  obtain rfl : j = 0 := by omega
  rcases List.mem_cons.1 ht with rfl | ht
  · simp [plainAlarm, every, SecondsState.new] at ha; omega
  · cases List.mem_singleton.1 ht
    simp [plainAlarm, every, SecondsState.new, U64_MAX] at ha; omega

end Ex

/-- C51 is violated in a build with overflow checks: after the addition of a task with the first alarm `u64::MAX` there
is an event that was accepted and is never dispatched. -/
theorem C51_fails_alarm : ∃ s, run Ex.envStrict (init Ex.envStrict) (Ex.farLs U64_MAX) = some s ∧
    .remove 1 ∈ queuedTags s.log ∧
    ∀ ls s', run Ex.envStrict s ls = some s' → .remove 1 ∉ dispatchedTags s'.log := by
  refine ⟨_, rfl, by decide +kernel, fun ls s' h => ?_⟩
  rw [(stuck_forever ls ⟨rfl, _, _, _, rfl, fun hf => absurd (hf 0 (by decide) _ rfl) (by decide +kernel)⟩ h).2]
  decide +kernel

end DelayTimer
