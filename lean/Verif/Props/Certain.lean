import Verif.Spec.Certain
import Verif.Props.Ghost
import Verif.Props.Parallel

/-!
# With a limit on parallel runs a removal is certain (C93)

A removal that misses its task leaves a task without limit running for good (C81). A task with a limit is dropped by the
scheduler as soon as it looks for the count and finds no mark. So whatever the removal finds, at most the run that has
already passed the limit is still started.
-/

namespace DelayTimer
open Spec

/-- Nobody has a record of `k`, and all copies have a limit. -/
structure Winding (k : Nat) (s : St) : Prop where
  forgotten : Forgotten k s
  unknown : s.flags k = none
  wheel : ∀ j u, inWheel s.wheel k j u → u.maximumParallelRunnableNum ≠ none
  hand : ∀ u ∈ tpcTok k s.tpc, u.maximumParallelRunnableNum ≠ none

theorem Winding.stalled {k : Nat} {s : St} (h : Winding k s) (ha : ¬ Admitted k s) : Stalled k s :=
  ⟨h.forgotten, h.unknown, h.wheel, h.hand, fun p t r h1 h2 => ha ⟨p, t, r, h1, h2⟩⟩

theorem winding_step {env : Env} {k : Nat} {s : St} {l : Label} {s' : St} (hs : Winding k s) (hl : ¬ Adds k l)
    (h : Act env s l s') : Winding k s' ∧ (Admitted k s' → s'.tpc = s.tpc ∧ s'.ticks = s.ticks) := by
  by_cases had : Admitted k s
  · obtain ⟨p, t, rec, hp, hk⟩ := had
    obtain ⟨h1, h2, h3, h4⟩ := hs
    have h1' := forgotten_step h1 hl h
    have h2' := unknown_step h1 h2 h
    have h3' : ∀ j u, inWheel s'.wheel k j u → u.maximumParallelRunnableNum ≠ none := by
      rcases forgotten_apart h1 h with ha | hi
      · exact kept_step ha (P := fun u => u.maximumParallelRunnableNum ≠ none) (fun _ _ h => h) (fun _ h => h) h3 h4 h
      · intro j u hj; exact h3 j u ((hi.wheel j u).1 hj)
    by_cases ht : TLabel l
    · have hx : (∀ u ∈ tpcTok k s'.tpc, u.maximumParallelRunnableNum ≠ none) ∧ ¬ Admitted k s' := by
        clear h1' h2' h3'
        cases h
        all_goals try (exact False.elim ht)
        all_goals try (rw [‹s.tpc = _›] at hp; cases hp; done)
        case spawn pending t rec h =>
          refine ⟨fun u hu => h4 u (by rw [h]; exact hu), ?_⟩
          rintro ⟨_, _, _, hx, _⟩; cases hx
        all_goals (refine ⟨fun u hu => (by cases hu), ?_⟩; rintro ⟨_, _, _, hx, _⟩; cases hx)
      exact ⟨⟨h1', h2', h3', hx.1⟩, fun h => absurd h hx.2⟩
    · obtain ⟨e1, e2, _⟩ := other_thread h ht
      exact ⟨⟨h1', h2', h3', by rw [e1]; exact h4⟩, fun _ => ⟨e1, e2⟩⟩
  · obtain ⟨g, _⟩ := stalled_step (hs.stalled had) hl h
    exact ⟨⟨g.forgotten, g.unknown, g.wheel, g.hand⟩, fun ⟨p, t, r, h1, h2⟩ => absurd h2 (g.idle p t r h1)⟩

theorem stalled_run {env : Env} {k : Nat} : ∀ (ls : List Label) {s s' : St}, Stalled k s → (∀ l ∈ ls, ¬ Adds k l) →
    run env s ls = some s' → startTicks k s'.log = startTicks k s.log := by
  intro ls
  induction ls with
  | nil => intro s s' _ _ h; cases h; rfl
  | cons l ls ih =>
    intro s s' hs hl h
    obtain ⟨s1, h1, h2⟩ := run_cons h
    obtain ⟨g1, g2⟩ := stalled_step hs (hl l List.mem_cons_self) (step_act h1)
    rw [ih g1 (fun l h => hl l (List.mem_cons_of_mem _ h)) h2, g2]

theorem winding_run {env : Env} {k : Nat} : ∀ (ls : List Label) {s s' : St}, Winding k s → (∀ l ∈ ls, ¬ Adds k l) →
    run env s ls = some s' → startTicks k s'.log = startTicks k s.log ∨
      Admitted k s ∧ startTicks k s'.log = startTicks k s.log ++ [s.ticks] := by
  intro ls
  induction ls with
  | nil => intro s s' _ _ h; cases h; exact Or.inl rfl
  | cons l ls ih =>
    intro s s' hs hl h
    obtain ⟨s1, h1, h2⟩ := run_cons h
    have ha := step_act h1
    obtain ⟨g1, g2⟩ := winding_step hs (hl l List.mem_cons_self) ha
    have hl' : ∀ l ∈ ls, ¬ Adds k l := fun l h => hl l (List.mem_cons_of_mem _ h)
    rcases starts_step k ha with ⟨e, _⟩ | ⟨rfl, p, t, rec, box, e1, e2, e3, e4⟩
    · rcases ih g1 hl' h2 with h3 | ⟨h3, h4⟩
      · exact Or.inl (h3.trans e)
      · obtain ⟨h5, h6⟩ := g2 h3
        refine Or.inr ⟨?_, by rw [h4, e, h6]⟩
        obtain ⟨p, t, r, h7, h8⟩ := h3
        exact ⟨p, t, r, h5 ▸ h7, h8⟩
    · refine Or.inr ⟨⟨p, t, rec, e1, e3⟩, ?_⟩
      have hst : Stalled k s1 := g1.stalled (by rintro ⟨_, _, _, hx, _⟩; rw [e2] at hx; cases hx)
      rw [stalled_run ls hst hl' h2, e4]
      simp [startTicks]

/-- A removal of `k`, the `N`th event, is on its way or has been carried out, and no addition comes after it. -/
def Struck (k N : Nat) (s : St) : Prop :=
  (∃ a b, s.chan = a ++ .removeTask k :: b ∧ (∀ e ∈ b, ¬ EventAdds k e) ∧ (queuedTags s.log).length = N + 1 + b.length) ∨
  ((∃ ok, s.epc = .remove k ok) ∧ (∀ e ∈ s.chan, ¬ EventAdds k e) ∧ (queuedTags s.log).length = N + 1 + s.chan.length) ∨
  Forgotten k s ∧ s.flags k = none

theorem not_adds_event {k : Nat} {s : St} {l : Label} {e : TimerEvent} (hl : ¬ Adds k l)
    (h : (∀ k, ¬ EventTouches k e) ∨ (∃ op, l = .uSend op ∧ e = op.event) ∨
       ∃ t, l = .uInsert t ∧ e = .insertTask t s.nextChain) : ¬ EventAdds k e := by
  rcases h with h | ⟨op, rfl, rfl⟩ | ⟨t, rfl, rfl⟩
  · intro hx; exact h k (by cases e <;> first | exact hx | exact False.elim hx)
  · cases op <;> exact hl
  · exact hl

theorem struck_step {env : Env} {k N : Nat} {s s' : St} {l : Label} (hs : Struck k N s) (hl : ¬ Adds k l)
    (h : Act env s l s') : Struck k N s' := by
  rcases hs with ⟨a, b, h1, h2, h3⟩ | ⟨⟨ok, h1⟩, h2, h3⟩ | ⟨h1, h2⟩
  · rcases chan_step h with ⟨_, h4 | ⟨e, h4, h5⟩⟩ | ⟨rfl, hi, e, h4⟩ | ⟨rfl, h4⟩
    · rcases queue_step h with ⟨_, h6⟩ | ⟨x, h6, _⟩ | ⟨x, _, h6, _⟩
      · exact Or.inl ⟨a, b, by rw [h4, h1], h2, by omega⟩
      · rw [h4] at h6; have := congrArg List.length h6; simp at this
      · rw [h4] at h6; have := congrArg List.length h6; simp at this
    · rcases queue_step h with ⟨h6, _⟩ | ⟨x, h6, h7⟩ | ⟨x, _, h6, _⟩
      · rw [h4] at h6; have := congrArg List.length h6; simp at this
      · refine Or.inl ⟨a, b ++ [e], by rw [h4, h1]; simp, fun y hy => ?_, by simp; omega⟩
        rcases List.mem_append.1 hy with hy | hy
        · exact h2 y hy
        · rw [List.mem_singleton.1 hy]; exact not_adds_event hl h5
      · rw [h4] at h6; have := congrArg List.length h6; simp at this; omega
    · have h7 : (queuedTags s'.log).length = (queuedTags s.log).length := by
        rcases queue_step h with ⟨h6, h7⟩ | ⟨x, h6, _⟩ | ⟨x, _, _, h7⟩
        · exact h7
        · rw [h6] at h4; have := congrArg List.length h4; simp at this; omega
        · exact h7
      rw [h1] at h4
      cases a with
      | cons x a =>
        simp only [List.cons_append, List.cons.injEq] at h4
        exact Or.inl ⟨a, b, h4.2.symm, h2, by omega⟩
      | nil =>
        simp only [List.nil_append, List.cons.injEq] at h4
        obtain ⟨_, h4⟩ := h4
        refine Or.inr (Or.inl ⟨?_, by rw [← h4]; exact h2, by rw [← h4]; omega⟩)
        have hc : s.chan = .removeTask k :: b := h1
        cases h
        all_goals (
          have hx := hc.symm.trans ‹s.chan = _›
          injection hx with hx _
          try (cases hx; done))
        all_goals (cases hx; exact ⟨_, rfl⟩)
    · rcases queue_step h with ⟨_, h6⟩ | ⟨x, h6, _⟩ | ⟨x, _, h6, _⟩
      · exact Or.inl ⟨a, b, by rw [h4, h1], h2, by omega⟩
      · rw [h4] at h6; have := congrArg List.length h6; simp at this
      · rw [h4] at h6; have := congrArg List.length h6; simp at this
  · have hf : Forgotten k s := ⟨Or.inr ⟨ok, h1⟩, h2, by rw [h1]; trivial⟩
    have hf' := forgotten_step hf hl h
    rcases chan_step h with ⟨h8, h4 | ⟨e, h4, h5⟩⟩ | ⟨rfl, hi, e, h4⟩ | ⟨rfl, h4⟩
    · refine Or.inr (Or.inl ⟨⟨ok, h8.trans h1⟩, hf'.chan, ?_⟩)
      rcases queue_step h with ⟨_, h6⟩ | ⟨x, h6, _⟩ | ⟨x, _, h6, _⟩
      · rw [h4]; omega
      · rw [h4] at h6; have := congrArg List.length h6; simp at this
      · rw [h4] at h6; have := congrArg List.length h6; simp at this
    · refine Or.inr (Or.inl ⟨⟨ok, h8.trans h1⟩, hf'.chan, ?_⟩)
      rcases queue_step h with ⟨h6, _⟩ | ⟨x, h6, h7⟩ | ⟨x, _, h6, _⟩
      · rw [h4] at h6; have := congrArg List.length h6; simp at this
      · rw [h4]; simp; omega
      · rw [h4] at h6; have := congrArg List.length h6; simp at this; omega
    · rw [h1] at hi; cases hi
    · refine Or.inr (Or.inr ⟨hf', ?_⟩)
      cases h
      all_goals try (rw [‹s.epc = _›] at h1; cases h1; done)
      case next_remove id ok' he =>
        rw [he] at h1; cases h1
        rw [done_flags]
        show set s.flags k _ k = none
        rw [set_apply, if_pos rfl]
  · exact Or.inr (Or.inr ⟨forgotten_step h1 hl h, unknown_step h1 h2 h⟩)

theorem struck_run {env : Env} {k N : Nat} : ∀ (ls : List Label) {s s' : St}, Struck k N s → (∀ l ∈ ls, ¬ Adds k l) →
    run env s ls = some s' → Struck k N s' := by
  intro ls
  induction ls with
  | nil => intro s s' hs _ h; cases h; exact hs
  | cons l ls ih =>
    intro s s' hs hl h
    obtain ⟨s1, h1, h2⟩ := run_cons h
    exact ih (struck_step hs (hl l List.mem_cons_self) (step_act h1)) (fun l h => hl l (List.mem_cons_of_mem _ h)) h2

/-- Once the event thread is past the removal. -/
theorem struck_done {env : Env} {k N : Nat} {s : St} (hr : Reachable env s) (hs : Struck k N s)
    (hd : N < (dispatchedTags s.log).length) : Forgotten k s ∧ s.flags k = none := by
  have hlen := congrArg List.length (fifo hr)
  simp only [List.length_append, List.length_map] at hlen
  rcases hs with ⟨a, b, h1, h2, h3⟩ | ⟨⟨ok, h1⟩, h2, h3⟩ | h
  · rw [h1] at hlen; simp at hlen; omega
  · rw [h1] at hlen; simp [epcTags] at hlen; omega
  · exact h

theorem struck_called {env : Env} {k : Nat} {s s' : St} (h : step env s (.uSend (.remove k)) = some s') :
    Struck k (queuedTags s.log).length s' := by
  simp only [step] at h
  cases h
  exact Or.inl ⟨s.chan, [], by simp [push, UserOp.event], fun _ hx => (by cases hx), by simp [push, queuedTags, UserOp.event]⟩

/-- **C93** All tasks handed in under `k` have a limit on parallel runs. A removal of `k` is called after `ls1`, and no task is
added under this id afterwards. As soon as the event thread has worked off the removal, whatever it found, `k` is not started any
more, with at most one exception: a run that the scheduler has already let pass, which is started in the same tick. -/
theorem C93_removed {env : Env} {k : Nat} {ls1 ls2 ls : List Label} {s0 s s' : St} (h0 : run env (init env) ls1 = some s0)
    (h1 : run env s0 (.uSend (.remove k) :: ls2) = some s)
    (hlim : ∀ t ∈ handed k (ls1 ++ .uSend (.remove k) :: ls2), t.maximumParallelRunnableNum ≠ none)
    (h2 : ∀ l ∈ ls2, ¬ Adds k l) (hd : (queuedTags s0.log).length < (dispatchedTags s.log).length)
    (hl : ∀ l ∈ ls, ¬ Adds k l) (hrun : run env s ls = some s') :
    startTicks k s'.log = startTicks k s.log ∨ Admitted k s ∧ startTicks k s'.log = startTicks k s.log ++ [s.ticks] := by
  have hall : run env (init env) (ls1 ++ .uSend (.remove k) :: ls2) = some s := by rw [run_append, h0]; exact h1
  obtain ⟨s1, h3, h4⟩ := run_cons h1
  obtain ⟨hf, hu⟩ := struck_done ⟨_, hall⟩ (struck_run ls2 (struck_called h3) h2 h4) hd
  have hst := stems hall k
  have lim : ∀ u, Stems (handed k (ls1 ++ .uSend (.remove k) :: ls2)) u → u.maximumParallelRunnableNum ≠ none := by
    rintro u ⟨t0, ht0, _, _, h5⟩
    rw [← h5]; exact hlim t0 ht0
  refine winding_run ls ⟨hf, hu, fun j u hj => lim u (hst.wheel j u hj), fun u hu => lim u ?_⟩ hl hrun
  cases hp : s.tpc <;> rw [hp] at hu <;> simp only [tpcTok] at hu <;> first
    | exact hst.held u (by rw [hp]; exact hu)
    | exact hst.started u (by rw [hp]; exact hu)

/-- **C93** In an unending execution: a removal of `k` is called, no task is added under this id afterwards, and all that were
handed in under it have a limit. If the event thread is not held up forever, there is a last start of `k`. -/
theorem C93_for_ever {env : Env} (c : Course env) (hfe : c.WeaklyFair (ByEvents · = true)) (hli : c.Listening) {k n1 : Nat}
    (hlab : c.lab n1 = some (.uSend (.remove k))) (hno : ∀ m l, n1 < m → c.lab m = some l → ¬ Adds k l)
    (hlim : ∀ m l t, c.lab m = some l → t ∈ broughtBy k l → t.maximumParallelRunnableNum ≠ none) :
    ∃ n, n1 < n ∧ ∀ m, n ≤ m → startTicks k (c.st m).log = startTicks k (c.st n).log := by
  obtain ⟨m0, h0, hd⟩ := C70_processed c hfe hli (n1 + 1)
  have hst := course_step c hlab
  have hq : (queuedTags (c.st (n1 + 1)).log).length = (queuedTags (c.st n1).log).length + 1 := by
    simp only [step] at hst
    generalize c.st (n1 + 1) = x at hst
    cases hst
    simp [push, queuedTags, UserOp.event]
  have key : ∀ n, m0 ≤ n → ∀ m, n ≤ m → startTicks k (c.st m).log = startTicks k (c.st n).log ∨
      Admitted k (c.st n) ∧ startTicks k (c.st m).log = startTicks k (c.st n).log ++ [(c.st n).ticks] := by
    intro n hn m hm
    obtain ⟨ls2, f1, f2, f3⟩ := between_mem c (n := n1 + 1) (m := n) (P := fun l => ¬ Adds k l) (by omega)
      (fun i l hi h => hno i l (by omega) h)
    obtain ⟨ls, g1, g2, _⟩ := between_mem c (n := n) (m := m) (P := fun l => ¬ Adds k l) hm
      (fun i l hi h => hno i l (by omega) h)
    have hle := hd.length_le
    obtain ⟨ls3, _, e1⟩ := course_between c hn
    have hgrow : (dispatchedTags (c.st m0).log).length ≤ (dispatchedTags (c.st n).log).length := by
      obtain ⟨news, hn⟩ := log_grows e1
      rw [hn, dispatchedTags_append, List.length_append]; omega
    refine C93_removed (course_run c n1) (ls2 := ls2) (by simp only [run, hst]; exact f2) ?_ f1 (by omega) g1 g2
    intro t ht
    have hup : c.upTo n1 ++ .uSend (.remove k) :: ls2 = c.upTo n := by
      rw [f3, Course.upTo, hlab]; simp
    rw [hup] at ht
    obtain ⟨l, hl, htl⟩ := List.mem_flatMap.1 ht
    obtain ⟨j, _, hj⟩ := (mem_upTo _ _).1 hl
    exact hlim j l t hj htl
  by_cases hex : ∃ m, m0 ≤ m ∧ startTicks k (c.st m).log ≠ startTicks k (c.st m0).log
  · obtain ⟨m, hm, hne⟩ := hex
    refine ⟨m, by omega, fun m' hm' => ?_⟩
    rcases key m0 (Nat.le_refl _) m hm with h1 | ⟨_, h1⟩
    · exact absurd h1 hne
    · rcases key m0 (Nat.le_refl _) m' (by omega) with h2 | ⟨_, h2⟩
      · have := key m hm m' hm'
        rw [h1, h2] at this
        rcases this with h3 | ⟨_, h3⟩ <;> (have := congrArg List.length h3; simp at this)
      · rw [h1, h2]
  · refine ⟨m0, by omega, fun m hm => ?_⟩
    exact Classical.byContradiction fun h => hex ⟨m, hm, h⟩

end DelayTimer

namespace DelayTimer.Ex

open Spec

/-- Task 1, of which three runs may go on at a time, is in the hands of the scheduler, which has let its run pass. -/
def handy : List Label := add { every 1 101 5 with maximumParallelRunnableNum := some 3 } ++ idles 2 ++
  [.tLoad, .tStore, .tArrive, .tPop 1, .tCheck 0]

/-- The run is started, the task put back into the wheel, and five seconds later the scheduler takes it out and drops it. -/
def handyRest : List Label := [.tSpawn false, .tAppend, .tGate, .tSlot, .tMark, .tLapse] ++ idles 4 ++
  [.tLoad, .tStore, .tArrive, .tPop 1, .tCheck 1, .tLapse]

/-- C93: the removal misses the task. The run that has been let pass is started; at the next attempt, five ticks later, there
is none. -/
example : ∃ s0 s s', run env0 (init env0) handy = some s0 ∧ run env0 s0 [.uSend (.remove 1), .eRecv, .eNext] = some s ∧
    (∀ t ∈ handed 1 (handy ++ [.uSend (.remove 1), .eRecv, .eNext]), t.maximumParallelRunnableNum ≠ none) ∧
    (queuedTags s0.log).length < (dispatchedTags s.log).length ∧ (∀ l ∈ handyRest, ¬ Adds 1 l) ∧ Admitted 1 s ∧
    run env0 s handyRest = some s' ∧ startTicks 1 s.log = [] ∧ startTicks 1 s'.log = [2] ∧ attempts 1 s'.log = [2, 7] := by
  refine ⟨play env0 handy, play env0 (handy ++ [.uSend (.remove 1), .eRecv, .eNext]),
    play env0 ((handy ++ [.uSend (.remove 1), .eRecv, .eNext]) ++ handyRest), play_run (by decide +kernel),
    play_on (by decide +kernel), ?_, by decide +kernel, ?_, ⟨_, _, _, rfl, rfl⟩, play_on (by decide +kernel), by decide +kernel,
    by decide +kernel, by decide +kernel⟩
  · intro t ht
    simp [handy, handed, broughtBy, add, idles, idle] at ht
    rw [ht.2]; simp
  · intro l hl
    simp [handyRest, idles, idle] at hl
    rcases hl with h | h | h | h | h | h | h | h | h | h | h | h | h | h | h | h | h | h | h | h | h | h | h | h | h | h | h | h <;> subst h <;> exact id

/-- C93: an unending execution of this kind. -/
example : ∃ (c : Course env0) (n1 : Nat), c.WeaklyFair (ByEvents · = true) ∧ c.Listening ∧
    c.lab n1 = some (.uSend (.remove 1)) ∧ (∀ m l, n1 < m → c.lab m = some l → ¬ Adds 1 l) ∧
    (∀ m l t, c.lab m = some l → t ∈ broughtBy 1 l → t.maximumParallelRunnableNum ≠ none) := by
  obtain ⟨c, h1, h2, h3, _, h4⟩ := fair_course (pre := handy ++ [.uSend (.remove 1)]) (play_run (env := env0) (by decide +kernel))
  have hlen : (handy ++ [Label.uSend (.remove 1)]).length = handy.length + 1 := by simp
  have hup := upTo_take (c := c) (n := (handy ++ [Label.uSend (.remove 1)]).length) (by rw [h1])
  refine ⟨c, handy.length, h3.events, (unchecked_lives rfl c).1, ?_, ?_, ?_⟩
  · rw [(hup _ (by omega)).2 (by omega), h1]; simp
  · intro m l hm hl
    have := h4 m l (by omega) hl
    cases l <;> first | exact id | exact False.elim this
  · intro m l t hl ht
    rcases unasked_upTo h1 h4 ((mem_upTo c (m + 1)).2 ⟨m, by omega, hl⟩) with h | h
    · have ht : t ∈ handed 1 (handy ++ [.uSend (.remove 1)]) := List.mem_flatMap.2 ⟨l, h, ht⟩
      simp [handy, handed, broughtBy, add, idles, idle] at ht
      rw [ht.2]; simp
    · cases l <;> first | (cases ht) | exact h.elim

end DelayTimer.Ex
