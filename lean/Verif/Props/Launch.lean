import Verif.Spec.Launch

/-! Property C57: how a timer is put together. -/

namespace DelayTimer
open Spec

theorem calls_snoc (cs : List TimerCall) (c : TimerCall) :
    TimerBuilder.calls (cs ++ [c]) = (TimerBuilder.calls cs).call c := by simp [TimerBuilder.calls]

theorem lastChoice_snoc (cs : List TimerCall) (c : TimerCall) :
    lastChoice (cs ++ [c]) = (choiceOf c).getD (lastChoice cs) := by
  simp only [lastChoice, List.reverse_append, List.reverse_cons, List.reverse_nil, List.nil_append, List.singleton_append,
    List.findSome?_cons]
  cases choiceOf c <;> rfl

theorem snoc_induct {α : Type} {p : List α → Prop} (h0 : p []) (h1 : ∀ l a, p l → p (l ++ [a])) (l : List α) : p l := by
  have h : ∀ l : List α, p l.reverse := by
    intro l
    induction l with
    | nil => exact h0
    | cons a l ih => rw [List.reverse_cons]; exact h1 _ _ ih
  have := h l.reverse
  rwa [List.reverse_reverse] at this

/-- What a chain of calls leaves in the builder. -/
theorem calls_state (cs : List TimerCall) :
    (TimerBuilder.calls cs).channel = none ∧
    ((TimerBuilder.calls cs).statusReport = true ↔ .enableStatusReport ∈ cs) ∧
    (match lastChoice cs with
      | .smol => (TimerBuilder.calls cs).kind = .smol ∧ (TimerBuilder.calls cs).inner = none
      | .ownTokio => (TimerBuilder.calls cs).kind = .tokio ∧ (TimerBuilder.calls cs).inner = none
      | .tokio rt => (TimerBuilder.calls cs).kind = .tokio ∧ (TimerBuilder.calls cs).inner = some rt) := by
  induction cs using snoc_induct with
  | h0 => simp [TimerBuilder.calls, TimerBuilder.default, lastChoice]
  | h1 l c ih =>
    rw [calls_snoc, lastChoice_snoc]
    obtain ⟨h1, h2, h3⟩ := ih
    cases c <;> simp_all [TimerBuilder.call, choiceOf]

theorem build_cases (canRuntime : Bool) (cs : List TimerCall) (f : Fresh) :
    (canRuntime = false ∧ lastChoice cs = .ownTokio ∧ (TimerBuilder.calls cs).build canRuntime f = none) ∨
    ∃ t, (TimerBuilder.calls cs).build canRuntime f =
        some (t, ⟨if lastChoice cs = .ownTokio then f.runtime + 1 else f.runtime, f.channel + 1, f.header + 1⟩) ∧
      RunsOn t (executorFor f (lastChoice cs)) ∧ t.sender = f.channel ∧ t.header = f.header ∧
      (t.reporter = true ↔ .enableStatusReport ∈ cs) ∧ (t.reports = true ↔ .enableStatusReport ∈ cs) := by
  obtain ⟨h1, h2, h3⟩ := calls_state cs
  generalize TimerBuilder.calls cs = b at *
  obtain ⟨kind, inner, channel, st⟩ := b
  simp only at h1 h2 h3
  subst h1
  cases hl : lastChoice cs with
  | smol =>
    rw [hl] at h3; obtain ⟨rfl, rfl⟩ := h3
    refine .inr ⟨_, by simp [TimerBuilder.build, TimerBuilder.launch, TimerBuilder.getChannel, buildEventHandle]; rfl, ?_, rfl, rfl, h2, h2⟩
    exact ⟨rfl, by simp [executorFor, LaunchedThread.spawnsOn], by simp⟩
  | ownTokio =>
    rw [hl] at h3; obtain ⟨rfl, rfl⟩ := h3
    cases canRuntime with
    | false => exact .inl ⟨rfl, rfl, by simp [TimerBuilder.build]⟩
    | true =>
      refine .inr ⟨_, by simp [TimerBuilder.build, TimerBuilder.launch, TimerBuilder.getChannel, buildEventHandle]; rfl, ?_, rfl, rfl, h2, h2⟩
      exact ⟨rfl, by simp [executorFor, LaunchedThread.spawnsOn], by simp⟩
  | tokio rt =>
    rw [hl] at h3; obtain ⟨rfl, rfl⟩ := h3
    refine .inr ⟨_, by simp [TimerBuilder.build, TimerBuilder.launch, TimerBuilder.getChannel, buildEventHandle]; rfl, ?_, rfl, rfl, h2, h2⟩
    exact ⟨rfl, by simp [executorFor, LaunchedThread.spawnsOn], by simp⟩

/-- **C57, one timer**: after any chain of configuration calls, building starts exactly one scheduler and
one event thread, which work on one channel and one set of shared data, those of the handle; they, the
sweeper, the clock and the bodies run on the runtime chosen last, on a tokio runtime of the timer's own if
none was chosen; there is a status reporter, and the event thread reports, iff that was asked for. The only
failure is that a tokio runtime is needed and cannot be made. -/
theorem C57_build (canRuntime : Bool) (cs : List TimerCall) (f : Fresh) :
    (lastChoice cs = .ownTokio → canRuntime = true) ↔
    ∃ t f', (TimerBuilder.calls cs).build canRuntime f = some (t, f') ∧
      RunsOn t (executorFor f (lastChoice cs)) ∧ (t.reporter = true ↔ .enableStatusReport ∈ cs) ∧
      (t.reports = true ↔ .enableStatusReport ∈ cs) := by
  rcases build_cases canRuntime cs f with ⟨h1, h2, h3⟩ | ⟨t, h1, h2, _, _, h3, h4⟩
  · subst h1; simp [h2, h3]
  · constructor
    · intro _; exact ⟨t, _, h1, h2, h3, h4⟩
    · intro _ hc
      cases canRuntime with
      | true => rfl
      | false =>
        obtain ⟨_, h3⟩ := calls_state cs
        rw [hc] at h3
        simp [TimerBuilder.build, h3.2.1, h3.2.2] at h1

theorem buildAll_fresh (canRuntime : Bool) : ∀ (css : List (List TimerCall)) (f f' : Fresh) (ts : List BuiltTimer),
    buildAll canRuntime css f = some (ts, f') →
    ts.map (·.sender) = List.range' f.channel css.length ∧ ts.map (·.header) = List.range' f.header css.length := by
  intro css
  induction css with
  | nil => intro f f' ts h; cases h; simp
  | cons cs css ih =>
    intro f f' ts h
    unfold buildAll at h
    rcases build_cases canRuntime cs f with ⟨_, _, h3⟩ | ⟨t, h1, h2, h4, h5, _, _⟩
    · simp [h3] at h
    · simp only [h1] at h
      split at h
      · cases h
      · rename_i ts' g hg
        cases h
        obtain ⟨i1, i2⟩ := ih _ _ _ hg
        simp [h4, h5, i1, i2, List.range'_succ]

/-- **C57, several timers**: timers built in one process, in whatever way each is configured, have event
channels and shared data of their own. -/
theorem C57_apart (canRuntime : Bool) (css : List (List TimerCall)) (f f' : Fresh) (ts : List BuiltTimer)
    (h : buildAll canRuntime css f = some (ts, f')) :
    (ts.map (·.sender)).Nodup ∧ (ts.map (·.header)).Nodup ∧ ts.length = css.length := by
  obtain ⟨h1, h2⟩ := buildAll_fresh canRuntime css f f' ts h
  refine ⟨by rw [h1]; exact List.nodup_range', by rw [h2]; exact List.nodup_range', ?_⟩
  have := congrArg List.length h1
  simpa using this

/-- A custom runtime overridden by smol and again by the default, with reporting in between: the timer gets
runtime 40 of its own. -/
example :
    lastChoice [.tokioByCustom 7, .smolByDefault, .enableStatusReport, .tokioByDefault] = .ownTokio ∧
    ((TimerBuilder.calls [.tokioByCustom 7, .smolByDefault, .enableStatusReport, .tokioByDefault]).build true ⟨40, 50, 60⟩).map
      (fun r => r.1.threads) =
        some [⟨.scheduler, .tokio 40, 50, 60, .tokio⟩, ⟨.events, .tokio 40, 50, 60, .tokio⟩] := by decide

example : (buildAll true [[], [.smolByDefault], [.tokioSharedByCustom 3]] ⟨40, 50, 60⟩).map (fun r => r.1.map (·.sender)) =
    some [50, 51, 52] := by decide

end DelayTimer
