import Verif.Proofs.Alive
import Verif.Props.Rearm

/-!
# C63: what ends the scheduler thread

The thread that moves the wheel ends only if the timer is stopped or one of the tasks it was given makes it panic.
-/

namespace DelayTimer
open Spec

/-- **C63**: if the scheduler thread will never do anything any more, then somebody called `stop_delay_timer`, or a
task killed it. -/
theorem C63_cause {env : Env} {ls : List Label} {s : St} (h : run env (init env) ls = some s) (hg : Gone env s) :
    .uSend .stop ∈ ls ∨ Killed env ls s.log := by
  by_cases hh : s.tpc = .halted
  · exact Or.inl (stop_why h (Or.inr (Or.inr hh)))
  by_cases hp : s.tpc = .panicked
  · exact Or.inr (panicked_why h hp)
  by_cases hc : Crashed env s
  · exact Or.inr (crashed_why h hc)
  obtain ⟨l, s', h1, h2⟩ := scheduler_next hh hp hc
  rw [hg [] s rfl l h1] at h2
  cases h2

theorem iterates {env : Env} {pre : List Label} {s : St} (hr : run env (init env) pre = some s)
    (hstop : .uSend .stop ∉ pre) (hpanic : .tSpawn true ∉ pre) (n : Nat)
    (hsafe : ∀ k, ∀ t ∈ handed k pre, Safe env ((attempts k s.log).length + n + 3) t) :
    ∃ ls s', (∀ l ∈ ls, CleanT l) ∧ run env s ls = some s' ∧ s'.tpc = .head ∧ s'.ticks = s.ticks + (n + 1) := by
  have hm : s.motivation = true := by
    cases hx : s.motivation with
    | true => rfl
    | false => exact absurd (stop_why hr (Or.inr (Or.inl hx))) hstop
  have hh : s.tpc ≠ .halted := fun hx => hstop (stop_why hr (Or.inr (Or.inr hx)))
  have hp : s.tpc ≠ .panicked := by
    intro hx
    rcases panicked_why hr hx with h | ⟨ho, ⟨k, rtn, rec, m, ts, hst, t, ht, h⟩ | ⟨k, _, t, ht, h⟩⟩
    · exact hpanic h
    · rcases h with h | ⟨lim, h1, h2⟩
      · exact (hsafe k t ht ho).1 h
      · have := (hsafe k t ht ho).2.1 lim h1 m
        rw [← started_clock ⟨_, hr⟩ _ _ _ _ _ hst] at this
        omega
    · exact h (fits_mono (hsafe k t ht ho).2.2 (by omega))
  obtain ⟨s', ⟨ls, h1, h2, _⟩, h4, h3⟩ := finish_ticks n (sound_of_handed hr hsafe) hm hh hp
  exact ⟨ls, s', h2, h1, h4, h3⟩

/-- **C63**: as long as the timer is not stopped, no closure panics and, in a build with overflow checks, all tasks
handed in are safe for as many alarms as that takes, the scheduler thread can go through any number of further
iterations by itself, whatever state the rest of the timer is in. -/
theorem C63_iterates {env : Env} {pre : List Label} {s : St} (hr : run env (init env) pre = some s)
    (hstop : .uSend .stop ∉ pre) (hpanic : .tSpawn true ∉ pre) (n : Nat)
    (hsafe : ∀ k, ∀ t ∈ handed k pre, Safe env ((attempts k s.log).length + n + 3) t) :
    ∃ ls s', (∀ l ∈ ls, ByScheduler l = true) ∧ run env s ls = some s' ∧ s'.ticks = s.ticks + (n + 1) := by
  obtain ⟨ls, s', h2, h1, _, h3⟩ := iterates hr hstop hpanic n hsafe
  refine ⟨ls, s', fun l hl => ?_, h1, h3⟩
  have := h2 l hl
  cases l <;> first | rfl | exact this.elim

/-! ## Each of these does end it -/

theorem gone_of_panicked {env : Env} {s : St} (h : s.tpc = .panicked) : Gone env s := by
  intro ls s' hr l hl
  have hp : s'.tpc = .panicked := (panicked_forever ls h hr).1
  cases l <;> first | (cases hl; done) | simp [step, tLoad, tStore, tArrive, tPop, tCheck, tSpawn, tAppend, tGate, tSlot, tMark, tLapse, hp]

theorem gone_of_crashed {env : Env} {s : St} (h : Crashed env s) : Gone env s := by
  intro ls s' hr l hl
  obtain ⟨ho, ⟨p, t, box, m, hp, hm, hb⟩ | ⟨p, t, upd, hp, hf⟩⟩ := (crashed_forever ls h hr).1
  · have : 18446744073709551616 ≤ m + box.startTime := by omega
    cases l <;> first
      | (cases hl; done)
      | simp [step, tLoad, tStore, tArrive, tPop, tCheck, tSpawn, tAppend, tGate, tSlot, tMark, tLapse, hp, ho,
          Task.limitOverflows, hm, this]
  · have : t.alarmOverflows = true := by
      cases hv : t.alarmOverflows with
      | true => rfl
      | false => exact absurd (alarmOverflows_iff.1 hv) hf
    cases l <;> first
      | (cases hl; done)
      | simp [step, tLoad, tStore, tArrive, tPop, tCheck, tSpawn, tAppend, tGate, tSlot, tMark, tLapse, hp, ho, this]

theorem gone_of_halted {env : Env} {s : St} (h : s.tpc = .halted) : Gone env s := by
  have hf : ∀ (ls : List Label) (s s' : St), s.tpc = .halted → run env s ls = some s' → s'.tpc = .halted := by
    refine run_induct (fun s => s.tpc = .halted) ?_
    intro s l s' hs ha
    cases ha
    all_goals try (exact hs)
    all_goals try (have hx := hs.symm.trans ‹s.tpc = _›; cases hx; done)
    all_goals (simpa using hs)
  intro ls s' hr l hl
  have hp := hf ls s s' h hr
  cases l <;> first | (cases hl; done) | simp [step, tLoad, tStore, tArrive, tPop, tCheck, tSpawn, tAppend, tGate, tSlot, tMark, tLapse, hp]

/-- When the scheduler thread sees that the timer was stopped, it ends. -/
theorem C63_stop_ends {env : Env} {s s' : St} {l : Label} (h : step env s l = some s') (hlog : s'.log = .halted :: s.log) :
    Gone env s' := by
  refine gone_of_halted ?_
  cases step_act h
  case load_halt => rfl
  all_goals (first | (simp at hlog; done) | (simp [uInsert, push] at hlog; done))

/-- A panic of a closure that the scheduler thread calls ends it. -/
theorem C63_panic_ends {env : Env} {s s' : St} (h : step env s (.tSpawn true) = some s') : Gone env s' := by
  refine gone_of_panicked ?_
  cases step_act h
  rfl

/-- In a build with overflow checks a start ends the scheduler thread if every limit handed in for that task overflows
when added to the time of the start. -/
theorem C63_limit_ends {env : Env} {ls : List Label} {s s' : St} {k rtn n ts : Nat} {rec : Int}
    (ho : env.overflowChecks = true) (hr : run env (init env) ls = some s)
    (h : step env s (.tSpawn false) = some s') (hlog : s'.log = .started k rtn rec n ts :: s.log)
    (hlim : ∀ t ∈ handed k ls, ∃ m, t.maximumRunningTime = some m ∧ 2 ^ 64 ≤ ts + m) : Gone env s' := by
  refine gone_of_crashed ?_
  cases step_act h
  rename_i p t r hp
  simp only [List.cons.injEq, and_true, Obs.started.injEq] at hlog
  obtain ⟨rfl, rfl, rfl, rfl, rfl⟩ := hlog
  obtain ⟨t0, h1, _, h2, _⟩ := (stems hr t.taskId).held t (by rw [hp]; simp [heldTok])
  obtain ⟨m, h3, h4⟩ := hlim t0 h1
  exact ⟨ho, Or.inl ⟨_, _, _, m, rfl, h2.symm.trans h3, h4⟩⟩

/-- What the scheduler can still do when it runs a task with a count of zero. -/
def lastSteps : TPC → Option Nat
  | .append _ t _ => if runsLeft t = some 0 then some 2 else none
  | .gate _ t _ => if runsLeft t = some 0 then some 1 else none
  | .panicked => some 0
  | _ => none

theorem lastSteps_step {env : Env} {s s' : St} {l : Label} {n : Nat} (ho : env.overflowChecks = true)
    (hn : lastSteps s.tpc = some n) (h : Act env s l s') :
    ∃ n', lastSteps s'.tpc = some n' ∧ n' + (if ByScheduler l then 1 else 0) = n := by
  by_cases hl : TLabel l
  · cases h <;> first | exact hl.elim | skip
    all_goals rw [‹s.tpc = _›] at hn
    case append p t box hp =>
      simp only [lastSteps] at hn ⊢
      split at hn <;> cases hn
      rename_i h0
      exact ⟨1, by simp [h0], rfl⟩
    case gate_panic p t rec hp hd =>
      simp only [lastSteps] at hn
      split at hn <;> cases hn
      exact ⟨0, rfl, rfl⟩
    case gate_again p t t' rec hp hd =>
      simp only [lastSteps] at hn
      split at hn <;> cases hn
      rename_i h0
      rw [ho, zero_down h0] at hd
      cases hd
    case gate_last p t t' rec hp hd =>
      simp only [lastSteps] at hn
      split at hn <;> cases hn
      rename_i h0
      rw [ho, zero_down h0] at hd
      cases hd
    all_goals (cases hn)
  · have : ByScheduler l = false := by cases l <;> first | rfl | exact absurd trivial hl
    rw [(other_thread h hl).1, this]
    exact ⟨n, hn, rfl⟩

theorem lastSteps_run {env : Env} (ho : env.overflowChecks = true) : ∀ (ls : List Label) (s s' : St) (n : Nat),
    lastSteps s.tpc = some n → run env s ls = some s' →
    ∃ n', lastSteps s'.tpc = some n' ∧ n' + (ls.filter ByScheduler).length = n := by
  intro ls
  induction ls with
  | nil => intro s s' n hn hr; cases hr; exact ⟨n, hn, rfl⟩
  | cons l ls ih =>
    intro s s' n hn hr
    simp only [run] at hr
    cases hs : step env s l with
    | none => rw [hs] at hr; cases hr
    | some s1 =>
      rw [hs] at hr
      obtain ⟨n1, h1, h2⟩ := lastSteps_step ho hn (step_act hs)
      obtain ⟨n2, h3, h4⟩ := ih s1 s' n1 h1 hr
      refine ⟨n2, h3, ?_⟩
      cases hb : ByScheduler l <;> simp [hb] at h2 ⊢ <;> omega

/-- In a build with overflow checks the scheduler thread ends soon after the start of a task that was handed in with a
count of zero: it does at most two more things. -/
theorem C63_zero_ends {env : Env} {ls : List Label} {s s' : St} {k rtn n ts : Nat} {rec : Int}
    (ho : env.overflowChecks = true) (hr : run env (init env) ls = some s)
    (h : step env s (.tSpawn false) = some s') (hlog : s'.log = .started k rtn rec n ts :: s.log)
    (hzero : ∀ t ∈ handed k ls, runsLeft t = some 0) :
    ∀ ls' s'', run env s' ls' = some s'' → (ls'.filter ByScheduler).length ≤ 2 ∧
      ((ls'.filter ByScheduler).length = 2 → Gone env s'') := by
  cases step_act h
  rename_i p t r hp
  simp only [List.cons.injEq, and_true, Obs.started.injEq] at hlog
  obtain ⟨rfl, rfl, rfl, rfl, rfl⟩ := hlog
  have h0 : runsLeft t = some 0 := (zeros ho hr hzero).held t (by rw [hp]; simp [heldTok])
  intro ls' s'' hr'
  obtain ⟨n', h1, h2⟩ := lastSteps_run ho ls' _ s'' 2 (by simp [lastSteps, h0]) hr'
  refine ⟨by omega, fun h3 => gone_of_panicked ?_⟩
  have : n' = 0 := by omega
  subst this
  cases hx : s''.tpc <;> rw [hx] at h1 <;> simp [lastSteps] at h1

/-! ## Examples -/
namespace Ex

/-- A build with overflow checks in which every task is safe: task 1 has two runs and may take 50 seconds. -/
def safeLs : List Label := add { times 2 1 101 3 with maximumRunningTime := some 50 } ++ add (every 2 105 5) ++ idle ++
  idle ++ [.tLoad, .tStore, .tArrive, .tPop 1, .tCheck 0, .tSpawn false]

/-- The clock stands still, so that all times are small. -/
def envStill : Env := { env0 with overflowChecks := true, clock := fun _ => 100 }

example : ∃ s, run envStill (init envStill) safeLs = some s ∧ .uSend .stop ∉ safeLs ∧ .tSpawn true ∉ safeLs ∧
    (∀ k, ∀ t ∈ handed k safeLs, Safe envStill 1000000 t) ∧ handed 1 safeLs ≠ [] := by
  refine ⟨_, rfl, by simp [safeLs, add, idle], by simp [safeLs, add, idle], ?_, by decide +kernel⟩
  intro k t ht _
  have : t = { times 2 1 101 3 with maximumRunningTime := some 50 } ∨ t = every 2 105 5 := by
    have h : handed k safeLs = (if 1 = k then [{ times 2 1 101 3 with maximumRunningTime := some 50 }] else []) ++
      (if 2 = k then [every 2 105 5] else []) := by
      simp [handed, safeLs, add, idle, broughtBy, times, every]
    rw [h] at ht
    rcases List.mem_append.1 ht with h | h <;> rw [mem_ite_one] at h
    · exact Or.inl h.2
    · exact Or.inr h.2
  rcases this with rfl | rfl
  · refine ⟨by decide, fun m hm n => ?_, fun j hj a ha => ?_⟩
    · cases hm
      show 100 + 50 < 2 ^ 64
      decide
    · simp [plainAlarm, times, SecondsState.new] at ha
      omega
  · refine ⟨by decide, fun m hm n => (by cases hm), fun j hj a ha => ?_⟩
    simp [plainAlarm, every, SecondsState.new] at ha
    omega

/-- A limit that overflows: the scheduler thread is gone once task 2 has been started. -/
example : ∃ s s', run envChecked (init envChecked) ((limitLs U64_MAX).dropLast) = some s ∧
    step envChecked s (.tSpawn false) = some s' ∧ s'.log = .started 2 2 0 3 103 :: s.log ∧
    (∀ t ∈ handed 2 ((limitLs U64_MAX).dropLast), ∃ m, t.maximumRunningTime = some m ∧ 2 ^ 64 ≤ 103 + m) := by
  refine ⟨_, _, rfl, rfl, rfl, ?_⟩
  intro t ht
  have : handed 2 ((limitLs U64_MAX).dropLast) = [{ every 2 102 5 with maximumRunningTime := some U64_MAX }] := rfl
  rw [this] at ht
  cases List.mem_singleton.1 ht
  exact ⟨_, rfl, by decide⟩

/-- A count of zero. -/
example : ∃ s s', run envChecked (init envChecked) (add (times 0 1 101 3) ++ idle ++ idle ++
      [.tLoad, .tStore, .tArrive, .tPop 1, .tCheck 0]) = some s ∧
    step envChecked s (.tSpawn false) = some s' ∧ s'.log = .started 1 1 0 2 102 :: s.log ∧
    (∃ s2, run envChecked s' [.tAppend, .eRecv, .tGate] = some s2 ∧ Gone envChecked s2) ∧
    Killed envChecked (add (times 0 1 101 3) ++ idle ++ idle ++ [.tLoad, .tStore, .tArrive, .tPop 1, .tCheck 0] ++
      [.tSpawn false]) s'.log := by
  refine ⟨_, _, rfl, rfl, rfl, ⟨_, rfl, gone_of_panicked rfl⟩, 
    Or.inr ⟨rfl, Or.inl ⟨1, 1, 0, 2, 102, ?_, times 0 1 101 3, ?_, Or.inl rfl⟩⟩⟩
  · exact List.mem_cons_self
  · exact List.mem_singleton.2 rfl

/-- A second alarm that overflows (see `C11_fails_alarm`): the scheduler thread is gone after the first run of task 2. -/
example : ∃ s, run envChecked (init envChecked) (hugeLs (2 ^ 63)) = some s ∧ Gone envChecked s ∧
    Killed envChecked (hugeLs (2 ^ 63)) s.log := by
  have hf : ¬ AlarmsFit 2 (every 2 (100 + 2 ^ 63) (2 ^ 63)) := fun hf => absurd (hf 1 (by decide) _ rfl) (by decide +kernel)
  refine ⟨_, rfl, gone_of_crashed ⟨rfl, Or.inr ⟨_, _, _, rfl, ?_⟩⟩, Or.inr ⟨rfl, Or.inr ⟨2, ?_, every 2 (100 + 2 ^ 63) (2 ^ 63), ?_, ?_⟩⟩⟩
  · exact fun hf => absurd (hf 0 (by decide) _ rfl) (by decide +kernel)
  · decide +kernel
  · exact List.mem_singleton.2 rfl
  · exact fun h => hf (fits_mono h (by decide +kernel))

/-- A closure that panics, and a timer that is stopped. -/
example : (∃ s s', run env0 (init env0) twoLs = some s ∧ step env0 s (.tSpawn true) = some s') ∧
    ∃ s s', run env0 (init env0) (idles 2 ++ [.uSend .stop, .eRecv]) = some s ∧ step env0 s .tLoad = some s' ∧
      s'.log = .halted :: s.log :=
  ⟨⟨_, _, rfl, rfl⟩, _, _, rfl, rfl, rfl⟩

end Ex

end DelayTimer
