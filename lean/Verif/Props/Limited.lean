import Verif.Props.Keeps
import Verif.Props.Parallel
import Verif.Proofs.Advance

/-!
# C65: due runs come, with a limit on parallel runs

As C59, for tasks with a limit: no due run is passed over silently.
-/

namespace DelayTimer
open Spec

/-! ## The mark of an added task -/

/-- After its insertion a task is marked as soon as the event thread is done with it. -/
theorem recorded_run {env : Env} {k : Nat} : ∀ (ls : List Label) {s s' : St}, Quiet k s →
    ((∃ tag m, s.epc = .add3 tag m ∧ m.taskId = k) ∨ s.flags k ≠ none) →
    (∀ l ∈ ls, ¬ Touches k l) → run env s ls = some s' →
    (∃ tag m, s'.epc = .add3 tag m ∧ m.taskId = k) ∨ s'.flags k ≠ none := by
  intro ls
  induction ls with
  | nil => intro s s' _ h _ hr; cases hr; exact h
  | cons l ls ih =>
    intro s s' hq h ht hr
    obtain ⟨s1, h1, h2⟩ := run_cons hr
    have ha := step_act h1
    refine ih (quiet_step hq (ht l List.mem_cons_self) ha) ?_ (fun l hl => ht l (List.mem_cons_of_mem _ hl)) h2
    rcases h with ⟨tag, m, e1, e2⟩ | h
    · by_cases hl : l = .eNext
      · subst hl
        right
        simp only [step, eNext, e1] at h1
        cases h1
        simp [set, e2]
      · left
        refine ⟨tag, m, ?_, e2⟩
        cases ha
        all_goals try (exact absurd rfl hl)
        all_goals try (exact e1)
        all_goals try (have := e1.symm.trans ‹s.epc = _›; cases this; done)
        all_goals (simp; exact e1)
    · exact Or.inr (marked_step (fun _ => hq.epc) h ha)

/-- In a task's life no one has missed its mark yet while it waits. -/
theorem Life.waiting {M : Prop} {clock : Nat → Nat} {k : Nat} {t0 : Task} {D0 : Nat} {A0 S0 R0 : List Nat} {s : St}
    (h : Life False clock k t0 D0 A0 S0 R0 s) (hw : Waiting k s) (hM : M → s.flags k ≠ none) :
    Life M clock k t0 D0 A0 S0 R0 s := by
  obtain ⟨⟨ns, ds, h1, h2, h3, h4, h5, hP⟩, _⟩ := h
  obtain ⟨i, sl, t, e1, e2, e3⟩ := hw
  refine ⟨⟨ns, ds, h1, h2, h3, h4, h5, ?_⟩, hM⟩
  cases hP with
  | sched t D hs hD ha hsub hall => exact .sched t D hs hD ha hsub hall
  | fly t' ms hf hns hD hst => exact absurd ⟨sl, e1, e2, e3⟩ (hf.nowhere i t)
  | gone ht hn hne hsub hall he => exact absurd ⟨sl, e1, e2, e3⟩ (hn i t)

theorem Life.unattempted {M : Prop} {clock : Nat → Nat} {k : Nat} {t0 : Task} {D0 : Nat} {A0 S0 R0 : List Nat} {s : St}
    (h : Life M clock k t0 D0 A0 S0 R0 s) (ha : attempts k s.log = A0) : Waiting k s := by
  obtain ⟨⟨ns, ds, h1, h2, h3, h4, h5, hP⟩, _⟩ := h
  have hns : ns = [] := by rw [ha] at h1; simpa using h1
  cases hP with
  | sched t D hs hD ha hsub hall =>
    obtain ⟨_, _, i, c, ⟨sl, e1, e2, e3⟩, _⟩ := hs
    exact ⟨i, sl, _, e1, e2, e3⟩
  | fly t' ms hf hns' hD hst => rw [hns] at hns'; simp at hns'
  | gone ht hn hne hsub hall he => exact absurd hns hne

/-! ## What was handed in follows its time table -/

/-- The life of a task handed in once, from the moment its request has been processed. -/
theorem settled_life {env : Env} {k a : Nat} {t : Task} {ls1 ls2 : List Label} {l : Label} {s0 : St}
    (hl : HandsIn t l) (hk : t.taskId = k) (hv : t.valid = true) (ha : alarm 0 t = some a)
    (h1 : ∀ l ∈ ls1, ¬ Touches k l) (h2 : ∀ l ∈ ls2, ¬ Touches k l)
    (hr : run env (init env) (ls1 ++ l :: ls2) = some s0) (hq : Settled k s0) :
    ∃ D, ∃ s1 : St, attempts k s1.log = [] ∧ startTicks k s1.log = [] ∧ s0.flags k ≠ none ∧
      Life False env.clock k t.getNextExecTimestamp.2 D (attempts k s1.log) (startTicks k s1.log)
        (startRoutines k s1.log) s0 := by
  obtain ⟨m, s1, s2, hand, ts, e1, e2, e3, e4, e5, e6, e7⟩ := handed_inserted hl hk hv ha h1 h2 hr hq.quiet
  refine ⟨_, s1, e6, e7, ?_, e2.after e1 e3 e5 e4⟩
  obtain ⟨c, he⟩ := e2.epc
  obtain ⟨_, _, _, f4, f5, f6⟩ := insert_sched (wheelOk e1) he e2.id e2.valid e2.absent e3
  have hadd : ∃ tag m, s2.epc = .add3 tag m ∧ m.taskId = k := by
    simp only [step, eNext, he] at e3
    cases e3
    exact ⟨_, _, rfl, e2.id⟩
  rcases recorded_run m ⟨by rw [f5]; exact e2.quiet, f6⟩ (Or.inl hadd) e5 e4 with ⟨tag, mk, g1, g2⟩ | h
  · exact absurd g2 (hq.recorded tag mk g1)
  · exact h

/-- **C65**. A task with or without a parallel limit is handed in once, with an id that nothing else concerns; when
the request has been processed, the task waits in the wheel. Then from the call on all its attempts follow one time
table; a due attempt is missed only when its count has been used up; only starts use up its count. -/
theorem C65_partial {env : Env} {k a : Nat} {t : Task} {ls1 ls2 : List Label} {l : Label} {s0 : St}
    (hl : HandsIn t l) (hk : t.taskId = k) (hv : t.valid = true)
    (h0 : runsLeft t ≠ some 0) (ha : alarm 0 t = some a)
    (h1 : ∀ l ∈ ls1, ¬ Touches k l) (h2 : ∀ l ∈ ls2, ¬ Touches k l)
    (hr : run env (init env) (ls1 ++ l :: ls2) = some s0) (hq : Settled k s0) (hw : Waiting k s0) :
    ∃ D, ∀ ls s, (∀ l ∈ ls, ¬ Touches k l) → run env s0 ls = some s → s.tpc ≠ .panicked →
      RunsOut k (runsLeft t) (timetable env.clock D (fun j => alarm (j + 1) t)) (init env) s := by
  obtain ⟨D, s1, e1, e2, e3, e4⟩ := settled_life hl hk hv ha h1 h2 hr hq
  refine ⟨D, fun ls s hls hrun hp => ?_⟩
  have h3 := (life_run ls ⟨_, hr⟩ hq.quiet (e4.waiting (M := True) hw (fun _ => e3)) hls hrun).1
  obtain ⟨ns, ds, f1, f2, f3⟩ := h3.runsOut trivial (by rw [runsLeft_ask]; exact h0) hp
  rw [runsLeft_ask] at f3
  exact ⟨ns, ds, by rw [f1, e1]; rfl, by rw [f2, e2]; rfl, f3⟩

/-- **C65** without looking into the timer: it suffices that the request was processed before the first attempt. -/
theorem C65_waits {env : Env} {k a : Nat} {t : Task} {ls1 ls2 : List Label} {l : Label} {s0 : St}
    (hl : HandsIn t l) (hk : t.taskId = k) (hv : t.valid = true) (ha : alarm 0 t = some a)
    (h1 : ∀ l ∈ ls1, ¬ Touches k l) (h2 : ∀ l ∈ ls2, ¬ Touches k l)
    (hr : run env (init env) (ls1 ++ l :: ls2) = some s0) (hq : Settled k s0) (hn : attempts k s0.log = []) :
    Waiting k s0 := by
  obtain ⟨D, s1, e1, _, _, e4⟩ := settled_life hl hk hv ha h1 h2 hr hq
  exact e4.unattempted (by rw [hn, e1])

/-- **C65**, attempt by attempt. For every `i` for which the task has alarms there is a tick by which it has been
attempted more than `i` times, or started as often as its count says, in every execution that gets that far. -/
theorem C65_keeps_coming_partial {env : Env} {k : Nat} {t : Task} {ls1 ls2 : List Label} {l : Label} {s0 : St}
    (hl : HandsIn t l) (hk : t.taskId = k) (hv : t.valid = true) (h0 : runsLeft t ≠ some 0)
    (h1 : ∀ l ∈ ls1, ¬ Touches k l) (h2 : ∀ l ∈ ls2, ¬ Touches k l)
    (hr : run env (init env) (ls1 ++ l :: ls2) = some s0) (hq : Settled k s0) (hn : attempts k s0.log = [])
    (i : Nat) (hal : ∀ j, j ≤ i → alarm j t ≠ none) :
    ∃ B, ∀ ls s, (∀ l ∈ ls, ¬ Touches k l) → run env s0 ls = some s → s.tpc ≠ .panicked → B < s.ticks →
      i < (attempts k s.log).length ∨ runsLeft t = some (startTicks k s.log).length := by
  cases ha : alarm 0 t with
  | none => exact absurd ha (hal 0 (by omega))
  | some a =>
    obtain ⟨D, hD⟩ := C65_partial hl hk hv h0 ha h1 h2 hr hq (C65_waits hl hk hv ha h1 h2 hr hq hn)
    obtain ⟨B, hB⟩ := timetable_some (clock := env.clock) (D := D) (alarms := fun j => alarm (j + 1) t) i
      (fun j hj => hal (j + 1) (by omega))
    refine ⟨B, fun ls s hls hrun hp hlt => ?_⟩
    obtain ⟨ns, ds, f1, f2, _, _, _, f3⟩ := hD ls s hls hrun hp
    rw [f1, f2]
    rcases f3 with f3 | f3
    · left
      simpa [init, attempts] using (List.getElem?_eq_some_iff.1 (f3 i B hB hlt)).1
    · right; simpa [init, startTicks] using f3

/-! ## No attempt vanishes -/

theorem skips_step {env : Env} {s : St} {l : Label} {s' : St} (k : Nat) (h : Act env s l s') :
    skipTicks k s'.log = skipTicks k s.log ∨
    (∃ p t, s.tpc = .check p t ∧ t.taskId = k ∧ s'.tpc = .rearm p t false ∧
      s'.log = .skipped k s.ticks :: s.log) := by
  cases h
  case check_skip pending t rec m mk h hrec hmax hf hle =>
    by_cases hk : t.taskId = k
    · subst hk; exact Or.inr ⟨_, _, h, rfl, rfl, rfl⟩
    · left; simp [skipTicks, hk]
  case recv_cancel id rec rest he hc =>
    left
    rcases cancelTask_log env true { s with chan := rest } id rec CANCELLED with h | h | ⟨_, _, h⟩ <;>
      simp [h, skipTicks]
  case recv_timeout id rec rest he hc =>
    left
    rcases cancelTask_log env false { s with chan := rest } id rec TIMEOUT with h | h | ⟨_, _, h⟩ <;>
      simp [h, skipTicks]
  case recv_finish b rest he hc =>
    left
    rcases finishTask_log env { s with chan := rest } b.taskId b.recordId with h | h | ⟨_, _, h⟩ <;>
      simp [h, skipTicks]
  all_goals (left; first | rfl | (simp [skipTicks]; done))

/-- What becomes of the attempts: at most one is being decided, and the others were started, skipped, or, `d` of them,
lost. As long as the task has its mark, none is lost unless the scheduler is killed. -/
def Tally (k d : Nat) (s : St) : Prop :=
  (attempts k s.log).length =
    (startTicks k s.log).length + (skipTicks k s.log).length + (undecided k s).length + d

theorem tally_step {env : Env} {k d : Nat} {s : St} {l : Label} {s' : St} (hs : Tally k d s) (h : Act env s l s') :
    Tally k d s' ∨ Tally k (d + 1) s' ∧ (s.flags k = none ∨ s'.tpc = .panicked) := by
  unfold Tally at *
  by_cases hl : TLabel l
  · cases h
    all_goals try (exact False.elim hl)
    all_goals try (left; simpa [attempts, startTicks, skipTicks, undecided, ‹s.tpc = _›] using hs; done)
    case pop_hit pending id sl u h hmem hw hr =>
      have := (removeTask_some hr).2
      left
      by_cases hk : id = k
      · subst hk; simp [attempts, startTicks, skipTicks, undecided, h, this] at hs ⊢; omega
      · simpa [attempts, startTicks, skipTicks, undecided, h, this, hk] using hs
    case check_nomark pending t rec m h hrec hmax hf =>
      by_cases hk : t.taskId = k
      · subst hk
        right
        refine ⟨?_, Or.inl hf⟩
        simp [undecided, h] at hs ⊢; omega
      · left; simpa [attempts, startTicks, skipTicks, undecided, h, hk] using hs
    case check_skip pending t rec m mk h hrec hmax hf hle =>
      left
      by_cases hk : t.taskId = k
      · simp [attempts, startTicks, skipTicks, undecided, h, hk] at hs ⊢; omega
      · simpa [attempts, startTicks, skipTicks, undecided, h, hk] using hs
    case spawn pending t rec h =>
      left
      by_cases hk : t.taskId = k
      · simp [attempts, startTicks, skipTicks, undecided, h, hk] at hs ⊢; omega
      · simpa [attempts, startTicks, skipTicks, undecided, h, hk] using hs
    case spawn_panic pending t rec h =>
      by_cases hk : t.taskId = k
      · right
        refine ⟨?_, Or.inr rfl⟩
        simp [undecided, h, hk] at hs ⊢; omega
      · left; simpa [attempts, startTicks, skipTicks, undecided, h, hk] using hs
  · left
    have e := (other_thread h hl).1
    have e0 : undecided k s' = undecided k s := by simp only [undecided, e, (other_thread h hl).2]
    rw [e0]
    rcases attempts_step k h with e1 | ⟨rfl, _⟩
    · rw [e1]
      rcases starts_step k h with ⟨e2, _⟩ | ⟨rfl, _⟩
      · rw [e2]
        rcases skips_step k h with e3 | ⟨p, t, e3, _, e4, _⟩
        · rw [e3]; exact hs
        · rw [e, e3] at e4; cases e4
      · exact absurd trivial hl
    · exact absurd trivial hl

theorem tally_reachable {env : Env} {s : St} (hr : Reachable env s) (k : Nat) : ∃ d, Tally k d s := by
  refine hr.induct (fun s => ∃ d, Tally k d s) ⟨0, rfl⟩ ?_
  rintro s l s' _ ⟨d, hd⟩ h
  rcases tally_step hd h with h | ⟨h, _⟩
  · exact ⟨d, h⟩
  · exact ⟨d + 1, h⟩

/-- As long as `k` has its mark and nothing is done about `k`, no attempt is lost. -/
theorem tally_run {env : Env} {k d : Nat} : ∀ (ls : List Label) {s s' : St}, Quiet k s → s.flags k ≠ none →
    (∀ l ∈ ls, ¬ Touches k l) → run env s ls = some s' → s'.tpc ≠ .panicked → Tally k d s → Tally k d s' := by
  intro ls
  induction ls with
  | nil => intro s s' _ _ _ hr _ h; cases hr; exact h
  | cons l ls ih =>
    intro s s' hq hf ht hr hp h
    obtain ⟨s1, h1, h2⟩ := run_cons hr
    have ha := step_act h1
    refine ih (quiet_step hq (ht l List.mem_cons_self) ha) (marked_step (fun _ => hq.epc) hf ha)
      (fun l hl => ht l (List.mem_cons_of_mem _ hl)) h2 hp ?_
    rcases tally_step h ha with h | ⟨_, h | h⟩
    · exact h
    · exact absurd h hf
    · exact absurd (panicked_forever ls h h2).1 hp

/-- **C65**, no attempt vanishes. Under the hypotheses of `C65_keeps_coming_partial`, whenever the scheduler is between two
ticks, every attempt so far was a start, or a skip because of the limit. -/
theorem C65_accounted_partial {env : Env} {k a : Nat} {t : Task} {ls1 ls2 : List Label} {l : Label} {s0 : St}
    (hl : HandsIn t l) (hk : t.taskId = k) (hv : t.valid = true) (ha : alarm 0 t = some a)
    (h1 : ∀ l ∈ ls1, ¬ Touches k l) (h2 : ∀ l ∈ ls2, ¬ Touches k l)
    (hr : run env (init env) (ls1 ++ l :: ls2) = some s0) (hq : Settled k s0) (hn : attempts k s0.log = [])
    {ls : List Label} {s : St} (hls : ∀ l ∈ ls, ¬ Touches k l) (hrun : run env s0 ls = some s) (hh : s.tpc = .head) :
    (attempts k s.log).length = (startTicks k s.log).length + (skipTicks k s.log).length := by
  obtain ⟨_, _, _, _, hf, _⟩ := settled_life hl hk hv ha h1 h2 hr hq
  obtain ⟨d, hd⟩ := tally_reachable ⟨_, hr⟩ k
  have h3 : d = 0 := by unfold Tally at hd; rw [hn] at hd; simp at hd; omega
  have := tally_run ls hq.quiet hf hls hrun (by rw [hh]; simp) hd
  simpa [Tally, undecided, hh, h3] using this

/-! ## How a limited task is lost -/

/-- What is not scheduled, and not about to be, stays so. -/
theorem absent_run {env : Env} {k : Nat} : ∀ (ls : List Label) {s s' : St}, Absent k s → Quiet k s →
    (∀ l ∈ ls, ¬ Touches k l) → run env s ls = some s' → Absent k s' ∧ Quiet k s' ∧
      attempts k s'.log = attempts k s.log ∧ startTicks k s'.log = startTicks k s.log := by
  intro ls
  induction ls with
  | nil => intro s s' ha hq _ hr; cases hr; exact ⟨ha, hq, rfl, rfl⟩
  | cons l ls ih =>
    intro s s' ha hq hl hr
    obtain ⟨s1, h1, h2⟩ := run_cons hr
    have hact := step_act h1
    obtain ⟨g1, g2, _⟩ := absent_log ha hact
    obtain ⟨e1, e2, e3, e4⟩ := ih (absent_step ha hact
      (fun u rest _ hc => hq.chan (.updateTask u) (by rw [hc]; exact List.mem_cons_self))
      (fun u c hand exec ts _ he => by have := hq.epc; rw [he] at this; exact this)
      (fun u hand _ he => by have := hq.epc; rw [he] at this; exact this))
      (quiet_step hq (hl l List.mem_cons_self) hact) (fun l h => hl l (List.mem_cons_of_mem _ h)) h2
    exact ⟨e1, e2, e3.trans g1, e4.trans g2⟩

/-- **C65** is violated this way: if the scheduler gets to the only copy of a limited task before its mark has been
recorded, then the task is not started, not skipped, and never heard of again. -/
theorem C65_lost {env : Env} {k m : Nat} {t : Task} {p : List Nat} {s s1 s2 : St} {rec : Int} {ls : List Label}
    (hr : Reachable env s) (hp : s.tpc = .check p t) (hk : t.taskId = k)
    (hlim : t.maximumParallelRunnableNum = some m) (hf : s.flags k = none) (hw : ¬ Waiting k s) (hq : Quiet k s)
    (hs : step env s (.tCheck rec) = some s1) (hl : ∀ l ∈ ls, ¬ Touches k l) (hrun : run env s1 ls = some s2) :
    attempts k s2.log = attempts k s.log ∧ startTicks k s2.log = startTicks k s.log ∧
      skipTicks k s1.log = skipTicks k s.log ∧ Absent k s2 := by
  have hact := step_act hs
  have hnp : k ∉ p := by
    have := (handOk hr).notPending k (by rw [hp]; simp [tpcTok, hk])
    rw [hp] at this; exact this
  cases hact with
  | check_nolimit pending t' _ h hrec hmax => rw [hp] at h; cases h; rw [hlim] at hmax; cases hmax
  | check_skip pending t' _ m' mk h hrec hmax hf' hle => rw [hp] at h; cases h; rw [hk, hf] at hf'; cases hf'
  | check_ok pending t' _ m' mk h hrec hmax hf' hlt => rw [hp] at h; cases h; rw [hk, hf] at hf'; cases hf'
  | check_nomark pending t' _ m' h hrec hmax hf' =>
    rw [hp] at h; cases h
    obtain ⟨e1, _, e3, e4⟩ := absent_run ls (s := { s with recs := rec :: s.recs, tpc := .batch p })
      ⟨hw, hnp⟩ ⟨hq.chan, hq.epc⟩ hl hrun
    exact ⟨e3, e4, rfl, e1⟩

/-- **C65** as listed: without the condition that the request was processed before the first attempt. -/
def C65_statement : Prop :=
  ∀ (env : Env) (k : Nat) (t : Task) (ls1 ls2 : List Label) (l : Label) (s0 : St),
    HandsIn t l → t.taskId = k → t.valid = true → runsLeft t ≠ some 0 → (∀ j, alarm j t ≠ none) →
    (∀ m, t.maximumParallelRunnableNum = some m → 0 < m) →
    (∀ l ∈ ls1, ¬ Touches k l) → (∀ l ∈ ls2, ¬ Touches k l) →
    run env (init env) (ls1 ++ l :: ls2) = some s0 → Settled k s0 →
    ∀ i, ∃ B, ∀ ls s, (∀ l ∈ ls, ¬ Touches k l) → run env s0 ls = some s → s.tpc ≠ .panicked → B < s.ticks →
      i < (attempts k s.log).length ∨ runsLeft t = some (startTicks k s.log).length

namespace Ex

/-- Task 1, with a limit of one, has been put into the wheel but not recorded yet when it is due. -/
def racePre : List Label := [.eRecv, .eNext, .eNext] ++ idles 2 ++ take 1

/-- The scheduler goes on, then the event thread. -/
def racePost : List Label := [.tLapse, .eNext]

def raceS : St := play env0 (.uSend (.add (upTo 1 (every 1 101 3))) :: racePre)
def raceS1 : St := (step env0 raceS (.tCheck 0)).getD raceS
def raceS2 : St := (run env0 raceS1 racePost).getD raceS

theorem raceS_reachable : Reachable env0 raceS := play_reachable (by decide +kernel)

theorem race_lost {ls : List Label} {s : St} (hl : ∀ l ∈ ls, ¬ Touches 1 l) (hr : run env0 raceS1 ls = some s) :
    attempts 1 s.log = [2] ∧ startTicks 1 s.log = [] := by
  obtain ⟨h1, h2, _⟩ := C65_lost (env := env0) (k := 1) (m := 1) (p := []) (rec := 0)
    (t := { upTo 1 (every 1 101 3) with frequency := .secondsRepeated ⟨102, 2, false⟩ })
    raceS_reachable rfl rfl rfl (by decide +kernel) (not_waiting raceS_reachable (by decide +kernel))
    ⟨by rw [show raceS.chan = [] from rfl]; simp, by
      rw [show raceS.epc = .add3 (.add 1) ⟨1, 2, 0, none⟩ from rfl]; simp [BusyWith]⟩
    (s1 := raceS1) rfl hl hr
  exact ⟨by rw [h1]; decide +kernel, by rw [h2]; decide +kernel⟩

end Ex

/-- The listed property is violated: a limited task that comes due between its insertion into the wheel and the
recording of its mark is attempted once, not started, and never comes again. -/
theorem C65_violated : ¬ C65_statement := by
  intro h
  have hrun : run Ex.env0 (init Ex.env0) ([] ++ .uSend (.add (Ex.upTo 1 (Ex.every 1 101 3))) ::
      (Ex.racePre ++ .tCheck 0 :: Ex.racePost)) = some Ex.raceS2 := rfl
  obtain ⟨B, hB⟩ := h Ex.env0 1 (Ex.upTo 1 (Ex.every 1 101 3)) [] (Ex.racePre ++ .tCheck 0 :: Ex.racePost)
    (.uSend (.add (Ex.upTo 1 (Ex.every 1 101 3)))) Ex.raceS2 (Or.inl rfl) rfl rfl (by decide)
    (fun j => by
      rw [alarm_seconds_new 0 101 3 (by decide) (by decide) (Ex.upTo 1 (Ex.every 1 101 3)) (Or.inl rfl) j]; simp)
    (fun m hm => by cases hm; decide) (by decide) (by decide) hrun
    ⟨⟨by rw [show Ex.raceS2.chan = [] from rfl]; simp, by rw [show Ex.raceS2.epc = .idle from rfl]; simp [BusyWith]⟩,
      by intro tag m he; rw [show Ex.raceS2.epc = .idle from rfl] at he; cases he⟩ 1
  obtain ⟨s, ⟨ls, h3, h4, _⟩, h5, h6⟩ := finish_ticks B
    (sound_of_handed hrun (fun k t ht => fun h => absurd h (by decide))) rfl
    (by rw [show Ex.raceS2.tpc = .head from rfl]; simp) (by rw [show Ex.raceS2.tpc = .head from rfl]; simp)
  have ht : ∀ l ∈ ls, ¬ Touches 1 l := fun l hl => (h4 l hl).touches 1
  have h7 : run Ex.env0 Ex.raceS1 (Ex.racePost ++ ls) = some s := by
    rw [run_append, show run Ex.env0 Ex.raceS1 Ex.racePost = some Ex.raceS2 from rfl]; exact h3
  obtain ⟨h8, _⟩ := Ex.race_lost (fun l hl => by
    rcases List.mem_append.1 hl with h | h
    · exact (by decide : ∀ l ∈ Ex.racePost, ¬ Touches 1 l) l h
    · exact ht l h) h7
  rcases hB ls s ht h3 (by rw [h5]; simp) (by omega) with h | h
  · rw [h8] at h; exact absurd h (by decide)
  · cases h

namespace Ex

/-- Task 1 with a limit of one is added, then attempted at ticks 2, 5 and 8; the second time it is skipped, because the
first run is still going on. -/
def capS : St := play env0 (.uSend (.add (upTo 1 (every 1 101 3))) :: [.eRecv, .eNext, .eNext, .eNext])
def capRest : List Label :=
  idles 2 ++ fire 1 0 ++ [.eRecv] ++ idles 2 ++ skip 1 1 ++ ending 0 ++ idles 2 ++ fire 1 2
def capS2 : St := (run env0 capS capRest).getD capS

/-- `C65_partial`, `C65_waits`, `C65_keeps_coming_partial` and `C65_accounted_partial`: their hypotheses are met. -/
example : run env0 (init env0) ([] ++ .uSend (.add (upTo 1 (every 1 101 3))) :: [.eRecv, .eNext, .eNext, .eNext]) =
      some capS ∧ Settled 1 capS ∧ attempts 1 capS.log = [] ∧ Waiting 1 capS ∧ (∀ l ∈ capRest, ¬ Touches 1 l) ∧
      run env0 capS capRest = some capS2 ∧ capS2.tpc = .head ∧
      attempts 1 capS2.log = [2, 5, 8] ∧ startTicks 1 capS2.log = [2, 8] ∧ skipTicks 1 capS2.log = [5] := by
  have hs : Settled 1 capS :=
    ⟨⟨by rw [show capS.chan = [] from rfl]; simp, by rw [show capS.epc = .idle from rfl]; simp [BusyWith]⟩,
      fun tag m he => by rw [show capS.epc = .idle from rfl] at he; cases he⟩
  have hr : run env0 (init env0) ([] ++ .uSend (.add (upTo 1 (every 1 101 3))) :: [.eRecv, .eNext, .eNext, .eNext]) =
    some capS := rfl
  refine ⟨hr, hs, by decide +kernel, C65_waits (Or.inl rfl) rfl rfl rfl (by decide) (by decide) hr hs (by decide +kernel),
    by decide, rfl, rfl, by decide +kernel, by decide +kernel, by decide +kernel⟩

/-- `C65_lost`: its hypotheses are met. -/
example : Reachable env0 raceS ∧ raceS.flags 1 = none ∧ step env0 raceS (.tCheck 0) = some raceS1 ∧
    run env0 raceS1 (racePost ++ idles 30) ≠ none :=
  ⟨raceS_reachable, by decide +kernel, rfl, by
    have : (run env0 raceS1 (racePost ++ idles 30)).isSome := by decide +kernel
    intro h; rw [h] at this; cases this⟩

end Ex

end DelayTimer
