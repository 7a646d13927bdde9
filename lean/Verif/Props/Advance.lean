import Verif.Proofs.Advance
import Verif.Props.Rearm
import Verif.Props.Parallel

/-!
# Advancing (C14, C15) and updating (C16) a waiting task
-/

namespace DelayTimer
open Spec

theorem Spec.Waits.inWheel {k i : Nat} {t : Task} {s : St} (h : Waits k t i s) : inWheel s.wheel k i t := by
  obtain ⟨sl, h1, h2⟩ := h.slot
  exact ⟨sl, h1, h2, h.id⟩

theorem nextVisit_spec {env : Env} {s : St} (hr : Reachable env s) {i : Nat} (hi : (s.wheel i).isSome) :
    NextVisit s i (nextVisit (base s) i) := by
  have hlt : i < 3600 := ((wheelOk hr).shape.1 i).1 hi
  refine ⟨nextVisit_mod _ _ hlt, ?_, ?_⟩ <;> rw [base_eq] <;> unfold nextVisit <;> omega

theorem NextVisit.unique {s : St} {i n m : Nat} (h1 : NextVisit s i n) (h2 : NextVisit s i m) : n = m := by
  obtain ⟨a1, a2, a3⟩ := h1
  obtain ⟨b1, b2, b3⟩ := h2
  omega

/-- The course of an advance: taken from the channel in `s`, put back in `s2`. -/
structure Advanced (env : Env) (k : Nat) (t : Task) (i hand : Nat) (s s2 s3 : St) : Prop where
  reach : Reachable env s
  waits : Waits k t i s
  /-- `advance_task(k)` is the next event, and no other operation on `k` is queued -/
  chan : ∃ rest, s.chan = .advanceTask k :: rest ∧ ∀ e ∈ rest, ¬ EventTouches k e
  /-- The event is taken, other threads may go on, until the task is about to be put back … -/
  taken : ∃ s1 ls, step env s .eRecv = some s1 ∧ (∀ l ∈ ls, ¬ Touches k l) ∧ run env s1 ls = some s2
  /-- … behind the hand position that has been read -/
  epc : ∃ u, s2.epc = .adv2 u hand ∧ u.taskId = k
  back : step env s2 .eNext = some s3

theorem Advanced.course {env : Env} {k i hand : Nat} {t : Task} {s s2 s3 : St}
    (h : Advanced env k t i hand s s2 s3) :
    Advancing k { t with cylinderLine := 0 } s2 ∧ s2.epc = .adv2 { t with cylinderLine := 0 } hand ∧
    Reachable env s2 ∧ attempts k s2.log = attempts k s.log ∧ startTicks k s2.log = startTicks k s.log ∧
      startRoutines k s2.log = startRoutines k s.log := by
  obtain ⟨hr, hw, ⟨rest, hc, hrest⟩, ⟨s1, ls, h1, hl, h2⟩, ⟨u, he, hu⟩, h3⟩ := h
  obtain ⟨ha, hlog⟩ := advance_taken (wheelOk hr) hc hrest hw.inWheel hw.valid hw.record hw.free h1
  rcases advancing_run ls ha hl h2 with ⟨h4, e1, e2, e3⟩ | h4
  · refine ⟨h4, ?_, (hr.step h1).run h2, by rw [e1, hlog], by rw [e2, hlog], by rw [e3, hlog]⟩
    rcases h4.epc with h5 | ⟨hd, h5⟩
    · rw [he] at h5; cases h5
    · rw [he] at h5; cases h5; exact he
  · exact absurd hu (by have := h4.epc; rw [he] at this; exact this)

theorem Advanced.life {env : Env} {k i hand : Nat} {t : Task} {s s2 s3 s4 : St} {ls : List Label}
    (h : Advanced env k t i hand s s2 s3) (hh : hand < 3599) (hl : ∀ l ∈ ls, ¬ Touches k l)
    (hr : run env s3 ls = some s4) :
    Life True env.clock k { t with cylinderLine := 0 } (nextVisit (base s2) (hand + 1))
      (attempts k s.log) (startTicks k s.log) (startRoutines k s.log) s4 := by
  obtain ⟨h1, h2, h3, h4, h5, h6⟩ := h.course
  obtain ⟨g1, _, g2, g3, g4, g5, g6, g7, g8, g9⟩ := advance_sched (wheelOk h3) h2 hh h1.id rfl h.waits.valid h1.absent h.back
  refine (life_run ls (h3.step h.back) ⟨by rw [g5]; exact h1.chan, by rw [g6]; exact id⟩
    (g1.life (M := True) (fun _ => by rw [g4]; exact h1.mark) (by rw [g7, h4]) (by rw [g8, h5]) (by rw [g9, h6])) hl hr).1

/-! ## C14 -/

/-- **C14**, in general: a waiting task whose recorded place is right is attempted at the first visit, still to
come, of the slot behind the hand position that `advance_task` has read, whatever its remaining delay. -/
theorem C14_any {env : Env} {k i hand : Nat} {t : Task} {s s2 s3 s4 : St} {ls : List Label}
    (h : Advanced env k t i hand s s2 s3) (hh : hand < 3599) (hl : ∀ l ∈ ls, ¬ Touches k l)
    (hr : run env s3 ls = some s4) {n : Nat} (hn : NextVisit s2 (hand + 1) n) : NextAttemptAt k n s s4 := by
  have h3 := h.course.2.2.1
  rw [NextVisit.unique hn (nextVisit_spec h3 (((wheelOk h3).shape.1 _).2 (show hand + 1 < 3600 by omega)))]
  exact (h.life hh hl hr).first

/-- **C14**: if the hand has not moved since `advance_task` read it, and it is not at the last slot, the task is
attempted at the very next tick.

Missing: the last slot (`C14_lost`), a hand that moves on between reading it and putting the task back
(`Ex.C14_fails_late`), and tasks whose recorded place is wrong (`Ex.C14_fails_stale`). -/
theorem C14_partial {env : Env} {k i : Nat} {t : Task} {s s2 s3 s4 : St} {ls : List Label}
    (h : Advanced env k t i s2.secondHand s s2 s3) (hh : s2.secondHand < 3599) (hl : ∀ l ∈ ls, ¬ Touches k l)
    (hr : run env s3 ls = some s4) : NextAttemptAt k (s2.ticks + 1) s s4 := by
  refine C14_any h hh hl hr ?_
  have := (wheelOk h.course.2.2.1).hand
  refine ⟨by omega, ?_, ?_⟩ <;> split <;> omega

/-- **C14** fails at the last slot: an advanced task is lost. From any state and for any remaining delay,
if `advance_task` reads the hand at 3599 the task is dropped: it is no longer scheduled, and never attempted
again unless the user calls for it. -/
theorem C14_lost {env : Env} {k i : Nat} {t : Task} {s s2 s3 s4 : St} {ls : List Label}
    (h : Advanced env k t i 3599 s s2 s3) (hl : ∀ l ∈ ls, ¬ Touches k l) (hr : run env s3 ls = some s4) :
    Absent k s4 ∧ attempts k s4.log = attempts k s.log ∧ startTicks k s4.log = startTicks k s.log := by
  obtain ⟨h1, h2, h3, h4, h5, -⟩ := h.course
  have hb := step_act h.back
  have hw : s2.wheel 3600 = none := by
    have := (wheelOk h3).shape.1 3600
    cases hx : s2.wheel 3600 with
    | none => rfl
    | some sl => rw [hx] at this; exact absurd (this.1 rfl) (by decide)
  have h6 : Absent k s3 ∧ Quiet k s3 ∧ attempts k s3.log = attempts k s2.log ∧ startTicks k s3.log = startTicks k s2.log := by
    obtain ⟨g1, g2, -⟩ := absent_log h1.absent hb
    cases hb
    all_goals try (have hx := h2.symm.trans ‹s2.epc = _›; cases hx; done)
    case next_adv2 u hd sl he hw' =>
      have hx := h2.symm.trans he
      cases hx
      rw [hw] at hw'; cases hw'
    case next_adv2_missing u hd he hw' =>
      refine ⟨?_, ⟨by simpa using h1.chan, by simp [BusyWith]⟩, g1, g2⟩
      have := absent_iff.1 h1.absent
      exact absent_iff.2 (by simpa using this)
  suffices hs : ∀ (ls : List Label) (s3 : St), Absent k s3 → Quiet k s3 → (∀ l ∈ ls, ¬ Touches k l) →
      run env s3 ls = some s4 → Absent k s4 ∧ attempts k s4.log = attempts k s3.log ∧
        startTicks k s4.log = startTicks k s3.log by
    obtain ⟨e1, e2, e3⟩ := hs ls s3 h6.1 h6.2.1 hl hr
    exact ⟨e1, by rw [e2, h6.2.2.1, h4], by rw [e3, h6.2.2.2, h5]⟩
  clear hr hl
  intro ls
  induction ls with
  | nil => intro s3 ha _ _ hr; cases hr; exact ⟨ha, rfl, rfl⟩
  | cons l ls ih =>
    intro s3 ha hq hl hr
    simp only [run] at hr
    split at hr
    rotate_left
    · cases hr
    rename_i s5 h7
    have hact := step_act h7
    obtain ⟨g1, g2, _⟩ := absent_log ha hact
    have ha' : Absent k s5 := by
      refine absent_step ha hact ?_ ?_ ?_
      · intro u rest _ hc
        exact hq.chan (.updateTask u) (by rw [hc]; exact List.mem_cons_self)
      · intro u c hand exec ts _ he; have := hq.epc; rw [he] at this; exact this
      · intro u hand _ he; have := hq.epc; rw [he] at this; exact this
    obtain ⟨e1, e2, e3⟩ := ih s5 ha' (quiet_step hq (hl l List.mem_cons_self) hact)
      (fun l h => hl l (List.mem_cons_of_mem _ h)) hr
    exact ⟨e1, by rw [e2, g1], by rw [e3, g2]⟩

/-! ## C15 -/

/-- **C15**: what is put back is the task that was waiting — routine, frequency with its remaining count-down,
limits and all —, up to the revolutions left to wait. -/
theorem C15_same_task {env : Env} {k i hand : Nat} {t : Task} {s s2 s3 : St}
    (h : Advanced env k t i hand s s2 s3) (hh : hand < 3599) :
    ∃ sl, s3.wheel (hand + 1) = some sl ∧ { t with cylinderLine := 0 } ∈ sl := by
  obtain ⟨h1, h2, h3, _⟩ := h.course
  obtain ⟨_, ⟨sl, g1, g2, _⟩, _⟩ := advance_sched (wheelOk h3) h2 hh h1.id rfl h.waits.valid h1.absent h.back
  exact ⟨sl, g1, g2⟩

/-- **C15**, for comparison: the course of a waiting task that is left alone. `D` is the tick of its pending
alarm, and `alarm 0 t`, `alarm 1 t`, … are those after it. -/
theorem C15_left_alone {env : Env} {k i n : Nat} {t : Task} {s s4 : St} {ls : List Label}
    (hr : Reachable env s) (hw : Waits k t i s) (hq : Quiet k s) (hn : NextVisit s i n)
    (hl : ∀ l ∈ ls, ¬ Touches k l) (hrun : run env s ls = some s4) (hp : s4.tpc ≠ .panicked)
    (hM : t.maximumParallelRunnableNum = none ∨ runsLeft t = none) (h0 : runsLeft t ≠ some 0) :
    OnSchedule k (cut (runsLeft t) (timetable env.clock (n + 3600 * t.cylinderLine) (fun j => alarm j t))) s s4 ∧
    (t.maximumParallelRunnableNum = none →
      StartsOnSchedule k (cut (runsLeft t) (timetable env.clock (n + 3600 * t.cylinderLine) (fun j => alarm j t))) s s4) := by
  obtain ⟨sl, h1, h2⟩ := hw.slot
  obtain ⟨m, h3, _⟩ := hw.record i sl t h1 h2 hw.id
  rw [NextVisit.unique hn (nextVisit_spec hr (by rw [h1]; rfl))]
  obtain ⟨hs, _⟩ := waits_sched (wheelOk hr) hw.inWheel hw.valid hw.record hw.free
  refine (life_run ls hr hq (hs.life (M := True) (fun _ => by rw [h3]; simp) rfl rfl rfl) hl hrun).1.both ?_ h0 hp
  rcases hM with h | h
  · exact Or.inl h
  · exact Or.inr ⟨h, trivial⟩

/-- **C15**: the course of the same task when it is advanced: the same count-down, and the same alarms
`alarm 0 t`, `alarm 1 t`, … follow; only the first entry of the time table is another, the advanced run. -/
theorem C15_partial {env : Env} {k i hand n : Nat} {t : Task} {s s2 s3 s4 : St} {ls : List Label}
    (h : Advanced env k t i hand s s2 s3) (hh : hand < 3599) (hn : NextVisit s2 (hand + 1) n)
    (hl : ∀ l ∈ ls, ¬ Touches k l) (hr : run env s3 ls = some s4) (hp : s4.tpc ≠ .panicked)
    (hM : t.maximumParallelRunnableNum = none ∨ runsLeft t = none) (h0 : runsLeft t ≠ some 0) :
    OnSchedule k (cut (runsLeft t) (timetable env.clock n (fun j => alarm j t))) s s4 ∧
    (t.maximumParallelRunnableNum = none →
      StartsOnSchedule k (cut (runsLeft t) (timetable env.clock n (fun j => alarm j t))) s s4) := by
  have h3 := h.course.2.2.1
  rw [NextVisit.unique hn (nextVisit_spec h3 (((wheelOk h3).shape.1 _).2 (show hand + 1 < 3600 by omega)))]
  have hal : (fun j => alarm j { t with cylinderLine := 0 }) = fun j => alarm j t := by
    funext j; exact alarm_congr j _ _ (fun _ h => h) (fun _ h => h) (fun n _ h => ⟨n, h⟩) (fun n _ h => ⟨n, h⟩)
  have := (h.life hh hl hr).both (by
    rcases hM with h | h
    · exact Or.inl h
    · exact Or.inr ⟨h, trivial⟩) h0 hp
  rw [hal] at this
  exact this

/-- **C15** with a parallel limit: also then the advanced task follows the same time table, with the advanced run in
place of the pending one, and only its actual starts use up the count-down it had. -/
theorem C15_limited {env : Env} {k i hand n : Nat} {t : Task} {s s2 s3 s4 : St} {ls : List Label}
    (h : Advanced env k t i hand s s2 s3) (hh : hand < 3599) (hn : NextVisit s2 (hand + 1) n)
    (hl : ∀ l ∈ ls, ¬ Touches k l) (hr : run env s3 ls = some s4) (hp : s4.tpc ≠ .panicked)
    (h0 : runsLeft t ≠ some 0) :
    RunsOut k (runsLeft t) (timetable env.clock n (fun j => alarm j t)) s s4 := by
  have h3 := h.course.2.2.1
  rw [NextVisit.unique hn (nextVisit_spec h3 (((wheelOk h3).shape.1 _).2 (show hand + 1 < 3600 by omega)))]
  have hal : (fun j => alarm j { t with cylinderLine := 0 }) = fun j => alarm j t := by
    funext j; exact alarm_congr j _ _ (fun _ h => h) (fun _ h => h) (fun n _ h => ⟨n, h⟩) (fun n _ h => ⟨n, h⟩)
  have := (h.life hh hl hr).runsOut trivial h0 hp
  rw [hal] at this
  exact this

/-- **C15**, for comparison: the same task when it is left alone. -/
theorem C15_limited_alone {env : Env} {k i n : Nat} {t : Task} {s s4 : St} {ls : List Label}
    (hr : Reachable env s) (hw : Waits k t i s) (hq : Quiet k s) (hn : NextVisit s i n)
    (hl : ∀ l ∈ ls, ¬ Touches k l) (hrun : run env s ls = some s4) (hp : s4.tpc ≠ .panicked)
    (h0 : runsLeft t ≠ some 0) :
    RunsOut k (runsLeft t) (timetable env.clock (n + 3600 * t.cylinderLine) (fun j => alarm j t)) s s4 := by
  obtain ⟨sl, h1, h2⟩ := hw.slot
  obtain ⟨m, h3, _⟩ := hw.record i sl t h1 h2 hw.id
  rw [NextVisit.unique hn (nextVisit_spec hr (by rw [h1]; rfl))]
  obtain ⟨hs, _⟩ := waits_sched (wheelOk hr) hw.inWheel hw.valid hw.record hw.free
  exact (life_run ls hr hq (hs.life (M := True) (fun _ => by rw [h3]; simp) rfl rfl rfl) hl hrun).1.runsOut
    trivial h0 hp

/-- **C15**: with a steady clock, moving the first entry of a time table does not move any other, as long as
the alarm after it is not over: all later runs are unaffected by the advance. -/
theorem C15_later_runs {clock : Nat → Nat} (hc : Steady clock) {n n' a : Nat} {al : Nat → Option Nat}
    (ha : al 0 = some a) (h1 : clock n ≤ a) (h2 : clock n' ≤ a) (j : Nat) :
    timetable clock n al (j + 1) = timetable clock n' al (j + 1) := by
  induction j with
  | zero =>
    simp only [timetable, ha, rearm, if_pos h1, if_pos h2, Option.some.injEq]
    have e1 := steady_add hc 0 n
    have e2 := steady_add hc 0 n'
    rw [Nat.zero_add] at e1 e2
    omega
  | succ j ih => rw [timetable.eq_2 _ _ _ (j + 1), timetable.eq_2 _ _ _ (j + 1), ih]

/-! ## C16 -/

/-- **C16**, first half: when the update of a waiting task whose recorded place is right is taken, the previous body
is never started again: whatever is started under this id from then on is the new body.

Missing: updates taken while the scheduler is running the task (`Ex.C16_fails_in_hand`) or when its recorded
place is wrong. -/
theorem C16_old_body_partial {env : Env} {k i : Nat} {t u : Task} {s s1 s2 : St} {rest : List TimerEvent} {ls : List Label}
    (hr : Reachable env s) (hw : Waits k t i s) (hc : s.chan = .updateTask u :: rest)
    (hrest : ∀ e ∈ rest, ¬ EventTouches k e) (hk : u.taskId = k) (hv : u.valid = true)
    (h1 : step env s .eRecv = some s1) (hl : ∀ l ∈ ls, ¬ Touches k l) (hrun : run env s1 ls = some s2) :
    ∃ rs, startRoutines k s2.log = startRoutines k s.log ++ rs ∧ ∀ r ∈ rs, r = u.routine := by
  obtain ⟨g1, g2, g3, g4, g5, g6, g7, g8, g9⟩ := update_sched hc hk hw.inWheel hv hw.record hw.free h1
  obtain ⟨⟨ns, ds, _, _, h2, _⟩, _⟩ := (life_run ls (hr.step h1) ⟨by rw [g5]; exact hrest, by rw [g6]; exact id⟩
    (g1.life (M := False) False.elim g7 g8 g9) hl hrun).1
  refine ⟨_, h2, ?_⟩
  intro r hr
  obtain ⟨_, _, rfl⟩ := List.mem_map.1 hr
  rfl

/-- **C16**, second half, as far as it goes: the new task takes the place of the old one. It is first attempted
at the next visit of the slot in which the *old* one was waiting (plus the revolutions of the new one, which
are 0 in a task built by the user), and then follows its own alarms.

This is not its own frequency: see `Ex.C16_fails_frequency`. -/
theorem C16_schedule_partial {env : Env} {k i n : Nat} {t u : Task} {s s1 s2 : St} {rest : List TimerEvent}
    {ls : List Label} (hr : Reachable env s) (hw : Waits k t i s) (hc : s.chan = .updateTask u :: rest)
    (hrest : ∀ e ∈ rest, ¬ EventTouches k e) (hk : u.taskId = k) (hv : u.valid = true) (hn : NextVisit s i n)
    (h1 : step env s .eRecv = some s1) (hl : ∀ l ∈ ls, ¬ Touches k l) (hrun : run env s1 ls = some s2)
    (hp : s2.tpc ≠ .panicked) (hM : u.maximumParallelRunnableNum = none ∨ runsLeft u = none)
    (h0 : runsLeft u ≠ some 0) :
    OnSchedule k (cut (runsLeft u) (timetable env.clock (n + 3600 * u.cylinderLine) (fun j => alarm j u))) s s2 ∧
    (u.maximumParallelRunnableNum = none →
      StartsOnSchedule k (cut (runsLeft u) (timetable env.clock (n + 3600 * u.cylinderLine) (fun j => alarm j u))) s s2) := by
  obtain ⟨sl, h2, h3⟩ := hw.slot
  obtain ⟨m, h4, _⟩ := hw.record i sl t h2 h3 hw.id
  rw [NextVisit.unique hn (nextVisit_spec hr (by rw [h2]; rfl))]
  obtain ⟨g1, g2, g3, g4, g5, g6, g7, g8, g9⟩ := update_sched hc hk hw.inWheel hv hw.record hw.free h1
  refine (life_run ls (hr.step h1) ⟨by rw [g5]; exact hrest, by rw [g6]; exact id⟩
    (g1.life (M := True) (fun _ => by rw [g4, h4]; simp) g7 g8 g9) hl hrun).1.both ?_ h0 hp
  rcases hM with h | h
  · exact Or.inl h
  · exact Or.inr ⟨h, trivial⟩

/-! ## Examples and counterexamples -/

namespace Ex

/-- What is added: alarms at 120, 170, …, the first of which has been asked for. -/
def slowT : Task := (every 1 120 50).getNextExecTimestamp.2

def slowLs : List Label := add (every 1 120 50)

def slowS (op : UserOp) : St := play env0 (slowLs ++ [.uSend op])

theorem slow_reachable (op : UserOp) : Reachable env0 (slowS op) :=
  play_reachable (by cases op <;> rfl)

/-- Task 1 waits in slot 21. -/
theorem slow_waits (op : UserOp) (he : elsewhere 1 21 (slowS op) = false) : Waits 1 slowT 21 (slowS op) := by
  refine ⟨⟨_, by cases op <;> rfl, List.mem_cons_self⟩, rfl, rfl, ?_, ?_⟩
  · intro i sl t h1 h2 h3
    have hi : i = 21 := only_at (slow_reachable op) he i sl t h1 h2 h3
    rw [hi]
    exact ⟨_, by cases op <;> rfl, rfl⟩
  · have : (slowS op).tpc = .head := by cases op <;> rfl
    rw [this]; exact id

def slowS2 : St := play env0 (slowLs ++ [.uSend (.advance 1)] ++ [.eRecv, .eNext])

def slowS3 : St := play env0 (slowLs ++ [.uSend (.advance 1)] ++ [.eRecv, .eNext, .eNext])

/-- An advance as `C14_partial`, `C15_same_task` and `C15_partial` want it: instead of at tick 21, task 1 is
attempted at tick 1. -/
theorem slow_advanced : Advanced env0 1 slowT 21 slowS2.secondHand (slowS (.advance 1)) slowS2 slowS3 :=
  ⟨slow_reachable _, slow_waits _ (by decide +kernel), ⟨[], rfl, by simp⟩,
    ⟨_, [.eNext], rfl, by intro l hl; simp at hl; subst hl; exact id, rfl⟩, ⟨_, rfl, rfl⟩, rfl⟩

example : slowS2.secondHand < 3599 ∧ (∀ l ∈ idles 1 ++ fire 1 1, ¬ Touches 1 l) ∧
    (run env0 slowS3 (idles 1 ++ fire 1 1)).isSome ∧
    startTicks 1 (play env0 (slowLs ++ [.uSend (.advance 1)] ++ [.eRecv, .eNext, .eNext] ++ (idles 1 ++ fire 1 1))).log = [1] ∧
    slowT.maximumParallelRunnableNum = none ∧ runsLeft slowT = none := by
  refine ⟨by decide +kernel, ?_, by rfl, by decide +kernel, rfl, rfl⟩
  have : (idles 1 ++ fire 1 1 : List Label).all (fun l => decide (¬ Touches 1 l)) = true := by decide +kernel
  intro l hl
  exact of_decide_eq_true (List.all_eq_true.1 this l hl)

/-- The same for a task with a count-down of three that may not run twice at a time (`C15_limited`): it is run at
tick 1 instead of 21, and skipped at tick 71 because that run still goes on. -/
def limT : Task := { times 3 1 120 50 with maximumParallelRunnableNum := some 1 }

def limS : St := play env0 (add limT ++ [.uSend (.advance 1)])

def limS2 : St := play env0 (add limT ++ [.uSend (.advance 1)] ++ [.eRecv, .eNext])

def limS3 : St := play env0 (add limT ++ [.uSend (.advance 1)] ++ [.eRecv, .eNext, .eNext])

def limRest : List Label :=
  idles 1 ++ fire 1 1 ++ idles 69 ++ [.tLoad, .tStore, .tArrive, .tPop 1, .tCheck 2, .tSlot, .tMark, .tLapse]

theorem lim_advanced : Advanced env0 1 limT.getNextExecTimestamp.2 21 limS2.secondHand limS limS2 limS3 := by
  refine ⟨play_reachable (by decide +kernel), ⟨⟨_, by rfl, List.mem_cons_self⟩, rfl, rfl, ?_, ?_⟩, ⟨[], rfl, by simp⟩,
    ⟨_, [.eNext], rfl, by intro l hl; simp at hl; subst hl; exact id, rfl⟩, ⟨_, rfl, rfl⟩, rfl⟩
  · intro i sl t h1 h2 h3
    have hi : i = 21 := only_at (play_reachable (by decide +kernel)) (by decide +kernel) i sl t h1 h2 h3
    rw [hi]
    exact ⟨_, rfl, rfl⟩
  · have : limS.tpc = .head := rfl
    rw [this]; exact id

example : runsLeft limT.getNextExecTimestamp.2 = some 3 ∧
    (run env0 limS3 limRest).isSome ∧
    startTicks 1 (play env0 (add limT ++ [.uSend (.advance 1)] ++ [.eRecv, .eNext, .eNext] ++ limRest)).log = [1] ∧
    attempts 1 (play env0 (add limT ++ [.uSend (.advance 1)] ++ [.eRecv, .eNext, .eNext] ++ limRest)).log = [1, 71] := by
  refine ⟨rfl, by decide +kernel, by decide +kernel, by decide +kernel⟩

/-- C15_later_runs: the alarm after the pending one is at 170. Advanced to tick 1 or not (tick 21), the run
after that is at tick 71. -/
example : Steady env0.clock ∧ alarm 0 slowT = some 170 ∧ env0.clock 1 ≤ 170 ∧ env0.clock 21 ≤ 170 ∧
    timetable env0.clock 1 (fun j => alarm j slowT) 1 = some 71 := by
  refine ⟨fun n => by simp [env0]; omega, by decide +kernel, by decide, by decide, by decide +kernel⟩

/-- The hand moves on between reading it and putting the task back. -/
def lateS2 : St := play env0 (slowLs ++ [.uSend (.advance 1)] ++ [.eRecv, .eNext] ++ idles 2)

def lateS3 : St := play env0 (slowLs ++ [.uSend (.advance 1)] ++ [.eRecv, .eNext] ++ idles 2 ++ [.eNext])

theorem idles_touch (k : Nat) : ∀ n, ∀ l ∈ idles n, ¬ Touches k l := by
  intro n
  induction n with
  | zero => intro l hl; cases hl
  | succ n ih =>
    intro l hl
    simp only [idles, idle, List.cons_append, List.nil_append, List.mem_cons] at hl
    rcases hl with rfl | rfl | rfl | rfl | hl
    · exact id
    · exact id
    · exact id
    · exact id
    · exact ih l hl

theorem late_advanced : Advanced env0 1 slowT 21 0 (slowS (.advance 1)) lateS2 lateS3 := by
  refine ⟨slow_reachable _, slow_waits _ (by decide +kernel), ⟨[], rfl, by simp⟩,
    ⟨_, .eNext :: idles 2, rfl, ?_, rfl⟩, ⟨_, rfl, rfl⟩, rfl⟩
  intro l hl
  rcases List.mem_cons.1 hl with rfl | hl
  · exact id
  · exact idles_touch 1 2 l hl

/-- **C14** fails when the hand moves on while the event thread is at it: task 1, due at tick 21 and advanced
in tick 0, is attempted no sooner than at tick 3601. -/
theorem C14_fails_late : ∃ s s2 s3, Advanced env0 1 slowT 21 0 s s2 s3 ∧ s.ticks = 0 ∧ s2.ticks = 2 ∧
    NextVisit s 21 21 ∧ slowT.cylinderLine = 0 ∧
    ∀ ls s4, (∀ l ∈ ls, ¬ Touches 1 l) → run env0 s3 ls = some s4 → NextAttemptAt 1 3601 s s4 := by
  refine ⟨_, _, _, late_advanced, rfl, rfl, ?_, rfl, fun ls s4 hl hr => C14_any late_advanced (by decide) hl hr ?_⟩
  · have h1 : (slowS (.advance 1)).tpc = .head := by rfl
    have h2 : (slowS (.advance 1)).ticks = 0 := by rfl
    unfold NextVisit
    rw [h1, h2]; decide
  · have h1 : lateS2.tpc = .head := by rfl
    have h2 : lateS2.ticks = 2 := by rfl
    unfold NextVisit
    rw [h1, h2]; decide

/-- Task 1 has been run before its mark was recorded (so that the mark is wrong), and is then advanced. -/
def staleLs : List Label :=
  [.uSend (.add (every 1 101 5)), .eRecv, .eNext, .eNext] ++ idles 2 ++ fire 1 1 ++ [.eNext, .eRecv] ++
    [.uSend (.advance 1), .eRecv]

/-- **C14** fails when the recorded place is wrong: the advance is processed, without success, in tick 3; task
1 is not started at tick 4, but at tick 7 as if nothing had been called. -/
theorem C14_fails_stale : ∃ s s', run env0 (init env0) staleLs = some s ∧ s.ticks = 3 ∧ Waiting 1 s ∧ Quiet 1 s ∧
    s.log.head? = some (.dispatched (.advance 1) none) ∧
    run env0 s (idles 4 ++ fire 1 2) = some s' ∧ startTicks 1 s'.log = [2, 7] := by
  refine ⟨play env0 staleLs, play env0 (staleLs ++ (idles 4 ++ fire 1 2)), play_run (by rfl), rfl,
    ⟨7, _, _, by rfl, List.mem_cons_self, rfl⟩, ⟨?_, ?_⟩, by rfl, by rfl, by decide +kernel⟩
  · rw [show (play env0 staleLs).chan = [] by rfl]; simp
  · rw [show (play env0 staleLs).epc = .idle by rfl]; exact id

/-- The new task: another body, alarms at 150, 250, … -/
def newT : Task := { every 1 150 100 with routine := 9 }

/-- Hypotheses of the C16 theorems: task 1 is updated while it waits in slot 21. -/
example : Reachable env0 (slowS (.update newT)) ∧ Waits 1 slowT 21 (slowS (.update newT)) ∧
    (slowS (.update newT)).chan = [.updateTask newT] ∧ NextVisit (slowS (.update newT)) 21 21 ∧
    (step env0 (slowS (.update newT)) .eRecv).isSome ∧
    newT.maximumParallelRunnableNum = none ∧ runsLeft newT ≠ some 0 := by
  refine ⟨slow_reachable _, slow_waits _ (by decide +kernel), rfl, ?_, rfl, rfl, by decide⟩
  have h1 : (slowS (.update newT)).tpc = .head := by rfl
  have h2 : (slowS (.update newT)).ticks = 0 := by rfl
  unfold NextVisit
  rw [h1, h2]; decide

/-- **C16** fails: the new body is started at tick 21 (time 121), when the old one would have been; its own first
alarm is at 150. -/
theorem C16_fails_frequency : ∃ s s', Reachable env0 s ∧ Waits 1 slowT 21 s ∧ s.chan = [.updateTask newT] ∧
    run env0 s (.eRecv :: (idles 21 ++ fire 1 1)) = some s' ∧ startTicks 1 s'.log = [21] ∧
    startRoutines 1 s'.log = [9] ∧ env0.clock 21 = 121 ∧ alarm 0 newT = some 150 := by
  refine ⟨slowS (.update newT), (run env0 (slowS (.update newT)) (.eRecv :: (idles 21 ++ fire 1 1))).getD (init env0),
    slow_reachable _, slow_waits _ (by decide +kernel), rfl, ?_, by decide +kernel, by decide +kernel, rfl, by decide +kernel⟩
  have h : (run env0 (slowS (.update newT)) (.eRecv :: (idles 21 ++ fire 1 1))).isSome = true := by decide +kernel
  obtain ⟨x, hx⟩ := Option.isSome_iff_exists.1 h
  rw [hx]; rfl

/-- **C16** fails for a task that the scheduler is just running: the update is processed after the run at tick 2;
the old body is started again at tick 7. -/
theorem C16_fails_in_hand : ∃ s s', run env0 (init env0) (add (every 1 101 5) ++ idles 2 ++ pop 1 1 ++
      [.eRecv, .uSend (.update newT), .eRecv]) = some s ∧
    s.log.head? = some (.dispatched (.update 1) (some true)) ∧ startRoutines 1 s.log = [1] ∧
    run env0 s ([.tSlot, .tMark, .tLapse] ++ idles 4 ++ fire 1 2) = some s' ∧ startRoutines 1 s'.log = [1, 1] := by
  refine ⟨play env0 (add (every 1 101 5) ++ idles 2 ++ pop 1 1 ++ [.eRecv, .uSend (.update newT), .eRecv]),
    play env0 (add (every 1 101 5) ++ idles 2 ++ pop 1 1 ++ [.eRecv, .uSend (.update newT), .eRecv] ++
      ([.tSlot, .tMark, .tLapse] ++ idles 4 ++ fire 1 2)), play_run (by rfl), by rfl, by decide +kernel, by rfl,
    by decide +kernel⟩

end Ex

/-- The loss of C14 does happen: in every environment (unless the clock is about to overflow) and for every
id there is an execution that adds a task and advances it, with the hand at 3599. -/
theorem C14_loss_happens (env : Env) (k : Nat) (hclk : env.clock 3598 + 11 < 2 ^ 64) :
    ∃ t i s s2 s3, Advanced env k t i 3599 s s2 s3 := by
  obtain ⟨ls, s0, h1, hi, h2⟩ := idleAt env 3599
  let t := someTask k (s0.globalTime + 10)
  obtain ⟨t', ht, ht1, ht2⟩ : ∃ t', t.getNextExecTimestamp = (some (s0.globalTime + 10), t') ∧ t'.taskId = k ∧
      t'.valid = true := ⟨_, rfl, rfl, rfl⟩
  have hov : t.alarmOverflows = false := by
    refine alarmOverflows_iff.2 fun j hj a ha => ?_
    obtain rfl : j = 0 := by omega
    have htime : s0.globalTime = env.clock 3598 := hi.time
    simp [plainAlarm, t, someTask, SecondsState.new] at ha
    omega
  have hw : ∀ i, s0.wheel i = if i < 3600 then some [] else none := fun i => by rw [hi.wheel]; rfl
  have hh : s0.secondHand = 3599 := hi.hand
  let t1 : Task := { t' with cylinderLine := 1 }
  let ls1 : List Label := [.uSend (.add t), .eRecv, .eNext, .eNext, .eNext, .uSend (.advance k)]
  obtain ⟨s, hs, hsw, hsf, hsc, hse, hst, hsh⟩ : ∃ s, run env s0 ls1 = some s ∧
      s.wheel = set s0.wheel 10 (some [t1]) ∧ (∃ m, s.flags k = some m ∧ m.slotMark = 10) ∧
      s.chan = [.advanceTask k] ∧ s.epc = .idle ∧ s.tpc = .head ∧ s.secondHand = 3599 := by
    have ht1' : t.taskId = k := rfl
    simp [ls1, run, step, eRecv, eNext, hi.epc, hi.chan, push, UserOp.event, ht, hov, hh, hw, checkedSub, Slot.addTask,
      dropMark, hi.flags, hi.tpc, t1, ht1, done_flags]
  have hr : Reachable env s := ⟨ls ++ ls1, by rw [run_append, h1]; exact hs⟩
  obtain ⟨m, hm, hm'⟩ := hsf
  have hcopy : ∀ j sl u, s.wheel j = some sl → u ∈ sl → j = 10 := by
    intro j sl u h3 h4
    rw [hsw, set_apply] at h3
    split at h3
    · assumption
    · rw [hw] at h3
      split at h3 <;> cases h3
      cases h4
  have hwaits : Waits k t1 10 s :=
    ⟨⟨[t1], by rw [hsw, set_same], List.mem_cons_self⟩, ht1, ht2,
      fun j sl u h3 h4 _ => ⟨m, hm, by rw [hm', hcopy j sl u h3 h4]⟩, by rw [hst]; exact id⟩
  obtain ⟨s1, h3⟩ : ∃ s1, step env s .eRecv = some s1 := by
    simp [step, eRecv, hse, hsc, hm, hm', hsw, Slot.removeTask, t1, ht1]
  obtain ⟨s2, h4, u, h5, h6⟩ : ∃ s2, step env s1 .eNext = some s2 ∧ ∃ u, s2.epc = .adv2 u 3599 ∧ u.taskId = k := by
    simp [step, eRecv, hse, hsc, hm, hm', hsw, Slot.removeTask, t1, ht1] at h3
    subst h3
    simp [step, eNext, hsh]
  obtain ⟨s3, h7⟩ : ∃ s3, step env s2 .eNext = some s3 := by
    simp only [step, eNext, h5]
    split <;> exact ⟨_, rfl⟩
  exact ⟨t1, 10, s, s2, s3, hr, hwaits, ⟨[], hsc, by simp⟩,
    ⟨s1, [.eNext], h3, by intro l hl; simp at hl; subst hl; exact id, by simp [run, h4]⟩, ⟨u, h5, h6⟩, h7⟩

end DelayTimer
