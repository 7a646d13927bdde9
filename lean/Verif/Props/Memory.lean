import Verif.Props.Keeps
import Verif.Props.Alive
import Verif.Props.Timeout

/-!
# C67: what is kept of runs
-/

namespace DelayTimer
open Spec

/-- **C67, partial** The table of running bodies holds exactly the runs that have been registered and have not been
ended, each once; nothing is kept there of a run that has ended. -/
theorem C67_books_partial {env : Env} {s : St} (hr : Reachable env s) (id : Nat) :
    ((s.trace id).map (·.recordId)).Nodup ∧
    ∀ rec, rec ∈ (s.trace id).map (·.recordId) ↔ Underway id rec s.log := by
  refine ⟨?_, fun rec => ?_⟩
  · rw [List.Nodup, List.pairwise_map]
    exact ((traceOk hr).sorted id).imp fun h => h.1
  · rw [List.mem_map]
    exact (traceOk hr).mem id rec

/-- **C67, partial** Nor do the instances the timer holds on to for notification: each is one of a run that goes on, no
two of the same run. There are at most as many as runs that go on. -/
theorem C67_instances_partial {env : Env} {s : St} (hr : Reachable env s) {id : Nat} {m : TaskMark} {mt : Maintainer}
    (hf : s.flags id = some m) (hm : m.maintainer = some mt) :
    (mt.innerList.map (·.recordId)).Nodup ∧ (∀ i ∈ mt.innerList, i.taskId = id ∧ Underway id i.recordId s.log) ∧
    mt.innerList.length ≤ (s.trace id).length := by
  have hmt : mts s id = some mt := by rw [mts_eq hf, hm]
  have hi := instOk hr
  have h1 : (mt.innerList.map (·.recordId)).Nodup := by
    rw [List.Nodup, List.pairwise_map]
    exact (hi.sorted id mt hmt).imp fun h => h.1
  have h2 : ∀ i ∈ mt.innerList, i.taskId = id ∧ Underway id i.recordId s.log := fun i h => by
    obtain ⟨a, _, b, c⟩ := hi.inner id mt hmt i h
    exact ⟨a, b, c⟩
  refine ⟨h1, h2, ?_⟩
  have h3 := nodup_length_le h1 (b := (s.trace id).map (·.recordId)) (fun r hx => by
    obtain ⟨i, hi, rfl⟩ := List.mem_map.1 hx
    exact ((C67_books_partial hr id).2 _).2 (h2 i hi).2)
  simpa using h3

/-- **C67, what is missing** The deadline of a run is kept until it falls due, even if the run ended long ago: as long
as the sweeper has not read that time, it is in the heap or on its way there. -/
theorem C67_deadline_kept {env : Env} {ls : List Label} {s : St} {id rtn n ts m : Nat} {rec : Int}
    (h : run env (init env) ls = some s) (hm : ∀ t ∈ handed id ls, t.maximumRunningTime = some m)
    (hs : .started id rtn rec n ts ∈ s.log) (hf : ts + m < 2 ^ 64) (hd : .append id rec ∈ dispatchedTags s.log)
    (hw : ∀ now, .sWake now ∈ ls → now < ts + m) : ⟨ts + m, id, rec⟩ ∈ s.heap ++ s.unitChan := by
  have h1 := C66_registered h hm hs hf hd
  rw [List.append_assoc] at h1
  rcases List.mem_append.1 h1 with h2 | h2
  · exfalso
    obtain ⟨now, h3⟩ := mem_sweptUnits.1 h2
    have h4 := ((unitOk h).swept _ now h3).2
    have h5 := hw now ((swept_reading h).2 _ now h3)
    simp only at h4
    omega
  · exact h2

/-! ## Without bound -/

theorem recs_length (k : Nat) (log : List Obs) : (startedRecsOf k log).length = (startTicks k log).length := by
  induction log with
  | nil => rfl
  | cons o log ih =>
    cases o <;> simp only [startedRecsOf, startTicks] <;> try exact ih
    split
    · simp [ih]
    · exact ih

theorem run_then {env : Env} {a b c : St} {l1 l2 : List Label} (h1 : run env a l1 = some b) (h2 : run env b l2 = some c) :
    run env a (l1 ++ l2) = some c := by
  rw [run_append, h1]; exact h2

/-- Requests to cancel can always be made, and are queued in order. -/
theorem sends_cancels {env : Env} (k : Nat) : ∀ (rs : List Int) (s : St), ∃ s',
    run env s (rs.map fun r => .uSend (.cancel k r)) = some s' ∧
    queuedTags s'.log = queuedTags s.log ++ rs.map (.cancel k ·) := by
  intro rs
  induction rs with
  | nil => intro s; exact ⟨s, rfl, by simp⟩
  | cons r rs ih =>
    intro s
    obtain ⟨s', h1, h2⟩ := ih (push s (.cancelTask k r))
    refine ⟨s', ?_, ?_⟩
    · simp only [List.map_cons, run, step]; exact h1
    · rw [h2]; simp [push, queuedTags, TimerEvent.tag]

/-- **C67 fails** In every build without overflow checks, for every task with a running time limit that comes again and
again, and for every number: an execution in which all runs have ended, and the timer keeps more than
that many deadlines. -/
theorem C67_unbounded {env : Env} {t : Task} {m : Nat} (ho : env.overflowChecks = false) (hv : t.valid = true)
    (hlim : t.maximumParallelRunnableNum = none) (hrep : runsLeft t = none) (hal : ∀ j, alarm j t ≠ none)
    (hm : t.maximumRunningTime = some m) (N : Nat) :
    ∃ ls s, run env (init env) ls = some s ∧ (∀ k, ∀ t' ∈ handed k ls, t' = t) ∧
      (∀ id rec, ¬ Underway id rec s.log) ∧ N < s.heap.length ∧
      ∀ u ∈ s.heap, u.taskId = t.taskId ∧ .stopped t.taskId u.recordId ∈ s.log := by
  -- the task is added, and the event thread puts it into the wheel
  have hadd : ∀ ls, Addable env ls := fun ls h => by rw [ho] at h; cases h
  have h0 : run env (init env) [.uSend (.add t)] = some (push (init env) (.addTask t)) := rfl
  obtain ⟨lsA, s0, a1, a2, _, a4, a5⟩ := drains_idle ⟨_, h0⟩ (adds_of_added h0 (hadd _))
  have hA : run env (init env) ([] ++ .uSend (.add t) :: lsA) = some s0 := by
    simp only [List.nil_append, run, step]; exact a2
  have htA : ∀ l ∈ lsA, ¬ Touches t.taskId l := fun l hl => by rcases a1 l hl with rfl | rfl <;> exact id
  have hqu : Quiet t.taskId s0 := ⟨by rw [a5]; simp, by rw [a4]; exact id⟩
  -- the scheduler runs it often enough
  obtain ⟨B, hB⟩ := C59_keeps_running (l := .uSend (.add t)) (ls1 := []) (Or.inl rfl) rfl hv hlim (by simp) htA hA hqu N
    (fun n h => by rw [hrep] at h; cases h) (fun j _ => hal j)
  obtain ⟨lsB, s1, b1, b2, b3, b4⟩ := iterates hA
    (by simp only [List.nil_append, List.mem_cons]; rintro (h | h)
        · cases h
        · rcases a1 _ h with h | h <;> cases h)
    (by simp only [List.nil_append, List.mem_cons]; rintro (h | h)
        · cases h
        · rcases a1 _ h with h | h <;> cases h) B
    (fun k t' _ h => by rw [ho] at h; cases h)
  have hN := hB lsB s1 (fun l hl => (b1 l hl).touches _) b2 (by rw [b3]; simp) (by omega)
  have hr1 := run_then hA b2
  have hre1 : Reachable env s1 := ⟨_, hr1⟩
  -- all runs are cancelled
  obtain ⟨s2, c1, c2⟩ := sends_cancels (env := env) t.taskId (startedRecsOf t.taskId s1.log) s1
  have hr2 := run_then hr1 c1
  obtain ⟨lsC, s3, d1, d2, d3, _⟩ := drains_idle ⟨_, hr2⟩ (adds_of_added hr2 (hadd _))
  have hr3 := run_then hr2 d2
  -- the sweeper takes in their deadlines
  have hw3 : ∀ now, .sWake now ∉ ([] ++ .uSend (.add t) :: lsA ++ lsB ++
      (startedRecsOf t.taskId s1.log).map (fun r => Label.uSend (.cancel t.taskId r)) ++ lsC) := by
    intro now h
    simp only [List.nil_append, List.mem_append, List.mem_cons, List.mem_map] at h
    rcases h with (((h | h) | h) | ⟨_, _, h⟩) | h
    · cases h
    · rcases a1 _ h with h | h <;> cases h
    · exact (b1 _ h).elim
    · cases h
    · rcases d1 _ h with h | h <;> cases h
  have hidle : ∃ w, s3.spc = .idle w := by
    cases hp : s3.spc with
    | idle w => exact ⟨w, rfl⟩
    | active now n => exact absurd ((swept_reading hr3).1 now n hp) (hw3 now)
  obtain ⟨w, hidle⟩ := hidle
  obtain ⟨lsD, s4, e1, e2, _, e4, e5⟩ := takes_in (env := env) _ rfl hidle
  have hr4 := run_then hr3 e2
  have hre4 : Reachable env s4 := ⟨_, hr4⟩
  generalize hLS : ([] ++ Label.uSend (.add t) :: lsA ++ lsB ++
      (startedRecsOf t.taskId s1.log).map (fun r => Label.uSend (.cancel t.taskId r)) ++ lsC ++ lsD) = LS at hr4
  have hhand : ∀ k, ∀ t' ∈ handed k LS, t' = t ∧ k = t.taskId := by
    intro k t' ht'
    obtain ⟨l, hl, h⟩ := List.mem_flatMap.1 ht'
    rw [← hLS] at hl
    simp only [List.nil_append, List.mem_append, List.mem_cons, List.mem_map] at hl
    rcases hl with ((((rfl | hl) | hl) | ⟨_, _, rfl⟩) | hl) | hl
    · simp only [broughtBy] at h
      split at h
      · rename_i hk; exact ⟨List.mem_singleton.1 h, hk.symm⟩
      · cases h
    · rcases a1 _ hl with rfl | rfl <;> cases h
    · have := b1 _ hl
      cases l <;> first | exact this.elim | cases h
    · cases h
    · rcases d1 _ hl with rfl | rfl <;> cases h
    · rw [e1 _ hl] at h; cases h
  have hswept : sweptUnits s4.log = [] := by
    rw [e5]
    cases hx : sweptUnits s3.log with
    | nil => rfl
    | cons u us =>
      obtain ⟨now, h⟩ := mem_sweptUnits.1 (show u ∈ sweptUnits s3.log by rw [hx]; simp)
      exact absurd ((swept_reading hr3).2 u now h) (hw3 now)
  have hdisp : dispatchedTags s4.log = queuedTags s1.log ++ (startedRecsOf t.taskId s1.log).map (.cancel t.taskId ·) := by
    rw [e5, d3, c2]
  have hsub : ∀ o ∈ s1.log, o ∈ s4.log := fun o ho => by
    rw [e5]; exact log_mono_run d2 (log_mono_run c1 ho)
  have hst1 : startedRecs s1.log = appendRecs (queuedTags s1.log) := by
    have := (recOk hre1).start
    rw [b3] at this
    simpa [pendRecs] using this
  -- who was registered
  have hreg : ∀ id rec, .append id rec ∈ dispatchedTags s4.log → id = t.taskId ∧ rec ∈ startedRecsOf t.taskId s1.log ∧
      ∃ d, ⟨d, t.taskId, rec⟩ ∈ s4.heap := by
    intro id rec hx
    obtain ⟨t', ht', n, ts, h1, h2⟩ := (deadlineOk hr4).reg id rec hx
    obtain ⟨rfl, rfl⟩ := hhand id t' ht'
    refine ⟨rfl, ?_, ⟨_, by simpa [hswept, e4] using h2 m hm⟩⟩
    have h3 : rec ∈ startedRecs s1.log := by
      rw [hst1]
      rw [hdisp] at hx
      rcases List.mem_append.1 hx with hx | hx
      · exact List.mem_filterMap.2 ⟨_, hx, rfl⟩
      · obtain ⟨_, _, h⟩ := List.mem_map.1 hx; cases h
    obtain ⟨id', rtn', n', ts', h4⟩ := mem_startedRecs.1 h3
    obtain ⟨rfl, _⟩ := started_once hre4 (hsub _ h4) h1
    exact startedRecsOf_iff.2 ⟨_, _, _, h4⟩
  have hstop : ∀ rec ∈ startedRecsOf t.taskId s1.log, .append t.taskId rec ∈ dispatchedTags s4.log ∧
      .stopped t.taskId rec ∈ s4.log := by
    intro rec hx
    obtain ⟨rtn, n, ts, h1⟩ := startedRecsOf_iff.1 hx
    have h2 : rec ∈ appendRecs (queuedTags s1.log) := by
      rw [← hst1]; exact mem_startedRecs.2 ⟨_, _, _, _, h1⟩
    obtain ⟨tag, h3, h4⟩ := List.mem_filterMap.1 h2
    cases tag <;> simp at h4
    rename_i id rec'
    subst h4
    have h5 : .append id rec' ∈ dispatchedTags s4.log := by rw [hdisp]; exact List.mem_append_left _ h3
    obtain ⟨rfl, _⟩ := hreg id rec' h5
    refine ⟨h5, ((repOk hre4).ended _ _).1 ?_⟩
    obtain ⟨a, b, h6⟩ := List.append_of_mem hx
    rw [h6, List.map_append, List.map_cons, ← List.append_assoc] at hdisp
    obtain ⟨l1, l2, r, h7, h8⟩ := dispatched_split hdisp
    exact ⟨l1, l2, _, r, h7, by simp [endTags], by rw [h8]; exact List.mem_append_left _ h3⟩
  refine ⟨LS, s4, hr4, fun k t' h => (hhand k t' h).1, ?_, ?_, ?_⟩
  · rintro id rec ⟨h1, h2⟩
    obtain ⟨rfl, h3, _⟩ := hreg id rec h1
    exact h2 (hstop rec h3).2
  · have h1 : (startedRecsOf t.taskId s1.log).Nodup :=
      ((recOk hre1).sorted.imp fun h => h.1 : (startedRecs s1.log).Nodup).sublist (startedRecsOf_sublist _ _)
    have h2 := nodup_length_le h1 (b := s4.heap.map (·.recordId)) (fun rec hx => by
      obtain ⟨_, _, d, h3⟩ := hreg _ rec (hstop rec hx).1
      exact List.mem_map.2 ⟨_, h3, rfl⟩)
    rw [List.length_map, recs_length] at h2
    omega
  · intro u hu
    obtain ⟨h1, h2, _⟩ := hreg _ _ (units_registered hre4 u (Or.inr hu))
    exact ⟨h1, (hstop _ h2).2⟩

end DelayTimer

namespace DelayTimer.Ex
open Spec

/-- C67: a task handed in with a channel for its instances, two runs, of which the first is cancelled. -/
def kept : List Label :=
  ins { every 1 101 2 with maximumRunningTime := some 50 } ++ idle ++ idle ++ fire 1 0 ++ [.eRecv, .sAdd] ++ idle ++ fire 1 1 ++
  [.eRecv, .sAdd, .uSend (.cancel 1 0), .eRecv]

example : (run env0 (init env0) kept).isSome ∧ ((play env0 kept).trace 1).map (·.recordId) = [1] ∧
    (∃ m mt, (play env0 kept).flags 1 = some m ∧ m.maintainer = some mt ∧ mt.innerList.map (·.recordId) = [1]) ∧
    (play env0 kept).heap = [⟨154, 1, 1⟩, ⟨152, 1, 0⟩] := ⟨rfl, rfl, ⟨_, _, rfl, rfl, rfl⟩, rfl⟩

/-- C67, `C67_deadline_kept`: the first run was started at 102 and has ended; the sweeper has not looked yet. -/
example : .started 1 1 0 2 102 ∈ (play env0 kept).log ∧ .append 1 0 ∈ dispatchedTags (play env0 kept).log ∧
    .stopped 1 0 ∈ (play env0 kept).log ∧ (handed 1 kept).map (·.maximumRunningTime) = [some 50] ∧
    ∀ now, .sWake now ∉ kept := by
  refine ⟨by decide +kernel, by decide +kernel, by decide +kernel, rfl, fun now => ?_⟩
  simp [kept, ins, idle, fire, pop]

theorem alarms_seconds : ∀ (j : Nat) {t : Task} {f : SecondsState}, t.frequency = .secondsRepeated f → alarm j t ≠ none := by
  intro j
  induction j with
  | zero => intro t f h; simp [alarm, Task.getNextExecTimestamp, FrequencyInner.nextAlarm, h]
  | succ j ih =>
    intro t f h
    exact ih (f := f.next.2) (by simp [Task.getNextExecTimestamp, FrequencyInner.nextAlarm, h])

/-- C67, `C67_unbounded`: the alarms come every second, and every run may take an hour. -/
example (N : Nat) : ∃ ls s, run env0 (init env0) ls = some s ∧ (∀ id rec, ¬ Underway id rec s.log) ∧ N < s.heap.length := by
  obtain ⟨ls, s, h1, _, h2, h3, _⟩ := C67_unbounded (env := env0)
    (t := { every 1 101 1 with maximumRunningTime := some 3600 }) rfl rfl rfl rfl (fun j => alarms_seconds j rfl) rfl N
  exact ⟨ls, s, h1, h2, h3⟩

end DelayTimer.Ex
