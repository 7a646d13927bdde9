import Verif.Proofs.Sweep
import Verif.Examples

/-! # The sweeper: C30, C31, C32; and where started bodies come from: C52 -/

namespace DelayTimer
open Spec

/-- **C52.** Every body started is the body of a task handed in before under that id. -/
theorem C52_origin {env : Env} {ls : List Label} {s : St} {id rtn n ts : Nat} {rec : Int}
    (h : run env (init env) ls = some s) (hs : .started id rtn rec n ts ∈ s.log) :
    ∃ t ∈ handed id ls, t.routine = rtn := by
  revert id rtn n ts rec
  refine handed_induct (fun ls s => ∀ {id rtn n ts : Nat} {rec : Int}, .started id rtn rec n ts ∈ s.log →
    ∃ t ∈ handed id ls, t.routine = rtn) ?_ ?_ ls s h
  · intro _ _ _ _ _ hx; cases hx
  · intro ls s l s' hr hs ha id rtn n ts rec hx
    have hold : .started id rtn rec n ts ∈ s.log → ∃ t ∈ handed id (ls ++ [l]), t.routine = rtn := by
      intro ho
      obtain ⟨t, ht, hrt⟩ := hs ho
      exact ⟨t, by rw [handed_append]; exact List.mem_append_left _ ht, hrt⟩
    rcases log_cases ha with ⟨nw, hn, hmi, hsub⟩ | ⟨p, t, rec', box', rfl, hp, hp', hb, hn, hce⟩ | ⟨e'', hc', hn, he⟩ | ⟨u, now, k, rfl, hp, hc', hn⟩ | ⟨rec', r, rfl, hr, hn, hce⟩
    · rw [hn] at hx
      rcases List.mem_append.1 hx with hx | hx
      · exact absurd (hmi _ hx) (by simp [Minor])
      · exact hold hx
    · rw [hn] at hx
      rcases List.mem_cons.1 hx with hx | hx
      · cases hx
        obtain ⟨t0, h0, hrt, _⟩ := (stems hr t.taskId).held t (by rw [hp]; simp [heldTok])
        exact ⟨t0, by rw [handed_append]; exact List.mem_append_left _ h0, hrt⟩
      · exact hold hx
    · rw [hn] at hx; exact hold (by simpa using hx)
    · rw [hn] at hx; exact hold (by simpa using hx)
    · rw [hn] at hx; exact hold (by simpa using hx)

/-- A reading of the round in progress, or of a sweep, was made by `sWake`. -/
theorem swept_reading {env : Env} {ls : List Label} {s : St} (h : run env (init env) ls = some s) :
    (∀ now n, s.spc = .active now n → .sWake now ∈ ls) ∧ ∀ u now, .swept u now ∈ s.log → .sWake now ∈ ls := by
  refine handed_induct (fun ls s => (∀ now n, s.spc = .active now n → .sWake now ∈ ls) ∧
    ∀ u now, .swept u now ∈ s.log → .sWake now ∈ ls) ?_ ?_ ls s h
  · exact ⟨fun _ _ hx => (by cases hx), fun _ _ hx => (by cases hx)⟩
  · rintro ls s l s' hr ⟨h1, h2⟩ ha
    have h1' : ∀ now n, s.spc = .active now n → .sWake now ∈ ls ++ [l] :=
      fun now n hx => List.mem_append_left _ (h1 now n hx)
    have h2' : ∀ u now, .swept u now ∈ s.log → .sWake now ∈ ls ++ [l] :=
      fun u now hx => List.mem_append_left _ (h2 u now hx)
    rcases unit_cases ⟨ls, hr⟩ ha with ⟨a, b, c, d, e⟩ | ⟨id, box, rest, e, hc, a, b, c, d, f⟩ | ⟨w, u, rest, rfl, hq, hu, a, b, c, d⟩ | ⟨w, now, rfl, hq, _, c, a, b, d⟩ | ⟨u, now, n, rfl, hq, hu, hmin, hle, a, b, c, d⟩ | ⟨now, n, w, rfl, _, c, _, a, b, d⟩
    · exact ⟨by rw [c]; exact h1', fun u now hx => h2' u now (swept_old ha d hx)⟩
    · exact ⟨by rw [c]; exact h1', fun u now hx => h2' u now (swept_old ha d hx)⟩
    · exact ⟨fun now n hx => (by rw [c] at hx; cases hx), by rw [d]; exact h2'⟩
    · refine ⟨fun now n hx => ?_, by rw [d]; exact h2'⟩
      rw [c] at hx; cases hx; simp
    · refine ⟨fun now n hx => ?_, ?_⟩
      · rw [c] at hx; cases hx; exact h1' _ _ hq
      · intro u' now' hx
        rw [d] at hx
        rcases List.mem_cons.1 hx with hx | hx
        · cases hx; exact h1' _ _ hq
        · rcases List.mem_cons.1 hx with hx | hx
          · cases hx
          · exact h2' _ _ hx
    · exact ⟨fun now n hx => (by rw [c] at hx; cases hx), by rw [d]; exact h2'⟩

/-- A time-out event for run `rec` of task `id` exists only if a task with a running time limit `m` was handed
in under that id, its run `rec` was started at a reading `ts`, and the sweeper has read a clock value of at
least `ts + m` in 64 bits. -/
theorem timeout_due {env : Env} {ls : List Label} {s : St} {id : Nat} {rec : Int}
    (h : run env (init env) ls = some s) (hq : .timeout id rec ∈ queuedTags s.log) :
    ∃ t ∈ handed id ls, ∃ n ts m now, .started id t.routine rec n ts ∈ s.log ∧
      t.maximumRunningTime = some m ∧ .sWake now ∈ ls ∧ (ts + m) % 18446744073709551616 ≤ now := by
  have hr : Reachable env s := ⟨ls, h⟩
  have h1 : (id, rec) ∈ timeoutsOf (queuedTags s.log) := by
    simp only [timeoutsOf, List.mem_filterMap]
    exact ⟨_, hq, rfl⟩
  rw [timeouts_swept hr, List.mem_map] at h1
  obtain ⟨u, hu, he⟩ := h1
  cases he
  obtain ⟨now, hn⟩ := mem_sweptUnits.1 hu
  obtain ⟨⟨t, ht, n, ts, m, h2, h3, h4⟩, h5⟩ := (unitOk h).swept u now hn
  exact ⟨t, ht, n, ts, m, now, h2, h3, (swept_reading h).2 u now hn, by omega⟩

/-- **C30, partial**: for limits that can be added to the start time in 64 bits (all others: `C30_fails`). A
time-out event for run `rec` of task `id` exists only if a task with a running time limit `m` was handed in
under that id, its run `rec` was started at a reading `ts`, and the sweeper has read a clock value of at least
`ts + m`. -/
theorem C30_due_partial {env : Env} {ls : List Label} {s : St} {id : Nat} {rec : Int}
    (h : run env (init env) ls = some s) (hf : LimitsFit id ls s.log) (hq : .timeout id rec ∈ queuedTags s.log) :
    ∃ t ∈ handed id ls, ∃ n ts m now, .started id t.routine rec n ts ∈ s.log ∧
      t.maximumRunningTime = some m ∧ .sWake now ∈ ls ∧ ts + m ≤ now := by
  obtain ⟨t, ht, n, ts, m, now, h1, h2, h3, h4⟩ := timeout_due h hq
  have := hf t ht m h2 _ _ _ _ h1
  exact ⟨t, ht, n, ts, m, now, h1, h2, h3, by omega⟩

/-- **C30, partial**, at the moment the event is made: the round in progress has read a clock value of at least
start time plus limit. -/
theorem C30_moment_partial {env : Env} {ls : List Label} {s s' : St} {u : RecycleUnit}
    (h : run env (init env) ls = some s) (hf : LimitsFit u.taskId ls s.log) (hs : step env s (.sPop u) = some s') :
    ∃ now k, s.spc = .active now k ∧ ∃ t ∈ handed u.taskId ls, ∃ n ts m,
      .started u.taskId t.routine u.recordId n ts ∈ s.log ∧ t.maximumRunningTime = some m ∧ ts + m ≤ now := by
  rcases unit_cases ⟨ls, h⟩ (step_act hs) with ⟨a, b, c, d, e⟩ | ⟨id, box, rest, e, hc, a, b, c, d, f⟩ | ⟨w, u, rest, hl, _⟩ | ⟨w, now, hl, _⟩ | ⟨u, now, n, hl, hq, hu, hmin, hle, _⟩ | ⟨now, n, w, hl, _⟩
  · exfalso
    have hx := step_act hs
    cases hx
    have := congrArg List.length d
    simp [sweptUnits] at this
  · exfalso
    have hx := step_act hs
    cases hx
    have := congrArg List.length d
    simp [sweptUnits] at this
  · cases hl
  · cases hl
  · cases hl
    obtain ⟨t, ht, n, ts, m, h2, h3, h4⟩ := (unitOk h).heap u hu
    have := hf t ht m h3 _ _ _ _ h2
    exact ⟨now, _, hq, t, ht, n, ts, m, h2, h3, by omega⟩
  · cases hl

/-- **C30** for tasks without a limit: no time-out event, ever. -/
theorem C30_none {env : Env} {ls : List Label} {s : St} {id : Nat} {rec : Int}
    (h : run env (init env) ls = some s) (hn : ∀ t ∈ handed id ls, t.maximumRunningTime = none) :
    .timeout id rec ∉ queuedTags s.log := by
  intro hq
  obtain ⟨t, ht, _, _, _, _, _, hm, _⟩ := timeout_due h hq
  rw [hn t ht] at hm; cases hm

/-! ## C31 -/

theorem appendRecs_nodup {env : Env} {s : St} (h : Reachable env s) (r : Int) :
    (appendRecs (dispatchedTags s.log)).count r ≤ 1 := by
  have h1 := (recOk h).sorted
  rw [(recOk h).start, fifo h] at h1
  simp only [appendRecs_append] at h1
  have h2 := h1.imp (S := (· ≠ ·)) (fun h => h.1)
  have h3 : (appendRecs (dispatchedTags s.log)).Nodup := by
    have := List.Pairwise.sublist (List.sublist_append_left _ _) h2
    have := List.Pairwise.sublist (List.sublist_append_left _ _) this
    exact List.Pairwise.sublist (List.sublist_append_left _ _) this
  exact List.nodup_iff_count.1 h3 r

/-- **C31.** Each run has at most one deadline, which is at most once swept: counting the deadlines already
swept, those in the heap and those on the way to it. -/
theorem C31_once {env : Env} {s : St} (h : Reachable env s) :
    ((sweptUnits s.log ++ s.heap ++ s.unitChan).map (·.recordId)).Nodup := by
  rw [List.nodup_iff_count]
  intro r
  exact Nat.le_trans (unitRecs_le h r) (appendRecs_nodup h r)

/-- **C31** for the events: at most one time-out event per run. -/
theorem C31_one_event {env : Env} {s : St} (h : Reachable env s) (id : Nat) (rec : Int) :
    (queuedTags s.log).count (.timeout id rec) ≤ 1 := by
  have h1 : (queuedTags s.log).count (.timeout id rec) ≤ (timeoutsOf (queuedTags s.log)).count (id, rec) := by
    generalize queuedTags s.log = q
    induction q with
    | nil => simp
    | cons t q ih =>
      cases t
      case timeout i r =>
        simp only [timeoutsOf, List.filterMap_cons, List.count_cons] at ih ⊢
        by_cases he : i = id ∧ r = rec
        · obtain ⟨rfl, rfl⟩ := he; simp; exact ih
        · have h1 : (Tag.timeout i r == Tag.timeout id rec) = false := by simpa using he
          rw [h1]; simp only [Bool.false_eq_true, if_false]; omega
      all_goals
        simp only [timeoutsOf, List.filterMap_cons, List.count_cons] at ih ⊢
        simpa using ih
  have h2 : (timeoutsOf (queuedTags s.log)).count (id, rec) ≤ ((sweptUnits s.log).map (·.recordId)).count rec := by
    rw [timeouts_swept h]
    generalize sweptUnits s.log = q
    induction q with
    | nil => simp
    | cons u q ih =>
      simp only [List.map_cons, List.count_cons]
      by_cases hu : u.recordId = rec
      · simp [hu]; split <;> omega
      · simp [hu]; omega
  have h3 := List.nodup_iff_count.1 (C31_once h) rec
  simp only [List.map_append, List.count_append] at h3
  omega

/-- **C31** for a whole round of the sweeper, from reading the clock to going to sleep, whatever the other
threads do meanwhile: the deadlines swept come in non-decreasing order, are expired, are taken out of the
heap and nothing else is; at most 200 of them; and if fewer, no expired one is left. -/
theorem C31_round {env : Env} {now : Nat} {ls : List Label} {s s' : St} (hr : Reachable env s)
    (hl : ∀ l ∈ ls, l ≠ .sRest) (h : run env s (.sWake now :: (ls ++ [.sRest])) = some s') :
    ∃ us, sweptUnits s'.log = sweptUnits s.log ++ us ∧ us.length ≤ 200 ∧ (us ++ s'.heap).Perm s.heap ∧
      us.Pairwise (fun u v => u.deadline ≤ v.deadline) ∧ (∀ u ∈ us, u.deadline ≤ now) ∧
      (∀ u ∈ us, ∀ v ∈ s'.heap, u.deadline ≤ v.deadline) ∧
      (us.length < 200 → ∀ v ∈ s'.heap, now < v.deadline) := by
  simp only [run] at h
  split at h
  · rename_i s1 h1
    rw [run_append] at h
    have hr1 := hr.step h1
    have h1 := step_act h1
    cases h1 with
    | swake w now hp hle =>
      cases h2 : run env { s with spc := .active now 200 } ls with
      | none => rw [h2] at h; cases h
      | some s2 =>
        rw [h2] at h
        obtain ⟨us, i1, i2, i3, i4, i5, i6, i7⟩ := round_run ls hr1 rfl hl h2
        simp only [run, Option.bind] at h
        split at h
        · rename_i s3 h3
          cases h
          have h3 := step_act h3
          cases h3 with
          | srest now' n w hp' hw =>
            rw [i2] at hp'; cases hp'
            refine ⟨us, i1, i3, i4, i5, i6, i7, ?_⟩
            intro hlt v hv
            rcases hw with ⟨hw, _⟩ | ⟨hw, _⟩ | ⟨_, d, hd, hlt', _⟩
            · omega
            · rw [heapMin_none] at hw
              exact absurd hv (by simp [hw])
            · exact Nat.lt_of_lt_of_le hlt' ((heapMin_some hd).2 v hv)
        · cases h
  · cases h

/-- **C31**: a round can always be completed, by at most as many sweeps as its budget allows. -/
theorem C31_ends {env : Env} {now : Nat} : ∀ (n : Nat) {s : St}, s.spc = .active now n →
    ∃ us : List RecycleUnit, us.length ≤ n ∧ ∃ s' w, run env s (us.map Label.sPop ++ [.sRest]) = some s' ∧ s'.spc = .idle w := by
  intro n
  induction n with
  | zero =>
    intro s hp
    exact ⟨[], by simp, { s with spc := .idle (now + 3) }, now + 3, by simp [run, step, sRest, hp], rfl⟩
  | succ n ih =>
    intro s hp
    cases hm : heapMin s.heap with
    | none => exact ⟨[], by simp, { s with spc := .idle (now + 3) }, now + 3, by simp [run, step, sRest, hp, hm], rfl⟩
    | some d =>
      by_cases hd : d ≤ now
      · obtain ⟨⟨u, hu, hud⟩, hmin⟩ := heapMin_some hm
        have hs : step env s (.sPop u) = some { push s (.timeoutTask u.taskId u.recordId) with
            heap := s.heap.erase u, spc := .active now n
            log := .swept u now :: (push s (.timeoutTask u.taskId u.recordId)).log } := by
          simp only [step, sPop, hp]
          rw [if_pos ⟨hu, fun v hv => by rw [hud]; exact hmin v hv, by omega⟩]
        obtain ⟨us, h1, s', w, h2, h3⟩ := ih (s := { push s (.timeoutTask u.taskId u.recordId) with
            heap := s.heap.erase u, spc := .active now n
            log := .swept u now :: (push s (.timeoutTask u.taskId u.recordId)).log }) rfl
        exact ⟨u :: us, by simp; omega, s', w, by simp only [List.map_cons, List.cons_append, run, hs]; exact h2, h3⟩
      · exact ⟨[], by simp, { s with spc := .idle (now + (d - now)) }, now + (d - now), by simp [run, step, sRest, hp, hm, hd], rfl⟩

/-! ## C32 -/

/-- While asleep until `w`, with no reading of `w` or later, the sweeper sweeps nothing. -/
theorem asleep {env : Env} {w : Nat} : ∀ {ls : List Label} {s s' : St}, Reachable env s → s.spc = .idle w →
    (∀ l ∈ ls, ∀ now, l = .sWake now → now < w) → run env s ls = some s' →
    s'.spc = .idle w ∧ sweptUnits s'.log = sweptUnits s.log ∧ ∀ u ∈ s.heap, u ∈ s'.heap := by
  intro ls
  induction ls with
  | nil => intro s s' _ hp _ h; cases h; exact ⟨hp, rfl, fun _ h => h⟩
  | cons l ls ih =>
    intro s s' h0 h1 h3 h
    simp only [run] at h
    split at h
    · rename_i x' hx
      have h0' := h0.step hx
      have hl' : ∀ l ∈ ls, ∀ now, l = .sWake now → now < w := fun l h => h3 l (List.mem_cons_of_mem _ h)
      rcases unit_cases h0 (step_act hx) with ⟨a, b, c, d, e⟩ | ⟨id, box, rest, e, hc, a, b, c, d, f⟩ | ⟨w', u, rest, rfl, hq, hu, a, b, c, d⟩ | ⟨w', now, rfl, hq, hle, c, a, b, d⟩ | ⟨u, now, n, rfl, hq, hu, hmin, hle, a, b, c, d⟩ | ⟨now, n, w, rfl, hq, c, _, a, b, d⟩
      · obtain ⟨i1, i2, i3⟩ := ih h0' (by rw [c]; exact h1) hl' h
        exact ⟨i1, by rw [i2, d], by rw [← b]; exact i3⟩
      · obtain ⟨i1, i2, i3⟩ := ih h0' (by rw [c]; exact h1) hl' h
        exact ⟨i1, by rw [i2, d], by rw [← b]; exact i3⟩
      · rw [h1] at hq; cases hq
        obtain ⟨i1, i2, i3⟩ := ih h0' c hl' h
        exact ⟨i1, by rw [i2, d], fun u h => i3 u (by rw [b]; exact List.mem_cons_of_mem _ h)⟩
      · rw [h1] at hq; cases hq
        have := h3 (.sWake now) List.mem_cons_self now rfl; omega
      · rw [h1] at hq; cases hq
      · rw [h1] at hq; cases hq
    · cases h

/-- **C32, what holds.** Missing: deadlines registered while the sweeper sleeps until a later one.
A deadline that is in the heap when the sweeper goes to sleep after a round with fewer than 200 sweeps is
noticed in time: the sweeper is ready to wake up at every reading from that deadline on. -/
theorem C32_known_partial {env : Env} {now n : Nat} {ls : List Label} {s s1 s2 : St} {u : RecycleUnit}
    (hr : Reachable env s) (hp : s.spc = .active now (n + 1)) (h1 : step env s .sRest = some s1) (hu : u ∈ s.heap)
    (hl : ∀ l ∈ ls, ∀ r, l ≠ .sWake r) (h2 : run env s1 ls = some s2) {r : Nat} (hd : u.deadline ≤ r) :
    ∃ s3, step env s2 (.sWake r) = some s3 ∧ u ∈ s3.heap := by
  have ha := step_act h1
  have hr1 := hr.step h1
  cases ha with
  | srest now' n' w hp' hw =>
    rw [hp] at hp'; cases hp'
    have hwd : w ≤ u.deadline := by
      rcases hw with ⟨hw, _⟩ | ⟨hw, _⟩ | ⟨_, d, hd, _, rfl⟩
      · omega
      · rw [heapMin_none] at hw; exact absurd hu (by simp [hw])
      · exact (heapMin_some hd).2 u hu
    obtain ⟨h3, _, h4⟩ := asleep hr1 rfl (fun l hll now he => absurd he (hl l hll now)) h2
    refine ⟨{ s2 with spc := .active r 200 }, ?_, h4 u hu⟩
    simp only [step, sWake, h3]
    rw [if_pos (by omega)]

/-- **C32, what holds.** After a round that left the heap empty or that swept 200 deadlines, the sweeper is
ready again three seconds after the reading of that round, for every deadline registered by then. -/
theorem C32_short_partial {env : Env} {now n : Nat} {ls : List Label} {s s1 s2 : St} {u : RecycleUnit}
    (hr : Reachable env s) (hp : s.spc = .active now n) (h1 : step env s .sRest = some s1)
    (hn : n = 0 ∨ s.heap = []) (hl : ∀ l ∈ ls, ∀ r, l ≠ .sWake r) (h2 : run env s1 ls = some s2) (hu : u ∈ s2.heap)
    {r : Nat} (hd : now + 3 ≤ r) : ∃ s3, step env s2 (.sWake r) = some s3 ∧ u ∈ s3.heap := by
  have ha := step_act h1
  have hr1 := hr.step h1
  cases ha with
  | srest now' n' w hp' hw =>
    rw [hp] at hp'; cases hp'
    have hwd : w = now + 3 := by
      rcases hw with ⟨_, hw⟩ | ⟨_, hw⟩ | ⟨hw, d, hd, _⟩
      · exact hw
      · exact hw
      · rcases hn with hn | hn
        · exact absurd hn hw
        · rw [hn] at hd; cases hd
    obtain ⟨h3, _, h4⟩ := asleep hr1 rfl (fun l hll now he => absurd he (hl l hll now)) h2
    refine ⟨{ s2 with spc := .active r 200 }, ?_, hu⟩
    simp only [step, sWake, h3]
    rw [if_pos (by omega)]

/-- **C32, what holds.** A round that reads the clock at or after a deadline in the heap sweeps it, or sweeps
200 others that are no later. -/
theorem C32_round_partial {env : Env} {now : Nat} {ls : List Label} {s s' : St} {u : RecycleUnit}
    (hr : Reachable env s) (hl : ∀ l ∈ ls, l ≠ .sRest) (h : run env s (.sWake now :: (ls ++ [.sRest])) = some s')
    (hu : u ∈ s.heap) (hd : u.deadline ≤ now) :
    ∃ us, sweptUnits s'.log = sweptUnits s.log ++ us ∧
      (u ∈ us ∨ us.length = 200 ∧ ∀ v ∈ us, v.deadline ≤ u.deadline) := by
  obtain ⟨us, h1, h2, h3, _, _, h4, h5⟩ := C31_round hr hl h
  refine ⟨us, h1, ?_⟩
  rcases List.mem_append.1 (h3.mem_iff.2 hu) with h6 | h6
  · exact Or.inl h6
  · right
    refine ⟨?_, fun v hv => h4 v hv u h6⟩
    rcases Nat.lt_or_ge us.length 200 with h7 | h7
    · have := h5 h7 u h6; omega
    · omega

namespace Ex

/-- Task 1 may run for 1000 seconds, task 2 for one second. The first run of task 1 starts at 102; the
sweeper makes a round at 102 and goes to sleep until 1102. The first run of task 2 starts at 103, and its
deadline 104 is registered at once. -/
def overslept : List Label :=
  add { every 1 101 5000 with maximumRunningTime := some 1000 } ++
  add { every 2 102 5000 with maximumRunningTime := some 1 } ++ idle ++ idle ++ fire 1 0 ++
  [.eRecv, .sAdd, .sWake 102, .sRest] ++ fire 2 1 ++ [.eRecv, .sAdd]

theorem overslept_run : run env0 (init env0) overslept = some (play env0 overslept) := play_run (by rfl)

/-- **C32 fails.** The deadline 104 is in the heap at 104, together with a single other one, but as long as
the sweeper does not read 1102 or more it is not swept: about a thousand seconds late. -/
theorem C32_fails : ∃ s, Reachable env0 s ∧ env0.clock s.ticks = 104 ∧
    s.heap = [⟨104, 2, 1⟩, ⟨1102, 1, 0⟩] ∧
    ∀ ls s', run env0 s ls = some s' → (∀ l ∈ ls, ∀ now, l = .sWake now → now < 1102) →
      sweptUnits s'.log = [] ∧ ⟨104, 2, 1⟩ ∈ s'.heap := by
  refine ⟨play env0 overslept, ⟨_, overslept_run⟩, rfl, rfl, ?_⟩
  intro ls s' h hl
  obtain ⟨_, h2, h3⟩ := asleep (w := 1102) ⟨_, overslept_run⟩ rfl hl h
  exact ⟨h2, h3 _ (by decide +kernel)⟩

/-- The same with a limit of `L + 2` seconds for task 1, up to the registration of its first run ... -/
def napBefore (L : Nat) : List Label :=
  add { every 1 101 5000 with maximumRunningTime := some (L + 2) } ++
  add { every 2 102 5000 with maximumRunningTime := some 1 } ++ idle ++ idle ++ fire 1 0 ++
  [.eRecv, .sAdd]

/-- ... and after the round of the sweeper at 102. -/
def napAfter : List Label := fire 2 1 ++ [.eRecv, .sAdd]

theorem nap_before (L : Nat) : (run env0 (init env0) (napBefore L)).isSome := by cbv

theorem nap_heap (L : Nat) :
    (play env0 (napBefore L)).heap = [⟨(L + 2 + 102) % 18446744073709551616, 1, 0⟩] := by cbv

theorem nap_awake (L : Nat) : (play env0 (napBefore L)).spc = .idle 0 := by cbv

theorem nap_after (L w : Nat) : ∃ s, run env0 { play env0 (napBefore L) with spc := .idle w } napAfter = some s ∧
    env0.clock s.ticks = 104 ∧ s.heap = ⟨104, 2, 1⟩ :: (play env0 (napBefore L)).heap ∧ s.spc = .idle w ∧
    sweptUnits s.log = [] := by
  have h : (run env0 { play env0 (napBefore L) with spc := .idle w } napAfter).isSome := by cbv
  obtain ⟨s, hs⟩ := Option.isSome_iff_exists.1 h
  have e : s = (run env0 { play env0 (napBefore L) with spc := .idle w } napAfter).getD (init env0) := by
    rw [hs]; rfl
  refine ⟨s, hs, ?_, ?_, ?_, ?_⟩
  · rw [e]; cbv
  · rw [e]; cbv
  · rw [e]; cbv
  · rw [e]; cbv

/-- **C32 fails by any margin**: for every `L` for which the sum with the clock fits 64 bits there is an execution that
comes, at 104, to have the deadline 104 registered and goes on without sweeping it until the sweeper reads a clock of
`104 + L` or more. -/
theorem C32_unbounded (L : Nat) (hL : L + 104 < 18446744073709551616) :
    ∃ s, Reachable env0 s ∧ env0.clock s.ticks = 104 ∧ ⟨104, 2, 1⟩ ∈ s.heap ∧
      ∀ ls s', run env0 s ls = some s' → (∀ l ∈ ls, ∀ now, l = .sWake now → now < 104 + L) →
        sweptUnits s'.log = [] ∧ ⟨104, 2, 1⟩ ∈ s'.heap := by
  obtain ⟨s, h1, h2, h3, h4, h5⟩ := nap_after L (104 + L)
  have hw : run env0 (play env0 (napBefore L)) [.sWake 102, .sRest] =
      some { play env0 (napBefore L) with spc := .idle (104 + L) } := by
    have hm : (L + 2 + 102) % 18446744073709551616 = L + 104 := by omega
    have hd : ¬ L + 104 ≤ 102 := by omega
    have he : 102 + (L + 104 - 102) = 104 + L := by omega
    simp only [run, step, sWake, sRest, nap_awake, nap_heap, heapMin, hm, Nat.zero_le, if_true, hd,
      if_false, he]
  have hr : Reachable env0 s :=
    ⟨napBefore L ++ ([.sWake 102, .sRest] ++ napAfter), by
      rw [run_append, play_run (nap_before L), Option.bind_some, run_append, hw]; exact h1⟩
  refine ⟨s, hr, h2, by rw [h3]; exact List.mem_cons_self, ?_⟩
  intro ls s' h hl
  obtain ⟨_, h6, h7⟩ := asleep hr h4 hl h
  exact ⟨by rw [h6, h5], h7 _ (by rw [h3]; exact List.mem_cons_self)⟩

/-- Three runs with limits 5, 1 and 3, started at 102, 103 and 104, all registered. -/
def limits : List Label :=
  add { every 1 101 5000 with maximumRunningTime := some 5 } ++
  add { every 2 102 5000 with maximumRunningTime := some 1 } ++
  add { every 3 103 5000 with maximumRunningTime := some 3 } ++
  idle ++ idle ++ fire 1 0 ++ fire 2 1 ++ fire 3 2 ++ [.eRecv, .sAdd, .eRecv, .sAdd, .eRecv, .sAdd]

/-- C30, C31, C32: a round at 107 sweeps the deadlines 104, 107 and 107, a round at 105 only the first. -/
example : (play env0 limits).heap = [⟨107, 3, 2⟩, ⟨104, 2, 1⟩, ⟨107, 1, 0⟩] ∧
    sweptUnits (play env0 (limits ++ [.sWake 107, .sPop ⟨104, 2, 1⟩, .sPop ⟨107, 1, 0⟩, .sPop ⟨107, 3, 2⟩, .sRest])).log =
      [⟨104, 2, 1⟩, ⟨107, 1, 0⟩, ⟨107, 3, 2⟩] ∧
    sweptUnits (play env0 (limits ++ [.sWake 105, .sPop ⟨104, 2, 1⟩, .sRest])).log = [⟨104, 2, 1⟩] ∧
    (play env0 (limits ++ [.sWake 105, .sPop ⟨104, 2, 1⟩, .sRest])).heap = [⟨107, 3, 2⟩, ⟨107, 1, 0⟩] ∧
    (play env0 (limits ++ [.sWake 105, .sPop ⟨104, 2, 1⟩, .sRest])).spc = .idle 107 := ⟨rfl, rfl, rfl, rfl, rfl⟩

/-- C52: three bodies were started, those of the three tasks. -/
example : startedRecs (play env0 limits).log = [0, 1, 2] ∧ .started 2 2 1 3 103 ∈ (play env0 limits).log ∧
    (handed 2 limits).map (·.routine) = [2] := ⟨rfl, by decide +kernel, rfl⟩

/-- C30: a time-out event exists in a reachable state, and the limit fits. -/
example : .timeout 2 1 ∈ queuedTags (play env0 (limits ++ [.sWake 105, .sPop ⟨104, 2, 1⟩])).log ∧
    LimitsFit 2 (limits ++ [.sWake 105, .sPop ⟨104, 2, 1⟩]) (play env0 (limits ++ [.sWake 105, .sPop ⟨104, 2, 1⟩])).log := by
  refine ⟨by decide +kernel, ?_⟩
  intro t ht m hm rtn rec n ts hs
  have h1 : ∀ t ∈ handed 2 (limits ++ [.sWake 105, .sPop ⟨104, 2, 1⟩]), t.maximumRunningTime = some 1 :=
    fun t ht => by
      have : handed 2 (limits ++ [.sWake 105, .sPop ⟨104, 2, 1⟩]) =
        [{ every 2 102 5000 with maximumRunningTime := some 1 }] := rfl
      rw [this] at ht; simp at ht; rw [ht]
  rw [h1 t ht] at hm; cases hm
  have h2 : ((play env0 (limits ++ [.sWake 105, .sPop ⟨104, 2, 1⟩])).log.all fun o =>
      match o with | .started _ _ _ _ ts => decide (ts ≤ 104) | _ => true) = true := by decide +kernel
  have := List.all_eq_true.1 h2 _ hs
  simp at this
  omega

/-- A task that may run for `u64::MAX` seconds. -/
def longest : Task := { every 1 101 5000 with maximumRunningTime := some U64_MAX }

/-- Its first run starts at 102 and is registered; the sweeper makes a round within the same second. -/
def wrapped : List Label :=
  add longest ++ idle ++ idle ++ fire 1 0 ++ [.eRecv, .sAdd, .sWake 102, .sPop ⟨101, 1, 0⟩, .eRecv]

/-- **C30 fails** without overflow checks: the deadline `102 + u64::MAX` wraps around to 101, and the run, the only
one of the task, is timed out within the second it was started in. -/
theorem C30_fails : ∃ s, run env0 (init env0) wrapped = some s ∧ env0.overflowChecks = false ∧
    (∀ t ∈ handed 1 wrapped, t.maximumRunningTime = some U64_MAX) ∧ .started 1 1 0 2 102 ∈ s.log ∧
    .timeout 1 0 ∈ dispatchedTags s.log ∧ .stopped 1 0 ∈ s.log ∧
    (∀ l ∈ wrapped, ∀ now, l = .sWake now → now < 102 + U64_MAX) := by
  refine ⟨play env0 wrapped, play_run (by decide +kernel), rfl, ?_, by decide +kernel, by decide +kernel,
    by decide +kernel, ?_⟩
  · intro t ht
    have : handed 1 wrapped = [longest] := rfl
    rw [this] at ht; simp at ht; rw [ht]; rfl
  · intro l hl now e
    subst e
    have h2 : (wrapped.all fun l => match l with | .sWake now => decide (now ≤ 102) | _ => true) = true := by
      decide +kernel
    have := List.all_eq_true.1 h2 _ hl
    simp at this
    simp only [U64_MAX]
    omega

/-- C32: a round with sweeps to spare that goes to sleep with deadlines left, and a round that leaves the heap
empty. -/
example : (play env0 (limits ++ [.sWake 105, .sPop ⟨104, 2, 1⟩])).spc = .active 105 199 ∧
    (play env0 (limits ++ [.sWake 107, .sPop ⟨104, 2, 1⟩, .sPop ⟨107, 1, 0⟩, .sPop ⟨107, 3, 2⟩])).heap = [] :=
  ⟨rfl, rfl⟩

end Ex

end DelayTimer
