import Verif.Proofs.Panic
import Verif.Proofs.Parallel
import Verif.Props.Cancel
import Verif.Props.Sweep
import Verif.Spec.Sweep

/-!
# C66: overlong runs are stopped
-/

namespace DelayTimer
open Spec

/-! ## Every registered run of a task with a limit has a deadline -/

/-- The box describes a started run of a task handed in, with the deadline its limit gives. -/
def BoxOf (H : Nat → List Task) (log : List Obs) (box : HandlerBox) : Prop :=
  ∃ t ∈ H box.taskId, ∃ n ts, .started box.taskId t.routine box.recordId n ts ∈ log ∧
    box.endTime = t.maximumRunningTime.map fun m => (ts + m) % 18446744073709551616

/-- The run has the deadline that its limit gives. -/
def Registered (H : Nat → List Task) (s : St) (id : Nat) (rec : Int) : Prop :=
  ∃ t ∈ H id, ∃ n ts, .started id t.routine rec n ts ∈ s.log ∧ ∀ m, t.maximumRunningTime = some m →
    ⟨(ts + m) % 18446744073709551616, id, rec⟩ ∈ sweptUnits s.log ++ s.heap ++ s.unitChan

structure DeadlineOk (H : Nat → List Task) (s : St) : Prop where
  app : ∀ p t box, s.tpc = .append p t box → BoxOf H s.log box
  chan : ∀ id box, .appendTaskHandle id box ∈ s.chan → BoxOf H s.log box
  reg : ∀ id rec, .append id rec ∈ dispatchedTags s.log → Registered H s id rec

theorem BoxOf.mono {H H' : Nat → List Task} {log log' : List Obs} {box : HandlerBox}
    (h1 : ∀ k, ∀ t ∈ H k, t ∈ H' k) (h2 : ∀ o ∈ log, o ∈ log') (h : BoxOf H log box) : BoxOf H' log' box := by
  obtain ⟨t, ht, n, ts, h3, h4⟩ := h
  exact ⟨t, h1 _ t ht, n, ts, h2 _ h3, h4⟩

/-- No deadline gets lost. -/
theorem units_kept {env : Env} {s s' : St} {l : Label} (hr : Reachable env s) (ha : Act env s l s') {u : RecycleUnit}
    (hu : u ∈ sweptUnits s.log ++ s.heap ++ s.unitChan) : u ∈ sweptUnits s'.log ++ s'.heap ++ s'.unitChan := by
  simp only [List.mem_append] at hu ⊢
  rcases unit_cases hr ha with ⟨a, b, c, d, e⟩ | ⟨id, box, rest, e, hc, a, b, c, d, f⟩ | ⟨w, v, rest, rfl, _, hv, a, b, _, d⟩ | ⟨w, now, rfl, _, _, _, a, b, d⟩ | ⟨v, now, n, rfl, _, hv, _, hle, a, b, _, d⟩ | ⟨now, n, w, rfl, _, _, _, a, b, d⟩
  · rw [a, b, d]; exact hu
  · rw [a, b, d]
    rcases hu with h | h
    · exact Or.inl h
    · exact Or.inr (List.mem_append_left _ h)
  · rw [a, b, d]
    rw [hv] at hu
    rcases hu with (h | h) | h
    · exact Or.inl (Or.inl h)
    · exact Or.inl (Or.inr (List.mem_cons_of_mem _ h))
    · rcases List.mem_cons.1 h with rfl | h
      · exact Or.inl (Or.inr List.mem_cons_self)
      · exact Or.inr h
  · rw [a, b, d]; exact hu
  · rw [a, b, d]
    simp only [sweptUnits, List.mem_append, List.mem_singleton]
    rcases hu with (h | h) | h
    · exact Or.inl (Or.inl (Or.inl h))
    · by_cases he : u = v
      · exact Or.inl (Or.inl (Or.inr he))
      · exact Or.inl (Or.inr ((List.mem_erase_of_ne he).2 h))
    · exact Or.inr h
  · rw [a, b, d]; exact hu

theorem units_kept_run {env : Env} {u : RecycleUnit} : ∀ (ls : List Label) {s s' : St}, Reachable env s → run env s ls = some s' →
    u ∈ sweptUnits s.log ++ s.heap ++ s.unitChan → u ∈ sweptUnits s'.log ++ s'.heap ++ s'.unitChan := by
  intro ls
  induction ls with
  | nil => intro s s' _ h hu; cases h; exact hu
  | cons l ls ih =>
    intro s s' hr h hu
    simp only [run] at h
    split at h
    · rename_i s1 h1
      exact ih (hr.step h1) h (units_kept hr (step_act h1) hu)
    · cases h

theorem deadlineOk {env : Env} {ls : List Label} {s : St} (h : run env (init env) ls = some s) :
    DeadlineOk (fun k => handed k ls) s := by
  refine handed_induct (fun ls s => DeadlineOk (fun k => handed k ls) s) ?_ ?_ ls s h
  · refine ⟨?_, ?_, ?_⟩
    · intro _ _ _ hx; cases hx
    · intro _ _ hx; cases hx
    · intro _ _ hx; cases hx
  · intro ls s l s' hr hs ha
    obtain ⟨h1, h2, h3⟩ := hs
    have hre : Reachable env s := ⟨ls, hr⟩
    have hk : ∀ k, ∀ t ∈ handed k ls, t ∈ handed k (ls ++ [l]) :=
      fun k t ht => by rw [handed_append]; exact List.mem_append_left _ ht
    have hm : ∀ box, BoxOf (fun k => handed k ls) s.log box → BoxOf (fun k => handed k (ls ++ [l])) s'.log box :=
      fun u => BoxOf.mono hk (fun o ho => log_mono ha ho)
    have hreg : ∀ id rec, Registered (fun k => handed k ls) s id rec →
        Registered (fun k => handed k (ls ++ [l])) s' id rec := by
      rintro id rec ⟨t, ht, n, ts, h4, h5⟩
      exact ⟨t, hk _ t ht, n, ts, log_mono ha h4, fun m hm => units_kept hre ha (h5 m hm)⟩
    refine ⟨?_, ?_, ?_⟩
    · have h1' : ∀ p t box, s.tpc = .append p t box → BoxOf (fun k => handed k (ls ++ [l])) s'.log box :=
        fun p t box hp => hm box (h1 p t box hp)
      clear hm hreg h1 h2 h3
      cases ha
      all_goals try (exact h1')
      all_goals try (intro _ _ _ hx; cases hx; done)
      all_goals try (simpa using h1')
      case spawn pending t rec hp =>
        intro p t' box hx
        cases hx
        obtain ⟨t0, h0, hrt, hmx, _⟩ := (stems hr t.taskId).held t (by rw [hp]; simp [heldTok])
        refine ⟨t0, hk _ _ h0, s.ticks, env.clock s.ticks, by simp [hrt], ?_⟩
        simp only [Task.getMaximumRunningTime, hmx, Nat.add_comm]
    · intro id box hx
      rcases chan_sub ha hx with h6 | ⟨p, t, box', rfl, hp, h6⟩ | ⟨_, _, _, _, _, _, _, h6⟩ | ⟨op, _, h6⟩ | ⟨_, _, _, h6⟩ | ⟨_, _, _, h6⟩ | ⟨_, _, h6⟩
      · exact hm box (h2 id box h6)
      · cases h6; exact hm _ (h1 _ _ _ hp)
      · cases h6
      · cases op <;> cases h6
      · cases h6
      · cases h6
      · cases h6
    · intro id rec hx
      rcases unit_cases hre ha with ⟨a, b, c, d, e⟩ | ⟨id', box, rest, e, hc, a, b, c, d, f⟩ | ⟨w, v, rest, rfl, _, hv, a, b, _, d⟩ | ⟨w, now, rfl, _, _, _, a, b, d⟩ | ⟨v, now, n, rfl, _, hv, _, hle, a, b, _, d⟩ | ⟨now, n, w, rfl, _, _, _, a, b, d⟩
      · refine hreg id rec (h3 id rec ?_)
        rcases e with e | ⟨t, e, f⟩
        · rw [e] at hx; exact hx
        · rw [e] at hx
          rcases List.mem_append.1 hx with hx | hx
          · exact hx
          · rw [← List.mem_singleton.1 hx] at f; cases f
      · rw [f] at hx
        rcases List.mem_append.1 hx with hx | hx
        · exact hreg id rec (h3 id rec hx)
        · cases List.mem_singleton.1 hx
          have hmem : TimerEvent.appendTaskHandle id box ∈ s.chan := by rw [hc]; simp
          obtain ⟨g1, _⟩ := (rtOk hre).chanApp id box hmem
          obtain ⟨t, ht, n, ts, h4, h5⟩ := hm box (h2 id box hmem)
          rw [g1] at ht h4
          refine ⟨t, ht, n, ts, h4, fun m hm' => ?_⟩
          rw [hm'] at h5
          rw [a]
          simp only [List.mem_append]
          refine Or.inr (Or.inr ?_)
          simp [unitsOf, h5, g1]
      · rw [d] at hx; exact hreg id rec (h3 id rec hx)
      · rw [d] at hx; exact hreg id rec (h3 id rec hx)
      · rw [d] at hx; exact hreg id rec (h3 id rec (by simpa [dispatchedTags] using hx))
      · rw [d] at hx; exact hreg id rec (h3 id rec hx)

/-- A run is started once. -/
theorem started_once {env : Env} {s : St} (hr : Reachable env s) {id id' rtn rtn' n n' ts ts' : Nat} {rec : Int}
    (h : .started id rtn rec n ts ∈ s.log) (h' : .started id' rtn' rec n' ts' ∈ s.log) :
    id = id' ∧ rtn = rtn' ∧ n = n' ∧ ts = ts' := by
  have hn : (startedRecs s.log).Nodup := (recOk hr).sorted.imp fun h => h.1
  revert hn h h'
  generalize s.log = log
  intro h h' hn
  induction log with
  | nil => cases h
  | cons o log ih =>
    cases o
    case started a b c d e =>
      simp only [startedRecs, List.nodup_append] at hn
      rcases List.mem_cons.1 h with hx | hx <;> rcases List.mem_cons.1 h' with hy | hy
      · cases hx; cases hy; exact ⟨rfl, rfl, rfl, rfl⟩
      · cases hx
        exact absurd rfl (hn.2.2 _ (mem_startedRecs.2 ⟨_, _, _, _, hy⟩) rec (by simp))
      · cases hy
        exact absurd rfl (hn.2.2 _ (mem_startedRecs.2 ⟨_, _, _, _, hx⟩) rec (by simp))
      · exact ih hx hy hn.1
    all_goals
      exact ih (by simpa using h) (by simpa using h') (by simpa [startedRecs] using hn)

/-- **C66** Every registered run of a task that may run for `m` seconds has the deadline `m` seconds after its start:
it is on its way to the sweeper, or known to it, or has been swept. -/
theorem C66_registered {env : Env} {ls : List Label} {s : St} {id rtn n ts m : Nat} {rec : Int}
    (h : run env (init env) ls = some s) (hm : ∀ t ∈ handed id ls, t.maximumRunningTime = some m)
    (hs : .started id rtn rec n ts ∈ s.log) (hf : ts + m < 2 ^ 64) (hd : .append id rec ∈ dispatchedTags s.log) :
    ⟨ts + m, id, rec⟩ ∈ sweptUnits s.log ++ s.heap ++ s.unitChan := by
  obtain ⟨t, ht, n', ts', h1, h2⟩ := (deadlineOk h).reg id rec hd
  obtain ⟨_, _, _, rfl⟩ := started_once ⟨ls, h⟩ hs h1
  have := h2 m (hm t ht)
  rwa [Nat.mod_eq_of_lt (by omega)] at this

/-! ## Counting rounds -/

/-- The deadlines swept that are `d` or earlier. -/
def early (d : Nat) (s : St) : Nat := (sweptUnits s.log).countP fun v => decide (v.deadline ≤ d)

theorem swept_grows {env : Env} {s s' : St} {l : Label} (hr : Reachable env s) (ha : Act env s l s') :
    sweptUnits s.log <+: sweptUnits s'.log := by
  rcases unit_cases hr ha with ⟨_, _, _, d, _⟩ | ⟨_, _, _, _, _, _, _, _, d, _⟩ | ⟨_, _, _, _, _, _, _, _, _, d⟩ | ⟨_, _, _, _, _, _, _, _, d⟩ | ⟨_, _, _, _, _, _, _, _, _, _, _, d⟩ | ⟨_, _, _, _, _, _, _, _, _, d⟩
  · rw [d]; exact List.prefix_rfl
  · rw [d]; exact List.prefix_rfl
  · rw [d]; exact List.prefix_rfl
  · rw [d]; exact List.prefix_rfl
  · rw [d]; exact List.prefix_append _ _
  · rw [d]; exact List.prefix_rfl

theorem early_grows {env : Env} {s s' : St} {l : Label} {d : Nat} (hr : Reachable env s) (ha : Act env s l s') :
    early d s ≤ early d s' := (swept_grows hr ha).sublist.countP_le

theorem swept_stays {env : Env} {s s' : St} {ls : List Label} {u : RecycleUnit} (h : run env s ls = some s')
    (hu : u ∈ sweptUnits s.log) : u ∈ sweptUnits s'.log := by
  refine run_induct (env := env) (fun x => u ∈ sweptUnits x.log) (fun x l x' hx ha => ?_) ls s s' hu h
  obtain ⟨now, h1⟩ := mem_sweptUnits.1 hx
  exact mem_sweptUnits.2 ⟨now, log_mono ha h1⟩

theorem roundsFrom_skip {d : Nat} {b : Bool} {l : Label} {ls : List Label} (h1 : ∀ now, l ≠ .sWake now) (h2 : l ≠ .sRest) :
    roundsFrom d b (l :: ls) = roundsFrom d b ls := by
  cases l
  case sWake now => exact absurd rfl (h1 now)
  case sRest => exact absurd rfl h2
  all_goals cases b <;> rfl

/-- Waking up and going to sleep show. -/
theorem not_wake {env : Env} {s s' : St} {l : Label} (ha : Act env s l s') (h : s'.spc = s.spc) :
    (∀ now, l ≠ .sWake now) ∧ l ≠ .sRest := by
  constructor
  · rintro now rfl
    cases ha
    case swake w hp _ => rw [hp] at h; cases h
  · rintro rfl
    cases ha
    case srest now n w hp _ => rw [hp] at h; cases h

/-- A deadline in the heap is swept, or in each round from that time on 200 earlier ones are. -/
theorem rounds_run {env : Env} {u : RecycleUnit} : ∀ (ls : List Label) {s s' : St} {b : Bool} {k : Nat}, Reachable env s →
    u ∈ s.heap → k ≤ early u.deadline s →
    (b = true → ∃ now n, s.spc = .active now n ∧ u.deadline ≤ now ∧ k + 200 ≤ early u.deadline s + n) →
    run env s ls = some s' →
    u ∈ sweptUnits s'.log ∨ u ∈ s'.heap ∧ k + 200 * roundsFrom u.deadline b ls ≤ early u.deadline s' := by
  intro ls
  induction ls with
  | nil => intro s s' b k _ hu hk _ h; cases h; exact Or.inr ⟨hu, by simpa [roundsFrom] using hk⟩
  | cons l ls ih =>
    intro s s' b k hr hu hk hb h
    simp only [run] at h
    split at h
    · rename_i s1 h1
      have hr1 := hr.step h1
      have ha := step_act h1
      have hg := early_grows (d := u.deadline) hr ha
      rcases unit_cases hr ha with ⟨a, b', c, d, e⟩ | ⟨id, box, rest, e, hc, a, b', c, d, f⟩ | ⟨w, v, rest, rfl, hq, hv, a, b', c, d⟩ | ⟨w, now, rfl, hq, _, c, a, b', d⟩ | ⟨v, now', n', rfl, hq, hv, hmin, hle, a, b', c, d⟩ | ⟨now', n, w, rfl, hq, c, hw, a, b', d⟩
      · obtain ⟨hx1, hx2⟩ := not_wake ha c
        rw [roundsFrom_skip hx1 hx2]
        exact ih hr1 (by rw [b']; exact hu) (by omega)
          (fun hx => by obtain ⟨x, y, p, q, z⟩ := hb hx; exact ⟨x, y, by rw [c]; exact p, q, by omega⟩) h
      · obtain ⟨hx1, hx2⟩ := not_wake ha c
        rw [roundsFrom_skip hx1 hx2]
        exact ih hr1 (by rw [b']; exact hu) (by omega)
          (fun hx => by obtain ⟨x, y, p, q, z⟩ := hb hx; exact ⟨x, y, by rw [c]; exact p, q, by omega⟩) h
      · rw [roundsFrom_skip (by simp) (by simp)]
        refine ih hr1 (by rw [b']; exact List.mem_cons_of_mem _ hu) (by omega) (fun hx => ?_) h
        obtain ⟨x, y, p, q, z⟩ := hb hx
        rw [hq] at p; cases p
      · have hroll : roundsFrom u.deadline b (.sWake now :: ls) = roundsFrom u.deadline (decide (u.deadline ≤ now)) ls := by
          cases b <;> rfl
        rw [hroll]
        refine ih hr1 (by rw [b']; exact hu) (by omega) (fun hx => ⟨now, 200, c, by simpa using hx, by omega⟩) h
      · rw [roundsFrom_skip (by simp) (by simp)]
        by_cases hv' : u = v
        · subst hv'
          exact Or.inl (swept_stays h (by rw [d]; simp [sweptUnits]))
        · refine ih hr1 (by rw [b']; exact (List.mem_erase_of_ne hv').2 hu) (by omega) (fun hx => ?_) h
          obtain ⟨x, y, p, q, z⟩ := hb hx
          rw [hq] at p; cases p
          refine ⟨now', n', c, q, ?_⟩
          have : early u.deadline s1 = early u.deadline s + 1 := by
            simp only [early]
            rw [d]
            simp [sweptUnits, List.countP_append, hmin u hu]
          omega
      · cases b with
        | false =>
          have hroll : roundsFrom u.deadline false (.sRest :: ls) = roundsFrom u.deadline false ls := rfl
          rw [hroll]
          exact ih hr1 (by rw [b']; exact hu) (by omega) (fun hx => by cases hx) h
        | true =>
          have hroll : roundsFrom u.deadline true (.sRest :: ls) = roundsFrom u.deadline false ls + 1 := rfl
          obtain ⟨x, y, p, q, z⟩ := hb rfl
          rw [hq] at p; cases p
          have hn : n = 0 := by
            rcases hw with ⟨hw, _⟩ | ⟨hw, _⟩ | ⟨_, d', hd, hlt, _⟩
            · exact hw
            · rw [heapMin_none] at hw; rw [hw] at hu; cases hu
            · have := (heapMin_some hd).2 u hu; omega
          rw [hroll]
          rcases ih (b := false) (k := k + 200) hr1 (by rw [b']; exact hu) (by omega) (fun hx => by cases hx) h with h2 | ⟨h2, h3⟩
          · exact Or.inl h2
          · exact Or.inr ⟨h2, by omega⟩
    · cases h

/-! ## At most as many deadlines as runs -/

/-- The runs started at a reading of `d` or earlier. -/
def startedBy (d : Nat) : List Obs → List Int
  | [] => []
  | .started _ _ rec _ ts :: log => if ts ≤ d then startedBy d log ++ [rec] else startedBy d log
  | _ :: log => startedBy d log

theorem startedBy_length {d : Nat} {log : List Obs} : (startedBy d log).length = startsBy d log := by
  induction log with
  | nil => rfl
  | cons o log ih =>
    cases o <;> simp only [startedBy, startsBy] <;> try exact ih
    split
    · simp [ih]
    · exact ih

theorem mem_startedBy {d : Nat} {log : List Obs} {rec : Int} {id rtn n ts : Nat}
    (h : .started id rtn rec n ts ∈ log) (hd : ts ≤ d) : rec ∈ startedBy d log := by
  induction log with
  | nil => cases h
  | cons o log ih =>
    cases o <;> simp only [startedBy]
    case started a b c e f =>
      rcases List.mem_cons.1 h with hx | hx
      · cases hx; rw [if_pos hd]; simp
      · split
        · exact List.mem_append_left _ (ih hx)
        · exact ih hx
    all_goals exact ih (by simpa using h)

/-- Deadlines that do not overflow belong to runs that were started no later. -/
theorem early_starts {env : Env} {ls : List Label} {s : St} {u : RecycleUnit} (h : run env (init env) ls = some s)
    (hf : AllLimitsFit ls s.log) (hu : u ∈ s.heap) : early u.deadline s + 1 ≤ startsBy u.deadline s.log := by
  have hr : Reachable env s := ⟨ls, h⟩
  have hs : ∀ v, Limit (fun k => handed k ls) s.log v → v.deadline ≤ u.deadline → v.recordId ∈ startedBy u.deadline s.log := by
    rintro v ⟨t, ht, n, ts, m, h1, h2, h3⟩ hle
    have := hf _ t ht m h2 _ _ _ _ h1
    exact mem_startedBy h1 (by omega)
  have h1 : ((((sweptUnits s.log).filter fun v => decide (v.deadline ≤ u.deadline)) ++ [u]).map (·.recordId)).Nodup := by
    refine (C31_once hr).sublist (List.Sublist.map _ ?_)
    rw [List.append_assoc]
    refine List.Sublist.append List.filter_sublist ?_
    exact (List.singleton_sublist.2 hu).trans (List.sublist_append_left _ _)
  have h2 := nodup_length_le h1 (b := startedBy u.deadline s.log) (by
    intro x hx
    obtain ⟨v, hv, rfl⟩ := List.mem_map.1 hx
    rcases List.mem_append.1 hv with hv | hv
    · obtain ⟨hv, hle⟩ := List.mem_filter.1 hv
      obtain ⟨now, hn⟩ := mem_sweptUnits.1 hv
      exact hs v ((unitOk h).swept v now hn).1 (by simpa using hle)
    · rw [List.mem_singleton.1 hv]
      exact hs u ((unitOk h).heap u hu) (Nat.le_refl _))
  rw [startedBy_length] at h2
  simpa [early, List.countP_eq_length_filter] using h2

/-- **C66** A deadline known to the sweeper is swept once the sweeper has made enough rounds from that time on: one for
every 200 runs, of whatever tasks, that were started by then. -/
theorem C66_swept {env : Env} {pre ls : List Label} {s s' : St} {u : RecycleUnit} (h0 : run env (init env) pre = some s)
    (hu : u ∈ s.heap) (h : run env s ls = some s') (hf : AllLimitsFit (pre ++ ls) s'.log)
    (hn : startsBy u.deadline s'.log ≤ 200 * roundsFrom u.deadline false ls) : u ∈ sweptUnits s'.log := by
  rcases rounds_run (b := false) (k := 0) ls ⟨pre, h0⟩ hu (Nat.zero_le _) (fun hx => by cases hx) h with h1 | ⟨h1, h2⟩
  · exact h1
  · have := early_starts (show run env (init env) (pre ++ ls) = some s' by rw [run_append, h0]; exact h) hf h1
    omega

/-! ## From the sweep to the end of the run -/

/-- The time-out event of a swept deadline was queued behind the registration of the run. -/
theorem timeout_behind {env : Env} {s : St} (hr : Reachable env s) :
    ∀ u ∈ sweptUnits s.log, ∃ a b, queuedTags s.log = a ++ .timeout u.taskId u.recordId :: b ∧
      .append u.taskId u.recordId ∈ a := by
  refine Reachable.induct (fun s => ∀ u ∈ sweptUnits s.log, ∃ a b, queuedTags s.log = a ++ .timeout u.taskId u.recordId :: b ∧
      .append u.taskId u.recordId ∈ a) ?_ ?_ s hr
  · intro u hu; cases hu
  · intro s l s' hr hs ha u hu
    have hold : u ∈ sweptUnits s.log → ∃ a b, queuedTags s'.log = a ++ .timeout u.taskId u.recordId :: b ∧
        .append u.taskId u.recordId ∈ a := by
      intro h
      obtain ⟨a, b, h1, h2⟩ := hs u h
      obtain ⟨c, hc⟩ := queuedTags_step ha
      exact ⟨a, b ++ c, by rw [← hc, h1]; simp, h2⟩
    rcases unit_cases hr ha with ⟨_, _, _, d, _⟩ | ⟨_, _, _, _, _, _, _, _, d, _⟩ | ⟨_, _, _, _, _, _, _, _, _, d⟩ | ⟨_, _, _, _, _, _, _, _, d⟩ | ⟨v, now, n, _, _, hv, _, _, _, _, _, d⟩ | ⟨_, _, _, _, _, _, _, _, _, d⟩
    · rw [d] at hu; exact hold hu
    · rw [d] at hu; exact hold hu
    · rw [d] at hu; exact hold hu
    · rw [d] at hu; exact hold hu
    · have hu' : u ∈ sweptUnits s.log ++ [v] := by rw [d] at hu; exact hu
      rcases List.mem_append.1 hu' with hu' | hu'
      · exact hold hu'
      · rw [List.mem_singleton.1 hu']
        refine ⟨queuedTags s.log, [], by rw [d]; rfl, ?_⟩
        exact dispatched_queued hr (units_registered hr v (Or.inr hv))
    · rw [d] at hu; exact hold hu

/-- Once the event thread has dispatched what was queued when the deadline was swept, the run is stopped. -/
theorem swept_stopped {env : Env} {s s' : St} {ls : List Label} {u : RecycleUnit} (hr : Reachable env s)
    (hu : u ∈ sweptUnits s.log) (h : run env s ls = some s')
    (hd : (queuedTags s.log).length ≤ (dispatchedTags s'.log).length) : .stopped u.taskId u.recordId ∈ s'.log := by
  obtain ⟨a, b, h1, h2⟩ := timeout_behind hr u hu
  obtain ⟨c, hc⟩ := dispatched_all_queued hr h hd
  refine ((repOk (hr.run h)).ended _ _).1 ?_
  rw [h1, List.append_assoc, List.cons_append] at hc
  obtain ⟨l1, l2, r, h3, h4⟩ := dispatched_split hc.symm
  exact ⟨l1, l2, _, r, h3, by simp [endTags], by rw [h4]; exact h2⟩

/-- **C66** An overlong run is stopped: the run `rec` of a task that may run for `m` seconds, started at `ts` and
registered, its deadline taken in by the sweeper. Let the sweeper make one round at a reading of `ts + m` or
later for every 200 runs started by then, whatever else happens meanwhile, and then let the event thread
work off what is queued: the run is stopped. -/
theorem C66_stopped {env : Env} {pre ls ls2 : List Label} {s s' s2 : St} {id rtn n ts m : Nat} {rec : Int}
    (h0 : run env (init env) pre = some s) (hm : ∀ t ∈ handed id pre, t.maximumRunningTime = some m)
    (hs : .started id rtn rec n ts ∈ s.log) (hd : .append id rec ∈ dispatchedTags s.log) (hc : s.unitChan = [])
    (h : run env s ls = some s') (hf : AllLimitsFit (pre ++ ls) s'.log)
    (hn : startsBy (ts + m) s'.log ≤ 200 * roundsFrom (ts + m) false ls)
    (h2 : run env s' ls2 = some s2) (hq : (queuedTags s'.log).length ≤ (dispatchedTags s2.log).length) :
    .stopped id rec ∈ s2.log := by
  have hr : Reachable env s := ⟨pre, h0⟩
  obtain ⟨t, ht, _⟩ := (deadlineOk h0).reg id rec hd
  have hfit : ts + m < 2 ^ 64 := by
    refine hf id t ?_ m (hm t ht) rtn rec n ts (log_mono_run h hs)
    rw [handed_append]; exact List.mem_append_left _ ht
  have hu := C66_registered h0 hm hs hfit hd
  rw [hc, List.append_nil] at hu
  have hsw : ⟨ts + m, id, rec⟩ ∈ sweptUnits s'.log := by
    rcases List.mem_append.1 hu with hu | hu
    · exact swept_stays h hu
    · exact C66_swept h0 hu h hf hn
  exact swept_stopped (u := ⟨ts + m, id, rec⟩) (hr.run h) hsw h2 hq

/-! ## It can happen -/

theorem rest_now {env : Env} (r : Nat) (s : St) :
    ∃ ls s' w, (∀ l ∈ ls, SweepsFrom r l) ∧ run env s ls = some s' ∧ s'.spc = .idle w := by
  cases hp : s.spc with
  | idle w => exact ⟨[], s, w, by simp, rfl, hp⟩
  | active now n =>
    obtain ⟨us, _, s', w, h1, h2⟩ := C31_ends (env := env) n hp
    refine ⟨_, s', w, ?_, h1, h2⟩
    intro l hl
    rcases List.mem_append.1 hl with hl | hl
    · obtain ⟨u, _, rfl⟩ := List.mem_map.1 hl; trivial
    · rw [List.mem_singleton.1 hl]; trivial

theorem takes_in {env : Env} {w : Nat} : ∀ (n : Nat) {s : St}, s.unitChan.length = n → s.spc = .idle w →
    ∃ ls s', (∀ l ∈ ls, l = .sAdd) ∧ run env s ls = some s' ∧ s'.spc = .idle w ∧ s'.unitChan = [] ∧ s'.log = s.log := by
  intro n
  induction n with
  | zero => intro s hn hp; exact ⟨[], s, by simp, rfl, hp, List.length_eq_zero_iff.1 hn, rfl⟩
  | succ n ih =>
    intro s hn hp
    cases hu : s.unitChan with
    | nil => rw [hu] at hn; cases hn
    | cons u rest =>
      have h1 : step env s .sAdd = some { s with unitChan := rest, heap := u :: s.heap } := by
        simp [step, sAdd, hp, hu]
      obtain ⟨ls, s', h2, h3, h4⟩ := ih (s := { s with unitChan := rest, heap := u :: s.heap })
        (by rw [hu] at hn; simpa using hn) hp
      refine ⟨.sAdd :: ls, s', ?_, by simp only [run, h1]; exact h3, h4⟩
      intro l hl
      rcases List.mem_cons.1 hl with rfl | hl
      · rfl
      · exact h2 l hl

theorem sweeps_it {env : Env} {r : Nat} {u : RecycleUnit} : ∀ (n : Nat) {s : St} {w : Nat}, Reachable env s →
    s.heap.length = n → s.spc = .idle w → u ∈ s.heap →
    ∃ ls s', (∀ l ∈ ls, SweepsFrom r l) ∧ run env s ls = some s' ∧ u ∈ sweptUnits s'.log := by
  intro n
  induction n using Nat.strongRecOn with
  | ind n ih =>
    intro s w hr hn hp hu
    have h1 : step env s (.sWake (max w (max r u.deadline))) = some { s with spc := .active (max w (max r u.deadline)) 200 } := by
      simp only [step, sWake, hp]
      rw [if_pos (by omega)]
    obtain ⟨us, _, s', w', h2, h3⟩ := C31_ends (env := env) 200
      (s := { s with spc := .active (max w (max r u.deadline)) 200 }) rfl
    have hrun : run env s (.sWake (max w (max r u.deadline)) :: (us.map Label.sPop ++ [.sRest])) = some s' := by
      simp only [run, h1]; exact h2
    have hls : ∀ l ∈ Label.sWake (max w (max r u.deadline)) :: (us.map Label.sPop ++ [.sRest]), SweepsFrom r l := by
      intro l hl
      rcases List.mem_cons.1 hl with rfl | hl
      · simp only [SweepsFrom]; omega
      rcases List.mem_append.1 hl with hl | hl
      · obtain ⟨v, _, rfl⟩ := List.mem_map.1 hl; trivial
      · rw [List.mem_singleton.1 hl]; trivial
    have hnr : ∀ l ∈ us.map Label.sPop, l ≠ .sRest := by
      intro l hl
      obtain ⟨v, _, rfl⟩ := List.mem_map.1 hl
      simp
    obtain ⟨vs, i1, i2, i3, _, _, _, i4⟩ := C31_round hr hnr hrun
    rcases List.mem_append.1 (i3.mem_iff.2 hu) with h4 | h4
    · exact ⟨_, s', hls, hrun, by rw [i1]; exact List.mem_append_right _ h4⟩
    · have h5 : vs.length = 200 := by
        rcases Nat.lt_or_ge vs.length 200 with h | h
        · have := i4 h u h4; omega
        · omega
      have h6 := i3.length_eq
      rw [List.length_append] at h6
      obtain ⟨ls, s2, h7, h8, h9⟩ := ih s'.heap.length (by omega) (hr.run hrun) rfl h3 h4
      refine ⟨(Label.sWake (max w (max r u.deadline)) :: (us.map Label.sPop ++ [.sRest])) ++ ls, s2, ?_, ?_, h9⟩
      · intro l hl
        rcases List.mem_append.1 hl with hl | hl
        · exact hls l hl
        · exact h7 l hl
      · rw [run_append, hrun]; exact h8

/-- **C66** Nothing but the sweeper and the event thread is needed to stop an overlong run: whatever state the
timer is in, and however late it is, the two can stop any registered run of a task with a limit, by themselves.
(First alarms that overflow where that is a panic end the event thread: C64.) -/
theorem C66_can {env : Env} {pre : List Label} {s : St} {id rtn n ts m : Nat} {rec : Int}
    (h0 : run env (init env) pre = some s) (hadd : Addable env pre) (hm : ∀ t ∈ handed id pre, t.maximumRunningTime = some m)
    (hs : .started id rtn rec n ts ∈ s.log) (hf : ts + m < 2 ^ 64) (hd : .append id rec ∈ dispatchedTags s.log) (r : Nat) :
    ∃ ls s', (∀ l ∈ ls, SweepsFrom r l) ∧ run env s ls = some s' ∧ .stopped id rec ∈ s'.log := by
  have hr : Reachable env s := ⟨pre, h0⟩
  obtain ⟨l1, s1, w, a1, b1, c1⟩ := rest_now (env := env) r s
  have hr1 := hr.run b1
  obtain ⟨l2, s2, a2, b2, c2, d2, _⟩ := takes_in (env := env) _ rfl c1
  have hr2 := hr1.run b2
  have hu : (⟨ts + m, id, rec⟩ : RecycleUnit) ∈ sweptUnits s2.log ++ s2.heap ++ s2.unitChan := by
    exact units_kept_run _ hr1 b2 (units_kept_run _ hr b1 (C66_registered h0 hm hs hf hd))
  rw [d2, List.append_nil] at hu
  have hsw : ∃ l3 s3, (∀ l ∈ l3, SweepsFrom r l) ∧ run env s2 l3 = some s3 ∧
      (⟨ts + m, id, rec⟩ : RecycleUnit) ∈ sweptUnits s3.log := by
    rcases List.mem_append.1 hu with hu | hu
    · exact ⟨[], s2, by simp, rfl, hu⟩
    · exact sweeps_it _ hr2 rfl c2 hu
  obtain ⟨l3, s3, a3, b3, c3⟩ := hsw
  have hall : run env s (l1 ++ (l2 ++ l3)) = some s3 := by
    rw [run_append, b1]; simp only [Option.bind]; rw [run_append, b2]; exact b3
  have hla : ∀ l ∈ l1 ++ (l2 ++ l3), SweepsFrom r l := by
    intro l hl
    rcases List.mem_append.1 hl with hl | hl
    · exact a1 l hl
    rcases List.mem_append.1 hl with hl | hl
    · rw [a2 l hl]; trivial
    · exact a3 l hl
  have hadd3 : Addable env (pre ++ (l1 ++ (l2 ++ l3))) := by
    intro ho t ht
    rw [added, List.flatMap_append] at ht
    rcases List.mem_append.1 ht with ht | ht
    · exact hadd ho t ht
    · exfalso
      obtain ⟨l, hl, htl⟩ := List.mem_flatMap.1 ht
      have := hla l hl
      cases l <;> first | exact this.elim | cases htl
  have h03 : run env (init env) (pre ++ (l1 ++ (l2 ++ l3))) = some s3 := by rw [run_append, h0]; exact hall
  obtain ⟨l4, s4, a4, b4, c4⟩ := drains ⟨_, h03⟩ (adds_of_added h03 hadd3)
  refine ⟨(l1 ++ (l2 ++ l3)) ++ l4, s4, ?_, by rw [run_append, hall]; exact b4, ?_⟩
  · intro l hl
    rcases List.mem_append.1 hl with hl | hl
    · exact hla l hl
    · rcases a4 l hl with rfl | rfl <;> trivial
  · exact swept_stopped (u := ⟨ts + m, id, rec⟩) ⟨_, h03⟩ c3 b4 (by rw [c4]; exact Nat.le_refl _)

end DelayTimer

namespace DelayTimer.Ex
open Spec

/-- The rest of a round at 107 over the three runs of `limits`. -/
def sweepLs : List Label := [.sWake 107, .sPop ⟨104, 2, 1⟩, .sPop ⟨107, 1, 0⟩, .sPop ⟨107, 3, 2⟩, .sRest]

/-- C66, `C66_stopped`: the second of three runs was started at 103 and may run for a second; one round at 107, after
which the event thread works off the three time-outs. -/
example : (∀ t ∈ handed 2 limits, t.maximumRunningTime = some 1) ∧ .started 2 2 1 3 103 ∈ (play env0 limits).log ∧
    .append 2 1 ∈ dispatchedTags (play env0 limits).log ∧ (play env0 limits).unitChan = [] ∧
    startsBy 104 (play env0 (limits ++ sweepLs)).log = 3 ∧ roundsFrom 104 false sweepLs = 1 ∧
    (queuedTags (play env0 (limits ++ sweepLs)).log).length ≤
      (dispatchedTags (play env0 (limits ++ sweepLs ++ [.eRecv, .eRecv, .eRecv])).log).length ∧
    .stopped 2 1 ∉ (play env0 (limits ++ sweepLs)).log ∧
    .stopped 2 1 ∈ (play env0 (limits ++ sweepLs ++ [.eRecv, .eRecv, .eRecv])).log := by
  refine ⟨?_, by decide +kernel, by decide +kernel, rfl, rfl, rfl, by decide +kernel, by decide +kernel, by decide +kernel⟩
  intro t ht
  have : handed 2 limits = [{ every 2 102 5000 with maximumRunningTime := some 1 }] := rfl
  rw [this] at ht; simp at ht; rw [ht]

/-- C66: all limits fit. -/
example : AllLimitsFit (limits ++ sweepLs) (play env0 (limits ++ sweepLs)).log := by
  intro k t ht m hm rtn rec n ts hs
  have h1 : (limits ++ sweepLs).all (fun l => (broughtBy k l).all fun t => match t.maximumRunningTime with
      | some m => decide (m ≤ 5) | none => true) = true := by
    simp [limits, sweepLs, add, idle, fire, pop, broughtBy]
  have h2 : ((play env0 (limits ++ sweepLs)).log.all fun o =>
      match o with | .started _ _ _ _ ts => decide (ts ≤ 104) | _ => true) = true := by decide +kernel
  have h3 := List.all_eq_true.1 h2 _ hs
  obtain ⟨l, hl, htl⟩ := List.mem_flatMap.1 ht
  have h4 := List.all_eq_true.1 (List.all_eq_true.1 h1 _ hl) _ htl
  rw [hm] at h4
  simp at h3 h4
  omega

/-- C66, `C66_can`: from the state of `limits` on, at any later time. -/
example (r : Nat) : ∃ ls s', (∀ l ∈ ls, SweepsFrom r l) ∧ run env0 (play env0 limits) ls = some s' ∧ .stopped 2 1 ∈ s'.log := by
  refine C66_can (pre := limits) (m := 1) (play_run (by decide +kernel)) (fun h => by cases h) ?_
    (show .started 2 2 1 3 103 ∈ (play env0 limits).log by decide +kernel) (by decide) (by decide +kernel) r
  intro t ht
  have : handed 2 limits = [{ every 2 102 5000 with maximumRunningTime := some 1 }] := rfl
  rw [this] at ht; simp at ht; rw [ht]

end DelayTimer.Ex
