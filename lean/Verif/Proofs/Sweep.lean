import Verif.Proofs.Reports
import Verif.Proofs.Copies

/-! Where running times, recycle units and time-outs come from. -/

namespace DelayTimer
open Spec

/-! ## Every copy of a task comes from one that was handed in -/

/-- `t` is a copy of one of `H`: same body, same running time limit, same parallel limit. -/
def Stems (H : List Task) (t : Task) : Prop :=
  ∃ t0 ∈ H, t0.routine = t.routine ∧ t0.maximumRunningTime = t.maximumRunningTime ∧
    t0.maximumParallelRunnableNum = t.maximumParallelRunnableNum

theorem Stems.mono {H H' : List Task} {t : Task} (h : ∀ x ∈ H, x ∈ H') (hs : Stems H t) : Stems H' t := by
  obtain ⟨t0, h0, h1⟩ := hs
  exact ⟨t0, h t0 h0, h1⟩

theorem ask_routine (t : Task) : t.getNextExecTimestamp.2.routine = t.routine ∧
    t.getNextExecTimestamp.2.maximumRunningTime = t.maximumRunningTime ∧
    t.getNextExecTimestamp.2.maximumParallelRunnableNum = t.maximumParallelRunnableNum := by
  simp [Task.getNextExecTimestamp]

theorem down_routine {t t' : Task} {c b : Bool} (h : t.downCountAndSetValid c = some (b, t')) :
    t'.routine = t.routine ∧ t'.maximumRunningTime = t.maximumRunningTime ∧
    t'.maximumParallelRunnableNum = t.maximumParallelRunnableNum := by
  simp only [Task.downCountAndSetValid] at h
  split at h
  · contradiction
  · simp only [Option.some.injEq, Prod.mk.injEq] at h
    obtain ⟨_, rfl⟩ := h
    exact ⟨rfl, rfl, rfl⟩

theorem stems_step {env : Env} {H : List Task} {k : Nat} {s : St} {l : Label} {s' : St}
    (hb : ∀ t ∈ broughtBy k l, t ∈ H) (hs : Copies (Stems H) (Stems H) k s) (h : Act env s l s') :
    Copies (Stems H) (Stems H) k s' := by
  refine copies_step ?_ ?_ ?_ (fun _ h => h) (fun t ht => ⟨t, hb t ht, rfl, rfl, rfl⟩) hs h
  · rintro t c ⟨t0, h0, h1⟩; exact ⟨t0, h0, h1⟩
  · rintro t ⟨t0, h0, h1, h2, h3⟩
    obtain ⟨a, b, c⟩ := ask_routine t
    exact ⟨t0, h0, by rw [a]; exact h1, by rw [b]; exact h2, by rw [c]; exact h3⟩
  · rintro t t' ⟨t0, h0, h1, h2, h3⟩ hd
    obtain ⟨a, b, c⟩ := down_routine hd
    exact ⟨t0, h0, by rw [a]; exact h1, by rw [b]; exact h2, by rw [c]; exact h3⟩

/-- An invariant that may use the tasks handed in so far. -/
theorem handed_induct {env : Env} (P : List Label → St → Prop) (h0 : P [] (init env))
    (hstep : ∀ ls s l s', run env (init env) ls = some s → P ls s → Act env s l s' → P (ls ++ [l]) s') :
    ∀ ls s, run env (init env) ls = some s → P ls s := by
  suffices H : ∀ ls pre s s', run env (init env) pre = some s → P pre s → run env s ls = some s' →
      P (pre ++ ls) s' by
    intro ls s h; simpa using H ls [] _ s rfl h0 h
  intro ls
  induction ls with
  | nil => intro pre s s' _ hp h; cases h; simpa using hp
  | cons l ls ih =>
    intro pre s s' hr hp h
    simp only [run] at h
    split at h
    · rename_i s1 h1
      have hr' : run env (init env) (pre ++ [l]) = some s1 := by rw [run_append, hr]; simp [run, h1]
      have := ih (pre ++ [l]) s1 s' hr' (hstep _ _ _ _ hr hp (step_act h1)) h
      simpa using this
    · cases h

theorem handed_append (k : Nat) (a b : List Label) : handed k (a ++ b) = handed k a ++ handed k b := by
  simp [handed]

/-- Every copy of `k` stems from a task that was handed in under that id. -/
theorem stems {env : Env} {ls : List Label} {s : St} (h : run env (init env) ls = some s) (k : Nat) :
    Copies (Stems (handed k ls)) (Stems (handed k ls)) k s := by
  refine handed_induct (fun ls s => Copies (Stems (handed k ls)) (Stems (handed k ls)) k s) ?_ ?_ ls s h
  · exact (Nobody.init env k).copies
  · intro ls s l s' _ hs ha
    have hm : ∀ t, Stems (handed k ls) t → Stems (handed k (ls ++ [l])) t := fun t =>
      Stems.mono (fun x hx => by rw [handed_append]; exact List.mem_append_left _ hx)
    refine stems_step ?_ ⟨fun t h => hm t (hs.chan t h), fun t a b => hm t (hs.upd t a b),
      fun t h => hm t (hs.epc t h), fun i t h => hm t (hs.wheel i t h), fun t h => hm t (hs.held t h),
      fun t h => hm t (hs.started t h)⟩ ha
    intro t ht
    rw [handed_append]
    exact List.mem_append_right _ (by simpa [handed] using ht)

/-! ## Recycle units -/

/-- How units move. -/
theorem unit_cases {env : Env} {s : St} {l : Label} {s' : St} (hr : Reachable env s) (h : Act env s l s') :
    (s'.unitChan = s.unitChan ∧ s'.heap = s.heap ∧ s'.spc = s.spc ∧ sweptUnits s'.log = sweptUnits s.log ∧
      (dispatchedTags s'.log = dispatchedTags s.log ∨
       ∃ t, dispatchedTags s'.log = dispatchedTags s.log ++ [t] ∧ appendRecs [t] = [])) ∨
    (∃ id box rest, s.epc = .idle ∧ s.chan = .appendTaskHandle id box :: rest ∧
      s'.unitChan = s.unitChan ++ unitsOf box ∧ s'.heap = s.heap ∧ s'.spc = s.spc ∧
      sweptUnits s'.log = sweptUnits s.log ∧
      dispatchedTags s'.log = dispatchedTags s.log ++ [.append id box.recordId]) ∨
    (∃ w u rest, l = .sAdd ∧ s.spc = .idle w ∧ s.unitChan = u :: rest ∧ s'.unitChan = rest ∧
      s'.heap = u :: s.heap ∧ s'.spc = .idle w ∧ s'.log = s.log) ∨
    (∃ w now, l = .sWake now ∧ s.spc = .idle w ∧ w ≤ now ∧ s'.spc = .active now 200 ∧
      s'.unitChan = s.unitChan ∧ s'.heap = s.heap ∧ s'.log = s.log) ∨
    (∃ u now n, l = .sPop u ∧ s.spc = .active now (n + 1) ∧ u ∈ s.heap ∧
      (∀ v ∈ s.heap, u.deadline ≤ v.deadline) ∧ u.deadline ≤ now ∧ s'.unitChan = s.unitChan ∧
      s'.heap = s.heap.erase u ∧ s'.spc = .active now n ∧
      s'.log = .swept u now :: .queued (.timeout u.taskId u.recordId) :: s.log) ∨
    (∃ now n w, l = .sRest ∧ s.spc = .active now n ∧ s'.spc = .idle w ∧
      (n = 0 ∧ w = now + 3 ∨ heapMin s.heap = none ∧ w = now + 3 ∨
        n ≠ 0 ∧ ∃ d, heapMin s.heap = some d ∧ now < d ∧ w = d) ∧
      s'.unitChan = s.unitChan ∧ s'.heap = s.heap ∧ s'.log = s.log) := by
  cases h
  all_goals try (exact Or.inl ⟨rfl, rfl, rfl, rfl, Or.inl rfl⟩)
  case sadd w u rest hp hu =>
    exact Or.inr (Or.inr (Or.inl ⟨w, u, rest, rfl, hp, hu, rfl, rfl, hp, rfl⟩))
  case swake w now hp hle =>
    exact Or.inr (Or.inr (Or.inr (Or.inl ⟨w, now, rfl, hp, hle, rfl, rfl, rfl, rfl⟩)))
  case spop u now n hp hu hmin hle =>
    exact Or.inr (Or.inr (Or.inr (Or.inr (Or.inl ⟨u, now, n, rfl, hp, hu, hmin, hle, rfl, rfl, rfl, rfl⟩))))
  case srest now n w hp hw =>
    exact Or.inr (Or.inr (Or.inr (Or.inr (Or.inr ⟨now, n, w, rfl, hp, rfl, hw, rfl, rfl, rfl⟩))))
  case recv_append id box rest he hc =>
    refine Or.inr (Or.inl ⟨id, box, rest, he, hc, ?_, by simp, by simp, by simp [sweptUnits], by simp [dispatchedTags]⟩)
    simp [maintainTaskStatus]
  case recv_cancel id rec rest he hc =>
    left
    rcases cancelTask_log env true { s with chan := rest } id rec CANCELLED with h | h | ⟨_, _, h⟩ <;>
      (refine ⟨by simp, by simp, by simp, by simp [h, sweptUnits], Or.inr ⟨.cancel id rec, by simp [h, dispatchedTags], rfl⟩⟩)
  case recv_timeout id rec rest he hc =>
    left
    rcases cancelTask_log env false { s with chan := rest } id rec TIMEOUT with h | h | ⟨_, _, h⟩ <;>
      (refine ⟨by simp, by simp, by simp, by simp [h, sweptUnits], Or.inr ⟨.timeout id rec, by simp [h, dispatchedTags], rfl⟩⟩)
  case recv_finish b rest he hc =>
    left
    rcases finishTask_log env { s with chan := rest } b.taskId b.recordId with h | h | ⟨_, _, h⟩ <;>
      (refine ⟨by simp, by simp, by simp, by simp [h, sweptUnits], Or.inr ⟨.finish b.taskId b.recordId, by simp [h, dispatchedTags], rfl⟩⟩)
  case next_add3 tag m he =>
    refine Or.inl ⟨by simp, by simp, by simp, by simp [sweptUnits], Or.inr ⟨tag, by simp [dispatchedTags], ?_⟩⟩
    rcases add3Tag hr he with ⟨rfl, _⟩ | ⟨c, rfl, _⟩ <;> rfl
  case next_add1_err t chain hand he hn =>
    refine Or.inl ⟨by simp, by simp, by simp, by simp [sweptUnits], Or.inr ⟨addTag t chain, by simp [dispatchedTags], ?_⟩⟩
    cases chain <;> rfl
  all_goals
    left
    refine ⟨by simp, by simp, by simp, by simp [sweptUnits], ?_⟩
    first
      | (left; simp [dispatchedTags]; done)
      | (right; refine ⟨_, by simp [dispatchedTags]; rfl, rfl⟩)

theorem mem_sweptUnits {u : RecycleUnit} {log : List Obs} : u ∈ sweptUnits log ↔ ∃ now, .swept u now ∈ log := by
  induction log with
  | nil => simp [sweptUnits]
  | cons o log ih =>
    cases o <;> simp [sweptUnits, ih]
    rename_i v n
    constructor
    · rintro (⟨m, h⟩ | rfl)
      · exact ⟨m, Or.inr h⟩
      · exact ⟨n, Or.inl ⟨rfl, rfl⟩⟩
    · rintro ⟨m, ⟨rfl, rfl⟩ | h⟩
      · exact Or.inr rfl
      · exact Or.inl ⟨m, h⟩

/-- The unit belongs to a started run of a task with a running time limit, and its deadline is the
start of the run plus that limit, in 64 bits. -/
def Limit (H : Nat → List Task) (log : List Obs) (u : RecycleUnit) : Prop :=
  ∃ t ∈ H u.taskId, ∃ n ts m, .started u.taskId t.routine u.recordId n ts ∈ log ∧
    t.maximumRunningTime = some m ∧ u.deadline = (ts + m) % 18446744073709551616

structure UnitOk (H : Nat → List Task) (s : St) : Prop where
  app : ∀ p t box, s.tpc = .append p t box → ∀ u ∈ unitsOf box, Limit H s.log u
  chan : ∀ id box, .appendTaskHandle id box ∈ s.chan → ∀ u ∈ unitsOf box, Limit H s.log u
  uchan : ∀ u ∈ s.unitChan, Limit H s.log u
  heap : ∀ u ∈ s.heap, Limit H s.log u
  swept : ∀ u now, .swept u now ∈ s.log → Limit H s.log u ∧ u.deadline ≤ now

theorem Limit.mono {H H' : Nat → List Task} {log log' : List Obs} {u : RecycleUnit}
    (h1 : ∀ k, ∀ t ∈ H k, t ∈ H' k) (h2 : ∀ o ∈ log, o ∈ log') (h : Limit H log u) : Limit H' log' u := by
  obtain ⟨t, ht, n, ts, m, h3, h4⟩ := h
  exact ⟨t, h1 _ t ht, n, ts, m, h2 _ h3, h4⟩

/-- A step that adds to the swept units does so by `sPop`. -/
theorem swept_old {env : Env} {s : St} {l : Label} {s' : St} (h : Act env s l s')
    (hs : sweptUnits s'.log = sweptUnits s.log) {u : RecycleUnit} {now : Nat} (hx : .swept u now ∈ s'.log) :
    .swept u now ∈ s.log := by
  rcases log_cases h with ⟨n, hn, hmi, _⟩ | ⟨_, _, _, _, _, _, _, _, hn, _⟩ | ⟨_, _, hn, _⟩ | ⟨u', now', n, _, _, _, hn⟩ | ⟨_, _, _, _, hn, _⟩
  · rw [hn] at hx
    rcases List.mem_append.1 hx with hx | hx
    · exact absurd (hmi _ hx) (by simp [Minor])
    · exact hx
  · rw [hn] at hx; simpa using hx
  · rw [hn] at hx; simpa using hx
  · rw [hn] at hs
    have := congrArg List.length hs
    simp [sweptUnits] at this
  · rw [hn] at hx; simpa using hx

theorem unitOk {env : Env} {ls : List Label} {s : St} (h : run env (init env) ls = some s) :
    UnitOk (fun k => handed k ls) s := by
  refine handed_induct (fun ls s => UnitOk (fun k => handed k ls) s) ?_ ?_ ls s h
  · refine ⟨?_, ?_, ?_, ?_, ?_⟩
    · intro _ _ _ hx; cases hx
    · intro _ _ hx; cases hx
    · intro _ hx; cases hx
    · intro _ hx; cases hx
    · intro _ _ hx; cases hx
  · intro ls s l s' hr hs ha
    obtain ⟨h1, h2, h3, h4, h5⟩ := hs
    have hre : Reachable env s := ⟨ls, hr⟩
    have hm : ∀ u, Limit (fun k => handed k ls) s.log u → Limit (fun k => handed k (ls ++ [l])) s'.log u :=
      fun u => Limit.mono (fun k t ht => by simp only [handed_append]; exact List.mem_append_left _ ht)
        (fun o ho => log_mono ha ho)
    have hsw : ∀ u now, Obs.swept u now ∈ s.log → Limit (fun k => handed k (ls ++ [l])) s'.log u ∧ u.deadline ≤ now :=
      fun u now h => ⟨hm u (h5 u now h).1, (h5 u now h).2⟩
    have happ : ∀ p t box, s'.tpc = .append p t box → ∀ u ∈ unitsOf box,
        Limit (fun k => handed k (ls ++ [l])) s'.log u := by
      have h1' : ∀ p t box, s.tpc = .append p t box → ∀ u ∈ unitsOf box,
        Limit (fun k => handed k (ls ++ [l])) s'.log u := fun p t box hp u hu => hm u (h1 p t box hp u hu)
      clear hsw hm h1 h2 h3 h4 h5
      cases ha
      all_goals try (exact h1')
      all_goals try (intro _ _ _ hx; cases hx; done)
      all_goals try (simpa using h1')
      case spawn pending t rec hp =>
        intro p t' box hx u hu
        cases hx
        obtain ⟨t0, h0, hrt, hmx, _⟩ := (stems hr t.taskId).held t (by rw [hp]; simp [heldTok])
        simp only [unitsOf, Task.getMaximumRunningTime] at hu
        cases hq : t.maximumRunningTime with
        | none => rw [hq] at hu; simp at hu
        | some m =>
          rw [hq] at hu
          simp only [Option.map_some, List.mem_singleton] at hu
          subst hu
          refine ⟨t0, by simp only [handed_append]; exact List.mem_append_left _ h0, s.ticks, env.clock s.ticks, m, ?_, ?_, ?_⟩
          · simp [hrt]
          · rw [hmx, hq]
          · simp [Nat.add_comm]
    refine ⟨happ, ?_, ?_, ?_, ?_⟩
    · intro id box hx u hu
      rcases chan_sub ha hx with h6 | ⟨p, t, box', rfl, hp, h6⟩ | ⟨_, _, _, _, _, _, _, h6⟩ | ⟨op, _, h6⟩ | ⟨_, _, _, h6⟩ | ⟨_, _, _, h6⟩ | ⟨_, _, h6⟩
      · exact hm u (h2 id box h6 u hu)
      · cases h6; exact hm u (h1 _ _ _ hp u hu)
      · cases h6
      · cases op <;> cases h6
      · cases h6
      · cases h6
      · cases h6
    all_goals
      rcases unit_cases hre ha with ⟨a, b, c, d, _⟩ | ⟨id, box, rest, e, hc, a, b, c, d, _⟩ | ⟨w, u, rest, rfl, _, hu, a, b, _, d⟩ | ⟨w, now, rfl, _, _, _, a, b, d⟩ | ⟨u, now, n, rfl, _, hu, _, hle, a, b, _, d⟩ | ⟨now, n, w, rfl, _, _, _, a, b, d⟩
    · rw [a]; exact fun u hu => hm u (h3 u hu)
    · rw [a]; intro u hu
      rcases List.mem_append.1 hu with hu | hu
      · exact hm u (h3 u hu)
      · exact hm u (h2 id box (by rw [hc]; simp) u hu)
    · rw [a]; exact fun u' hu' => hm u' (h3 u' (by rw [hu]; exact List.mem_cons_of_mem _ hu'))
    · rw [a]; exact fun u hu => hm u (h3 u hu)
    · rw [a]; exact fun u hu => hm u (h3 u hu)
    · rw [a]; exact fun u hu => hm u (h3 u hu)
    · rw [b]; exact fun u hu => hm u (h4 u hu)
    · rw [b]; exact fun u hu => hm u (h4 u hu)
    · rw [b]; intro u' hu'
      rcases List.mem_cons.1 hu' with rfl | hu'
      · exact hm _ (h3 _ (by rw [hu]; simp))
      · exact hm u' (h4 u' hu')
    · rw [b]; exact fun u hu => hm u (h4 u hu)
    · rw [b]; exact fun u' hu' => hm u' (h4 u' (List.mem_of_mem_erase hu'))
    · rw [b]; exact fun u hu => hm u (h4 u hu)
    · intro u now hx
      refine hsw u now ?_
      exact swept_old ha d hx
    · intro u now hx
      refine hsw u now ?_
      exact swept_old ha d hx
    · rw [d]; rw [d] at hsw; exact hsw
    · rw [d]; rw [d] at hsw; exact hsw
    · intro u' now' hx
      rw [d] at hx
      rcases List.mem_cons.1 hx with hx | hx
      · cases hx; exact ⟨hm _ (h4 _ hu), hle⟩
      · rcases List.mem_cons.1 hx with hx | hx
        · cases hx
        · exact hsw _ _ hx
    · rw [d]; rw [d] at hsw; exact hsw

/-! ## Conservation -/

/-- All units ever registered: swept, in the heap, on the way to the heap. -/
def unitRecs (s : St) : List Int := (sweptUnits s.log ++ s.heap ++ s.unitChan).map (·.recordId)

theorem unitsOf_recs (box : HandlerBox) (r : Int) :
    ((unitsOf box).map (·.recordId)).count r ≤ [box.recordId].count r := by
  unfold unitsOf
  split <;> simp

theorem unitRecs_le {env : Env} {s : St} (h : Reachable env s) (r : Int) :
    (unitRecs s).count r ≤ (appendRecs (dispatchedTags s.log)).count r := by
  refine Reachable.induct (fun s => (unitRecs s).count r ≤ (appendRecs (dispatchedTags s.log)).count r) ?_ ?_ s h
  · simp [unitRecs, init, sweptUnits]
  · intro s l s' hr hs ha
    simp only [unitRecs, List.map_append, List.count_append] at hs ⊢
    rcases unit_cases hr ha with ⟨a, b, c, d, e⟩ | ⟨id, box, rest, e, hc, a, b, c, d, f⟩ | ⟨w, u, rest, rfl, _, hu, a, b, _, d⟩ | ⟨w, now, rfl, _, _, _, a, b, d⟩ | ⟨u, now, n, rfl, _, hu, _, hle, a, b, _, d⟩ | ⟨now, n, w, rfl, _, _, _, a, b, d⟩
    · rw [a, b, d]
      rcases e with e | ⟨t, e, f⟩
      · rw [e]; exact hs
      · rw [e, appendRecs_append, f]; simpa using hs
    · rw [a, b, d, f, appendRecs_append]
      simp only [List.map_append, List.count_append]
      have := unitsOf_recs box r
      have e : appendRecs [.append id box.recordId] = [box.recordId] := rfl
      rw [e]
      omega
    · rw [a, b, d]
      rw [hu] at hs
      simp only [List.map_cons, List.count_cons] at hs ⊢
      omega
    · rw [a, b, d]; exact hs
    · have hp : (u :: s.heap.erase u).Perm s.heap := (List.perm_cons_erase hu).symm
      have := (hp.map (·.recordId)).count_eq r
      rw [a, b, d]
      simp only [sweptUnits, dispatchedTags, List.map_append, List.map_cons, List.map_nil, List.count_append, List.count_cons, List.count_nil] at hs this ⊢
      omega
    · rw [a, b, d]; exact hs

theorem timeoutsOf_append (a b : List Tag) : timeoutsOf (a ++ b) = timeoutsOf a ++ timeoutsOf b := by
  simp [timeoutsOf]

theorem sweptUnits_minor {news log : List Obs} (h : ∀ o ∈ news, Minor o) :
    sweptUnits (news ++ log) = sweptUnits log := by
  induction news with
  | nil => rfl
  | cons o news ih =>
    have h1 := h o List.mem_cons_self
    have h2 := ih (fun o ho => h o (List.mem_cons_of_mem _ ho))
    cases o <;> simp_all [Minor, sweptUnits]

/-- The time-out events are exactly the swept units, in the order swept. -/
theorem timeouts_swept {env : Env} {s : St} (h : Reachable env s) :
    timeoutsOf (queuedTags s.log) = (sweptUnits s.log).map (fun u => (u.taskId, u.recordId)) := by
  refine Reachable.induct (fun s => timeoutsOf (queuedTags s.log) =
    (sweptUnits s.log).map (fun u => (u.taskId, u.recordId))) rfl ?_ s h
  intro s l s' hr hs ha
  rcases log_cases ha with ⟨n, hn, hmi, hsub⟩ | ⟨p, t, rec, box', rfl, hp, hp', hb, hn, hce⟩ | ⟨e'', hc', hn, he⟩ | ⟨u, now, n, rfl, hp, hc', hn⟩ | ⟨rec, r, rfl, hr, hn, hce⟩
  · rw [hn, queuedTags_minor hmi, sweptUnits_minor hmi]; exact hs
  · rw [hn]; exact hs
  · rw [hn]
    simp only [queuedTags, sweptUnits, timeoutsOf_append, hs]
    rcases he with ⟨p, t, box', rfl, hp, rfl⟩ | ⟨_, _, r, _, hrt, hg, _, rfl⟩ | ⟨op, _, rfl⟩ | ⟨_, _, _, rfl⟩ | ⟨_, _, _, rfl⟩
    · simp [timeoutsOf, TimerEvent.tag]
    · simp [timeoutsOf, TimerEvent.tag]
    · cases op <;> simp [timeoutsOf, TimerEvent.tag, UserOp.event]
    · simp [timeoutsOf, TimerEvent.tag]
    · simp [timeoutsOf, TimerEvent.tag]
  · rw [hn]
    simp only [queuedTags, sweptUnits, timeoutsOf_append, hs]
    simp [timeoutsOf]
  · rw [hn]; exact hs

/-! ## A round of the sweeper -/

/-- What happens between two points of one round. -/
theorem round_run {env : Env} {now : Nat} : ∀ (ls : List Label) {s s' : St} {n : Nat}, Reachable env s →
    s.spc = .active now n → (∀ l ∈ ls, l ≠ .sRest) → run env s ls = some s' →
    ∃ us, sweptUnits s'.log = sweptUnits s.log ++ us ∧ s'.spc = .active now (n - us.length) ∧ us.length ≤ n ∧
      (us ++ s'.heap).Perm s.heap ∧ us.Pairwise (fun u v => u.deadline ≤ v.deadline) ∧
      (∀ u ∈ us, u.deadline ≤ now) ∧ ∀ u ∈ us, ∀ v ∈ s'.heap, u.deadline ≤ v.deadline := by
  intro ls
  induction ls with
  | nil => intro s s' n _ hp _ h; cases h; exact ⟨[], by simp, by simpa using hp, by simp, by simp, by simp, by simp, by simp⟩
  | cons l ls ih =>
    intro s s' n hr hp hl h
    simp only [run] at h
    split at h
    · rename_i s1 h1
      have hr1 := hr.step h1
      have ha := step_act h1
      have hl' : ∀ l ∈ ls, l ≠ .sRest := fun l h => hl l (List.mem_cons_of_mem _ h)
      rcases unit_cases hr ha with ⟨a, b, c, d, e⟩ | ⟨id, box, rest, e, hc, a, b, c, d, f⟩ | ⟨w, u, rest, rfl, hq, hu, a, b, _, d⟩ | ⟨w, now, rfl, hq, _, _, a, b, d⟩ | ⟨u, now', n', rfl, hq, hu, hmin, hle, a, b, c, d⟩ | ⟨now, n, w, rfl, _, _, _, a, b, d⟩
      · obtain ⟨us, i1, i2, i3, i4, i5, i6, i7⟩ := ih hr1 (by rw [c]; exact hp) hl' h
        exact ⟨us, by rw [i1, d], i2, i3, by rw [← b]; exact i4, i5, i6, i7⟩
      · obtain ⟨us, i1, i2, i3, i4, i5, i6, i7⟩ := ih hr1 (by rw [c]; exact hp) hl' h
        exact ⟨us, by rw [i1, d], i2, i3, by rw [← b]; exact i4, i5, i6, i7⟩
      · rw [hp] at hq; cases hq
      · rw [hp] at hq; cases hq
      · rw [hp] at hq; cases hq
        obtain ⟨us, i1, i2, i3, i4, i5, i6, i7⟩ := ih hr1 c hl' h
        have hperm : (u :: us ++ s'.heap).Perm s.heap := by
          rw [b] at i4
          exact (List.Perm.cons u i4).trans (List.perm_cons_erase hu).symm
        refine ⟨u :: us, ?_, ?_, by simp; omega, hperm, ?_, ?_, ?_⟩
        · rw [i1, d]; simp [sweptUnits]
        · rw [i2]; simp
        · rw [List.pairwise_cons]
          refine ⟨fun v hv => hmin v ?_, i5⟩
          exact hperm.subset (by simp [hv])
        · intro v hv
          rcases List.mem_cons.1 hv with rfl | hv
          · exact hle
          · exact i6 v hv
        · intro v hv x hx
          rcases List.mem_cons.1 hv with rfl | hv
          · exact hmin x (hperm.subset (by simp [hx]))
          · exact i7 v hv x hx
      · exact absurd rfl (hl .sRest List.mem_cons_self)
    · cases h

theorem heapMin_none {h : List RecycleUnit} : heapMin h = none ↔ h = [] := by
  cases h with
  | nil => simp [heapMin]
  | cons u h => simp only [heapMin]; split <;> simp

theorem heapMin_some {h : List RecycleUnit} {d : Nat} (hd : heapMin h = some d) :
    (∃ u ∈ h, u.deadline = d) ∧ ∀ u ∈ h, d ≤ u.deadline := by
  induction h generalizing d with
  | nil => simp [heapMin] at hd
  | cons u h ih =>
    simp only [heapMin] at hd
    split at hd
    · rename_i h1
      rw [heapMin_none] at h1
      subst h1
      cases hd
      simp
    · rename_i d' h1
      obtain ⟨⟨v, hv, hvd⟩, h3⟩ := ih h1
      cases hd
      refine ⟨?_, ?_⟩
      · rcases Nat.le_total u.deadline d' with h4 | h4
        · exact ⟨u, by simp, by simp [Nat.min_eq_left h4]⟩
        · exact ⟨v, by simp [hv], by simp [Nat.min_eq_right h4, hvd]⟩
      · intro x hx
        rcases List.mem_cons.1 hx with rfl | hx
        · exact Nat.min_le_left _ _
        · exact Nat.le_trans (Nat.min_le_right _ _) (h3 x hx)

end DelayTimer
