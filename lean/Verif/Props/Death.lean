import Verif.Proofs.Death

/-!
# C77, C78: what stops runs, and which calls fail

A run is stopped only by one of its end events, and calls of the API succeed, as long as the event thread lives. When it
dies (C64), all registered runs are stopped, so is every run that is started later, and every call fails.
-/

namespace DelayTimer
open Spec

variable {σ : Type}

/-! ## C77 -/

/-- **C77** As long as the event thread lives, a run is told to stop exactly if it was cancelled, timed out, or has
reported its end, after it was registered. -/
theorem C77_reason_partial {B : Bodies σ} {env : Env} {d : DSt σ} (hr : d.Reachable B env) (hc : d.closed = false) (rec : Int) :
    Told d.w rec ↔ ∃ id, RunEnded id rec d.w.base.log := by
  have hw := hr.alive hc
  constructor
  · rintro ⟨x, hx, ht⟩
    obtain ⟨id, h1⟩ := ((bodyOk hw).some rec x hx).stop.2 ht
    exact ⟨id, (C61_first_end hr.base id rec).1.1 h1⟩
  · rintro ⟨id, h1⟩
    have h2 := (C61_first_end hr.base id rec).1.2 h1
    have h3 : rec ∈ appendRecs (queuedTags d.w.base.log) :=
      List.mem_filterMap.2 ⟨_, dispatched_queued hr.base ((traceOk hr.base).stop id rec h2), rfl⟩
    have h4 : rec ∈ startedRecs d.w.base.log := by rw [(recOk hr.base).start]; exact List.mem_append_left _ h3
    obtain ⟨_, _, _, _, h5⟩ := mem_startedRecs.1 h4
    obtain ⟨x, hx, _⟩ := (paired hr).run _ _ _ _ _ h5
    exact ⟨x, hx, ((bodyOk hw).some rec x hx).stop.1 ⟨id, h2⟩⟩

/-- **C77** fails when the event thread dies: every run that was ever registered is told to stop, whether one of its end
events was processed or not. -/
theorem C77_registered {B : Bodies σ} {env : Env} {d : DSt σ} (hr : d.Reachable B env) (hc : d.closed = true) {id : Nat}
    {rec : Int} (ha : .append id rec ∈ dispatchedTags d.w.base.log) : Told d.w rec := by
  obtain ⟨ls, h⟩ := hr
  refine DSt.run_induct (P := fun d : DSt σ => d.closed = true → .append id rec ∈ dispatchedTags d.w.base.log → Told d.w rec)
    ?_ ls ⟨[], rfl⟩ (fun h => by cases h) h hc ha
  intro d l d' hr hp hs hc ha
  have hs0 := hs
  cases dstep hs with
  | opened h0 h he => subst he; rw [h0] at hc; cases hc
  | @shut l w' h0 hn h he =>
    subst he
    refine told_step hr hs0 (hp h0 ?_)
    rw [lose_base] at ha
    rcases base_step h with h2 | ⟨m, h2⟩
    · rw [h2] at ha; exact ha
    · rw [(stuck_step (hr.stuck h0) h2).2] at ha; exact ha
  | die h0 hf he =>
    subst he
    by_cases hst : .stopped id rec ∈ d.w.base.log
    · exact told_step hr hs0 ((C77_reason_partial hr h0 rec).2 ⟨id, (C61_first_end hr.base id rec).1.1 hst⟩)
    · have hg := (registered_iff hr.base).2 ⟨id, ha, hst⟩
      obtain ⟨b, h1, h2⟩ := ((traceOk hr.base).mem id rec).2 ⟨ha, hst⟩
      obtain ⟨_, rtn, n, h3⟩ := (traceOk hr.base).own _ _ h1
      rw [h2] at h3
      obtain ⟨x, hx, _⟩ := (paired hr).run _ _ _ _ _ h3
      exact ⟨x.quit env.runtime, by simp only [BSt.dropTrace, if_pos hg, hx]; rfl, quit_told _ _⟩
  | refuse h0 hl he => subst he; exact hp h0 ha

/-- **C77** And so is every run that is started after that, as soon as the scheduler gets past the point where it
registers it. -/
theorem C77_later {B : Bodies σ} {env : Env} {d0 d : DSt σ} (hr : d0.Reachable B env) (hc : d0.closed = true) {ls : List DLabel}
    (h : d0.run B env ls = some d) {rec : Int} (h0 : ¬ Begun rec d0.w.base.log) (h1 : Begun rec d.w.base.log) :
    Told d.w rec ∨ ∃ p t box, d.w.base.tpc = .append p t box ∧ box.recordId = rec := by
  refine (DSt.run_induct (P := fun d : DSt σ => d.closed = true ∧ (Begun rec d.w.base.log →
    Told d.w rec ∨ ∃ p t box, d.w.base.tpc = .append p t box ∧ box.recordId = rec)) ?_ ls hr ⟨hc, fun h => absurd h h0⟩ h).2 h1
  rintro d l d' hr ⟨hc, hp⟩ hs
  refine ⟨shut_step hs hc, fun hb => ?_⟩
  have hs0 := hs
  cases dstep hs with
  | opened h0 _ _ => rw [hc] at h0; cases h0
  | @shut l w' h0 hn h he =>
    subst he
    rw [lose_base] at hb ⊢
    by_cases hold : Begun rec d.w.base.log
    · rcases hp hold with hto | ⟨p, t, box, hpc, hbox⟩
      · exact Or.inl (told_step hr hs0 hto)
      · -- the scheduler was about to register it
        rcases step_tpc h with ⟨m, rfl, h2⟩ | h2
        · rcases tpc_cases (step_act h2) with ⟨h3, _⟩ | ⟨h3, _⟩ | rfl | ⟨rfl, _⟩
          · exact Or.inr ⟨p, t, box, by rw [h3]; exact hpc, hbox⟩
          · rw [hpc] at h3; cases h3
          · simp only [step, tSpawn, hpc] at h2; cases h2
          · obtain ⟨id, rtn, n, ts, h5⟩ := hold
            obtain ⟨x, hx, _⟩ := (paired hr).run _ _ _ _ _ h5
            obtain ⟨x', hx', _⟩ := job_step_of hr.base ((paired hr).some _ _ hx) h hx
            subst hbox
            exact Or.inl ⟨x'.quit env.runtime, by rw [lose_append env d.w w' hpc, hx']; rfl, quit_told _ _⟩
        · exact Or.inr ⟨p, t, box, by rw [h2]; exact hpc, hbox⟩
    · obtain ⟨id, rtn, n, ts, h5⟩ := hb
      obtain ⟨_, _, h6⟩ := step_born h h5 fun h7 => hold ⟨_, _, _, _, h7⟩
      exact Or.inr h6
  | die h0 hf he => rw [hc] at h0; cases h0
  | refuse h0 hl he => subst he; exact hp hb

/-- **C77** Runs whose registration had been sent but not processed then are not stopped, and nothing can stop them any
more: no time-out, no end of their own. -/
theorem C77_unstoppable {B : Bodies σ} {env : Env} {d d1 d2 : DSt σ} (hr : d.Reachable B env) {id : Nat} {rec : Int}
    (hq : .append id rec ∈ queuedTags d.w.base.log) (hn : .append id rec ∉ dispatchedTags d.w.base.log)
    (hd : d.step B env .die = some d1) {ls : List DLabel} (h : d1.run B env ls = some d2) : ¬ Told d2.w rec := by
  have hc : d.closed = false := by cases dstep hd with | die h0 _ _ => exact h0
  -- no registration of the run was processed
  have hno : ∀ k, .append k rec ∉ dispatchedTags d.w.base.log := by
    intro k hk
    obtain ⟨_, _, _, h1⟩ := queued_begun hr.base (mem_queuedTags.1 hq)
    obtain ⟨_, _, _, h2⟩ := queued_begun hr.base (mem_queuedTags.1 (dispatched_queued hr.base hk))
    obtain ⟨r, h3, h4, _⟩ := (runLog hr.base).started _ _ _ _ _ h1
    obtain ⟨r', h5, h6, _⟩ := (runLog hr.base).started _ _ _ _ _ h2
    rw [h3] at h5; cases h5
    rw [h4] at h6
    exact hn (h6 ▸ hk)
  have hnt : ¬ Told d.w rec := by
    intro ht
    obtain ⟨k, h1⟩ := (C77_reason_partial hr hc rec).1 ht
    exact hno k ((traceOk hr.base).stop k rec ((C61_first_end hr.base k rec).1.2 h1))
  have h0 : d1.closed = true ∧ (∀ k, .append k rec ∉ dispatchedTags d1.w.base.log) ∧
      .append id rec ∈ queuedTags d1.w.base.log ∧ ¬ Told d1.w rec := by
    cases dstep hd with
    | die h0 hf he =>
      subst he
      refine ⟨rfl, hno, hq, ?_⟩
      rintro ⟨x, hx, ht⟩
      have hg : ¬ registered d.w.base rec = true := fun hg => by
        obtain ⟨k, h1, _⟩ := (registered_iff hr.base).1 hg
        exact hno k h1
      simp only [BSt.dropTrace, if_neg hg] at hx
      exact hnt ⟨x, hx, ht⟩
  refine (DSt.run_induct (P := fun d : DSt σ => d.closed = true ∧ (∀ k, .append k rec ∉ dispatchedTags d.w.base.log) ∧
      .append id rec ∈ queuedTags d.w.base.log ∧ ¬ Told d.w rec) ?_ ls (hr.step hd) h0 h).2.2.2
  rintro d l d' hr ⟨hc, hno, hq, hnt⟩ hs
  have hq' : .append id rec ∈ queuedTags d'.w.base.log := mem_queuedTags.2 (DSt.log_grows hs (mem_queuedTags.1 hq))
  refine ⟨shut_step hs hc, ?_, hq', ?_⟩
  · rcases (dstep hs).base with h1 | ⟨m, h1⟩
    · rw [h1]; exact hno
    · rw [(stuck_step (hr.stuck hc) h1).2]; exact hno
  · have hr' := hr.step hs
    cases dstep hs with
    | opened h0 _ _ => rw [hc] at h0; cases h0
    | @shut l w' h0 hnc h he =>
      subst he
      rintro ht
      have hb := lose_base env d.w w' l
      have hrec : rec ∈ appendRecs (queuedTags d.w.base.log) := List.mem_filterMap.2 ⟨_, hq, rfl⟩
      have hst : rec ∈ startedRecs d.w.base.log := by rw [(recOk hr.base).start]; exact List.mem_append_left _ hrec
      obtain ⟨_, _, _, _, h5⟩ := mem_startedRecs.1 hst
      obtain ⟨x, hx, _⟩ := (paired hr).run _ _ _ _ _ h5
      have hw' : Told w' rec := by
        obtain ⟨y, hy, ht⟩ := ht
        rcases lose_exec env d.w w' l rec with h4 | ⟨_, _, p, t, box, h6, rfl⟩
        · exact ⟨y, h4.symm.trans hy, ht⟩
        · -- its registration has been sent already
          have hnd : (startedRecs d.w.base.log).Nodup := (recOk hr.base).sorted.imp fun h => h.1
          rw [(recOk hr.base).start, h6, List.nodup_append] at hnd
          exact absurd rfl (hnd.2.2 _ hrec box.recordId (by simp [pendRecs]))
      obtain ⟨k, h6⟩ := told_new hr.base ((paired hr).some _ _ hx) h hx hnt hw'
      have hr2 : Reachable env w'.base := by rw [← hb]; exact hr'.base
      have h7 := (traceOk hr2).stop k rec h6
      rcases base_step h with h8 | ⟨m, h8⟩
      · rw [h8] at h7; exact hno k h7
      · rw [(stuck_step (hr.stuck hc) h8).2] at h7; exact hno k h7
    | die h0 _ _ => rw [hc] at h0; cases h0
    | refuse h0 hl he => subst he; exact hnt

theorem tokio_quits {B : Bodies σ} {env : Env} {d : DSt σ} (hr : d.Reachable B env) (hrt : env.runtime = .tokio) :
    ∀ rec x, d.w.exec rec = some x → x.quitting = false := by
  obtain ⟨ls, h⟩ := hr
  refine DSt.run_induct (P := fun d : DSt σ => ∀ rec x, d.w.exec rec = some x → x.quitting = false) ?_ ls ⟨[], rfl⟩
    (fun _ _ h => by cases h) h
  intro d l d' hr hp hs rec x hx
  cases hq : d.w.exec rec with
  | some y =>
    have h0 := hp rec y hq
    obtain ⟨u, z, h1, h2, h3⟩ := job_dstep hr hs hq
    rw [hx] at h1; cases h1
    have hu : u.quitting = false := by
      rcases h3 with ⟨m, _, h3⟩ | ⟨rfl, _⟩
      · generalize effectsOf rec d'.w.effects = fe at h3
        cases h3
        case quit => rw [hrt]; exact h0
        case cancel hl hc => rfl
        all_goals exact h0
      · exact h0
    rcases h2 with rfl | rfl
    · exact hu
    · rw [hrt]; exact hu
  | none =>
    have hborn : ∀ {m : BLabel} {w' : BSt σ}, d.w.step B env m = some w' → ∀ y, w'.exec rec = some y → y.quitting = false := by
      intro m w' h y hy
      rcases job_born h hq with h1 | ⟨_, rtn, h1⟩
      · rw [h1] at hy; cases hy
      · rw [h1] at hy; cases hy; rfl
    cases dstep hs with
    | opened h0 h he => subst he; exact hborn h x hx
    | @shut l w' h0 hn h he =>
      subst he
      rcases lose_exec env d.w w' l rec with h4 | ⟨h4, _⟩
      · exact hborn h x (h4.symm.trans hx)
      · rw [hx] at h4
        cases hy : w'.exec rec with
        | none => rw [hy] at h4; cases h4
        | some y =>
          rw [hy, hrt] at h4
          cases h4
          exact hborn h y hy
    | die h0 hf he =>
      subst he
      simp only [BSt.dropTrace, hq, Option.map_none, ite_self] at hx
      cases hx
    | refuse h0 hl he => subst he; rw [hq] at hx; cases hx

/-- **C77** On tokio, an asynchronous run that was told to stop when the event thread ended goes on at most to the next
place where it waits. -/
theorem C77_tokio {B : Bodies σ} {env : Env} {d d' : DSt σ} (hr : d.Reachable B env) (hrt : env.runtime = .tokio)
    {k rtn n ts : Nat} {rec : Int} (hs : .started k rtn rec n ts ∈ d.w.base.log) (ha : env.kind rtn = .asyncFn)
    (ht : Told d.w rec) {ls : List DLabel} (h : d.run B env ls = some d') :
    .inner (.poll rec) ∉ ls ∧ ∃ es, effectsOf rec d'.w.effects = effectsOf rec d.w.effects ++ es ∧
      (es = [] ∨ ∃ y, Executing d.w rec y ∧ Stretch B y es) := by
  have hgo : ∀ (ls : List DLabel) {d : DSt σ} {x : Job σ}, d.Reachable B env → d.run B env ls = some d' → d.w.exec rec = some x →
      env.kind x.routine = .asyncFn → x.cancelled = true → .inner (.poll rec) ∉ ls ∧
      ∃ es, effectsOf rec d'.w.effects = effectsOf rec d.w.effects ++ es ∧
      (es = [] ∨ ∃ y, Executing d.w rec y ∧ Stretch B y es) := by
    intro ls
    induction ls with
    | nil => intro d x _ h _ _ _; cases h; exact ⟨by simp, [], by simp, Or.inl rfl⟩
    | cons l ls ih =>
      intro d x hr h hx hk hc
      simp only [DSt.run] at h
      split at h
      case h_2 => cases h
      rename_i v hv
      obtain ⟨y, z, h1, h2, h3⟩ := job_dstep hr hv hx
      generalize hfe : effectsOf rec v.w.effects = fe at h3
      have hyz : z.routine = y.routine ∧ z.place = y.place ∧ (y.cancelled = true → z.cancelled = true) := by
        rcases h2 with rfl | rfl
        · exact ⟨rfl, rfl, id⟩
        · cases env.runtime <;> simp [Job.quit]
      have hxy : y.routine = x.routine ∧ y.cancelled = true := by
        rcases h3 with ⟨m, _, h3⟩ | ⟨rfl, _⟩
        · exact ⟨h3.keeps.1, h3.keeps.2.2 hc⟩
        · exact ⟨rfl, hc⟩
      obtain ⟨g1, es, g2, g3⟩ := ih (hr.step hv) h h1 (by rw [hyz.1, hxy.1]; exact hk) (hyz.2.2 hxy.2)
      rw [hfe] at g2
      have hex : ∀ u, Executing v.w rec u → y.place = .active u := by
        rintro u ⟨j, hj1, hj2⟩; rw [h1] at hj1; cases hj1; rw [← hyz.2.1]; exact hj2
      rcases h3 with ⟨m, rfl, hj⟩ | ⟨rfl, h4, hl⟩
      · have hpl : .poll rec ≠ m := by
          rintro rfl
          cases hj with
          | poll _ _ h => rw [hc] at h; exact absurd (h hk) (by simp)
          | same =>
            have hst : d.w.step B env (.poll rec) = none := by
              simp only [BSt.step, BSt.on, hx, Job.poll, hk, hc]
              split <;> simp_all
            simp only [DSt.step, hst, needsChannel, Bool.false_eq_true, Option.map_none, ite_self] at hv
            cases hv
          | quit h => cases h
          | queued h | resumed h | effect h | await h | over h | cancel h | drop h | gone h => cases h
        refine ⟨fun hm => (List.mem_cons.1 hm).elim (fun he => hpl (by cases he; rfl)) g1, ?_⟩
        cases hj with
        | effect hl hp hm =>
          refine ⟨_ :: es, by rw [g2]; simp, Or.inr ⟨_, ⟨x, hx, hp⟩, .effect hm ?_⟩⟩
          rcases g3 with rfl | ⟨u, g3, g4⟩
          · exact .nil _
          · have := hex u g3; cases this; exact g4
        | same | quit =>
          refine ⟨es, g2, g3.imp id fun ⟨u, g3, g4⟩ => ⟨u, ⟨x, hx, ?_⟩, g4⟩⟩
          first
            | exact hex u g3
            | (have := hex u g3; revert this; cases env.runtime <;> exact id)
        | cancel | drop =>
          exact ⟨es, g2, g3.imp id fun ⟨u, g3, g4⟩ => ⟨u, ⟨x, hx, hex u g3⟩, g4⟩⟩
        | poll hl => exact absurd hl.symm hpl
        | resumed _ _ hs => rw [hk] at hs; cases hs
        | queued | await | over | gone =>
          refine ⟨es, g2, Or.inl ?_⟩
          rcases g3 with g3 | ⟨u, g3, _⟩
          · exact g3
          · have := hex u g3; cases this
      · refine ⟨fun hm => (List.mem_cons.1 hm).elim (fun he => hl _ he.symm) g1, es, ?_, ?_⟩
        · rw [g2, ← hfe, h4]
        · exact g3.imp id fun ⟨u, g3, g4⟩ => ⟨u, ⟨_, hx, hex u g3⟩, g4⟩
  obtain ⟨x, h1, rfl⟩ := (paired hr).run _ _ _ _ _ hs
  refine hgo ls hr h h1 ha ?_
  obtain ⟨x', h2, ht⟩ := ht
  rw [h1] at h2; cases h2
  rcases ht with ht | ht
  · rw [tokio_quits hr hrt rec x h1] at ht; cases ht
  · exact ht

/-! ## C78 -/

/-- The tasks handed in with calls that succeeded. -/
def taken (ls : List DLabel) : List Task := ls.flatMap fun l => match l with
  | .inner (.base l) => addedBy l
  | _ => []

theorem base_course {B : Bodies σ} {env : Env} : ∀ (ls : List DLabel) {d d' : DSt σ}, d.run B env ls = some d' →
    ∃ ms, run env d.w.base ms = some d'.w.base ∧ ∀ t ∈ added ms, t ∈ taken ls := by
  intro ls
  induction ls with
  | nil => intro d d' h; cases h; exact ⟨[], rfl, by simp [added]⟩
  | cons l ls ih =>
    intro d d' h
    simp only [DSt.run] at h
    split at h
    case h_2 => cases h
    rename_i v hv
    obtain ⟨ms, h1, h2⟩ := ih h
    have hsub : ∀ t ∈ taken ls, t ∈ taken (l :: ls) := fun t ht => by
      simp only [taken, List.flatMap_cons, List.mem_append]; exact Or.inr ht
    have hkey : v.w.base = d.w.base ∨ ∃ m, step env d.w.base m = some v.w.base ∧ ∀ t ∈ addedBy m, t ∈ taken (l :: ls) := by
      have hstep : ∀ {k : BLabel} {w' : BSt σ}, l = .inner k → d.w.step B env k = some w' → w'.base = d.w.base ∨
          ∃ m, step env d.w.base m = some w'.base ∧ ∀ t ∈ addedBy m, t ∈ taken (l :: ls) := by
        intro k w' hl hk
        subst hl
        cases k with
        | base m =>
          simp only [BSt.step, BSt.baseStep] at hk
          split at hk
          case isFalse => cases hk
          rw [Option.map_eq_some_iff] at hk
          obtain ⟨s, hst, rfl⟩ := hk
          refine Or.inr ⟨m, hst, fun t ht => ?_⟩
          simp only [taken, List.flatMap_cons, List.mem_append]; exact Or.inl ht
        | move r =>
          simp only [BSt.step, BSt.moveStep] at hk
          split at hk
          case h_2 => cases hk
          split at hk
          case h_2 => cases hk
          split at hk
          · cases hk; exact Or.inl rfl
          · cases hk; exact Or.inl rfl
          · rw [Option.map_eq_some_iff] at hk; obtain ⟨s, h1, rfl⟩ := hk
            exact Or.inr ⟨.rBody r, h1, by simp [addedBy]⟩
          · rw [Option.map_eq_some_iff] at hk; obtain ⟨s, h1, rfl⟩ := hk
            exact Or.inr ⟨.rPanic r, h1, by simp [addedBy]⟩
        | poll r => obtain ⟨_, _, _, _, rfl⟩ := on_some (f := Job.poll) hk; exact Or.inl rfl
        | wake r v => obtain ⟨_, _, _, _, rfl⟩ := on_some (f := fun k => Job.wake k v) hk; exact Or.inl rfl
        | cancel r => obtain ⟨_, _, _, _, rfl⟩ := on_some (env := env) (f := fun _ => Job.cancel) hk; exact Or.inl rfl
        | reap r => obtain ⟨_, _, _, _, rfl⟩ := on_some (f := Job.reap env.runtime) hk; exact Or.inl rfl
      cases dstep hv with
      | opened h0 hk he => subst he; exact hstep rfl hk
      | shut h0 hn hk he => subst he; rw [lose_base]; exact hstep rfl hk
      | die h0 hf he => subst he; exact Or.inl rfl
      | refuse h0 hl he => subst he; exact Or.inl rfl
    rcases hkey with h3 | ⟨m, h3, h4⟩
    · exact ⟨ms, by rw [← h3]; exact h1, fun t ht => hsub t (h2 t ht)⟩
    · refine ⟨m :: ms, by simp only [run, h3]; exact h1, fun t ht => ?_⟩
      simp only [added, List.flatMap_cons, List.mem_append] at ht
      rcases ht with ht | ht
      · exact h4 t ht
      · exact hsub t (h2 t ht)

/-- **C78** If a call fails, then, in a build with overflow checks, a task was accepted before whose first alarm, or the
second after it, does not fit 64 bits; and nothing is processed any more. -/
theorem C78_cause {B : Bodies σ} {env : Env} {ls : List DLabel} {d : DSt σ} (h : (DSt.init σ env).run B env ls = some d)
    {l : Label} {d' : DSt σ} (hl : d.step B env (.refuse l) = some d') :
    (env.overflowChecks = true ∧ ∃ t ∈ taken ls, ¬ AlarmsFit 1 t) ∧ Deaf env d.w.base := by
  have hr : d.Reachable B env := ⟨ls, h⟩
  have hc : d.closed = true := by cases dstep hl with | refuse h0 _ _ => exact h0
  have hd := deaf_of_stuck (hr.stuck hc)
  obtain ⟨ms, h1, h2⟩ := base_course ls h
  obtain ⟨h3, t, h4, h5⟩ := C64_cause h1 hd
  exact ⟨⟨h3, t, h2 t h4, h5⟩, hd⟩

/-- **C78** From then on every call fails, and changes nothing. -/
theorem C78_final {B : Bodies σ} {env : Env} {d d' d2 : DSt σ} {l m : Label} (hl : d.step B env (.refuse l) = some d')
    (hr : d.Reachable B env) {ls : List DLabel} (h : d'.run B env ls = some d2) (hm : Call m) :
    d2.step B env (.inner (.base m)) = none ∧ ∃ d3, d2.step B env (.refuse m) = some d3 ∧ d3.w = d2.w := by
  have hc : d'.closed = true := by cases dstep hl with | refuse h0 _ he => subst he; exact h0
  have hc2 : d2.closed = true :=
    DSt.run_induct (P := fun d : DSt σ => d.closed = true) (fun _ _ _ _ hc h => shut_step h hc) ls (hr.step hl) hc h
  have hm : isCall m = true := by cases hm <;> rfl
  refine ⟨?_, { d2 with errors := m :: d2.errors }, ?_, rfl⟩
  · simp only [DSt.step, hc2, needsChannel, hm, if_true]
  · simp only [DSt.step, hc2, hm, and_self, if_true]

/-! ## Examples -/

namespace Ex

def playD (env : Env) (ls : List DLabel) : DSt (Nat × Nat) := ((DSt.init _ env).run counter env ls).getD (DSt.init _ env)

theorem playD_run {env : Env} {ls : List DLabel} (h : ((DSt.init _ env).run counter env ls).isSome = true) :
    (DSt.init _ env).run counter env ls = some (playD env ls) := by
  obtain ⟨w, hw⟩ := Option.isSome_iff_exists.1 h
  rw [playD, hw]; rfl

/-- Run 0 of task 1 is started and registered; it has said its first number and waits. -/
def waits : List DLabel := (begun ++ said).map .inner

/-- A task whose first alarm is the last second of the 64 bits is added, and the event thread dies on it. -/
def dies : List DLabel := [.inner (.base (.uSend (.add (every 2 U64_MAX 5)))), .inner (.base .eRecv), .die]

/-- Task 1 was run, as run 0, which waits when the event thread dies. -/
def bereft : DSt (Nat × Nat) := playD envStrict (waits ++ dies)

theorem bereft_run : (DSt.init _ envStrict).run counter envStrict (waits ++ dies) = some bereft :=
  playD_run (by decide +kernel)

/-- Steps of the system. -/
def sys (ls : List Label) : List DLabel := ls.map fun l => .inner (.base l)

/-- The task that ends the event thread is being added. -/
def brink : List Label := add (every 1 101 5000) ++ [.uSend (.add (every 2 U64_MAX 5)), .eRecv]

/-- The event thread dies before run 0 is started. -/
def early : DSt (Nat × Nat) := playD envStrict (sys brink ++ [.die])

/-- Run 0 is started after that. -/
def orphan : DSt (Nat × Nat) := playD envStrict (sys brink ++ [.die] ++ sys (idle ++ idle ++ fire 1 0))

/-- Run 0 is started and its registration sent when the event thread is about to end. -/
def unheard : DSt (Nat × Nat) := playD envStrict (sys (brink ++ idle ++ idle ++ fire 1 0))

end Ex

/-- **C77** fails: a run is told to stop though it was neither cancelled nor timed out nor has it reported its end. -/
theorem C77_reason_false : Ex.bereft.Reachable Ex.counter Ex.envStrict ∧ Told Ex.bereft.w 0 ∧
    ∀ id, ¬ RunEnded id 0 Ex.bereft.w.base.log := by
  have hr : Ex.bereft.Reachable Ex.counter Ex.envStrict := ⟨_, Ex.bereft_run⟩
  refine ⟨hr, C77_registered hr (by decide +kernel) (id := 1) (by decide +kernel), fun id h => ?_⟩
  have h1 := (C61_first_end hr.base id 0).1.2 h
  have h2 : Ex.bereft.w.base.log.all (fun o => match o with | .stopped _ _ => false | _ => true) = true := by decide +kernel
  have h3 := List.all_eq_true.1 h2 _ h1
  cases h3

namespace Ex

/-- C77, `C77_later`: the event thread has ended with no run started; then run 0 is. -/
example : early.Reachable counter envStrict ∧ early.closed = true ∧
    early.run counter envStrict (sys (idle ++ idle ++ fire 1 0)) = some orphan ∧
    ¬ Begun 0 early.w.base.log ∧ Begun 0 orphan.w.base.log ∧ ∀ p t box, orphan.w.base.tpc ≠ .append p t box := by
  have h1 : (DSt.init _ envStrict).run counter envStrict (sys brink ++ [.die]) = some early := playD_run (by decide +kernel)
  have h2 : (DSt.init _ envStrict).run counter envStrict (sys brink ++ [.die] ++ sys (idle ++ idle ++ fire 1 0)) = some orphan :=
    playD_run (by decide +kernel)
  refine ⟨⟨_, h1⟩, by decide +kernel, ?_, ?_, ?_, ?_⟩
  · rw [DSt.run_append, h1] at h2; exact h2
  · rintro ⟨a, b, c, e, h⟩
    have h3 := mem_startedRecs.2 ⟨a, b, c, e, h⟩
    revert h3; decide +kernel
  · exact mem_startedRecs.1 (by decide +kernel)
  · intro p t box h
    have h3 : pendRecs orphan.w.base.tpc = [] := by decide +kernel
    rw [h] at h3; cases h3

/-- C77, `C77_unstoppable`: run 0 is on its way to the event thread when that dies. -/
example : unheard.Reachable counter envStrict ∧ .append 1 0 ∈ queuedTags unheard.w.base.log ∧
    .append 1 0 ∉ dispatchedTags unheard.w.base.log ∧ ∃ d, unheard.step counter envStrict .die = some d :=
  ⟨⟨_, playD_run (by decide +kernel)⟩, by decide +kernel, by decide +kernel, Option.isSome_iff_exists.1 (by decide +kernel)⟩

/-- C77, `C77_tokio`: run 0 of an asynchronous function that waits. -/
example : envStrict.runtime = .tokio ∧ envStrict.kind 1 = .asyncFn ∧ 0 ∈ startedRecs bereft.w.base.log ∧ Told bereft.w 0 ∧
    effectsOf 0 bereft.w.effects = [0] :=
  ⟨rfl, rfl, by decide +kernel, C77_reason_false.2.1, by decide +kernel⟩

/-- C77, `C77_reason_partial`: run 0 is told to stop when it is cancelled. -/
example : (playD env0 ((begun ++ halt).map .inner)).Reachable counter env0 ∧
    (playD env0 ((begun ++ halt).map .inner)).closed = false ∧ Told (playD env0 ((begun ++ halt).map .inner)).w 0 := by
  have h := playD_run (env := env0) (ls := (begun ++ halt).map .inner) (by decide +kernel)
  have hr : (playD env0 ((begun ++ halt).map .inner)).Reachable counter env0 := ⟨_, h⟩
  have hc : (playD env0 ((begun ++ halt).map .inner)).closed = false := by decide +kernel
  exact ⟨hr, hc, (C77_reason_partial hr hc 0).2 ⟨1, (C61_first_end hr.base 1 0).1.1 (by decide +kernel)⟩⟩

/-- C78: after the end of the event thread task 1 cannot be removed any more, while the wheel goes on. -/
example : (DSt.init _ envStrict).run counter envStrict (waits ++ dies) = some bereft ∧
    ∃ d d2, bereft.step counter envStrict (.refuse (.uSend (.remove 1))) = some d ∧
      d.run counter envStrict (sys idle) = some d2 := by
  refine ⟨bereft_run, ?_⟩
  obtain ⟨d2, h⟩ := Option.isSome_iff_exists.1 (show ((bereft.step counter envStrict (.refuse (.uSend (.remove 1)))).bind
    fun d => d.run counter envStrict (sys idle)).isSome = true by decide +kernel)
  obtain ⟨d, h1, h2⟩ := Option.bind_eq_some_iff.1 h
  exact ⟨d, d2, h1, h2⟩

end Ex

end DelayTimer
