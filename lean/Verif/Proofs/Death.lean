import Verif.Spec.Death
import Verif.Proofs.Body
import Verif.Props.Deaf
import Verif.Props.Body

/-! Runs and their bodies around the end of the event thread. -/

namespace DelayTimer
open Spec

variable {σ : Type}

/-! ## Executions -/

theorem DSt.run_append {B : Bodies σ} {env : Env} (a b : List DLabel) : ∀ (d : DSt σ),
    d.run B env (a ++ b) = (d.run B env a).bind fun d' => d'.run B env b := by
  induction a with
  | nil => intro d; rfl
  | cons l a ih =>
    intro d
    simp only [List.cons_append, DSt.run]
    cases d.step B env l with
    | none => rfl
    | some d' => exact ih d'

theorem DSt.Reachable.step {B : Bodies σ} {env : Env} {d d' : DSt σ} {l : DLabel} (hr : d.Reachable B env)
    (h : d.step B env l = some d') : d'.Reachable B env := by
  obtain ⟨ls, hl⟩ := hr
  exact ⟨ls ++ [l], by rw [DSt.run_append, hl]; simp only [Option.bind_some, DSt.run, h]⟩

theorem DSt.run_induct {B : Bodies σ} {env : Env} {P : DSt σ → Prop}
    (h1 : ∀ d l d', d.Reachable B env → P d → d.step B env l = some d' → P d') :
    ∀ (ls : List DLabel) {d d' : DSt σ}, d.Reachable B env → P d → d.run B env ls = some d' → P d' := by
  intro ls
  induction ls with
  | nil => intro d d' _ hp h; cases h; exact hp
  | cons l ls ih =>
    intro d d' hr hp h
    simp only [DSt.run] at h
    split at h
    · rename_i v hv; exact ih (hr.step hv) (h1 _ _ _ hr hp hv) h
    · cases h

theorem DSt.Reachable.run {B : Bodies σ} {env : Env} {d d' : DSt σ} (hr : d.Reachable B env) {ls : List DLabel}
    (h : d.run B env ls = some d') : d'.Reachable B env :=
  DSt.run_induct (P := fun d => d.Reachable B env) (fun _ _ _ hr _ h => hr.step h) ls hr hr h

/-! ## Steps -/

theorem lose_base (env : Env) (w w' : BSt σ) (l : BLabel) : (w.lose env w' l).base = w'.base := by
  unfold BSt.lose
  split
  · split <;> rfl
  · rfl

theorem lose_effects (env : Env) (w w' : BSt σ) (l : BLabel) : (w.lose env w' l).effects = w'.effects := by
  unfold BSt.lose
  split
  · split <;> rfl
  · rfl

/-- What the closed channel does to one run: nothing, or its handle is dropped, because it is the one just started. -/
theorem lose_exec (env : Env) (w w' : BSt σ) (l : BLabel) (rec : Int) :
    (w.lose env w' l).exec rec = w'.exec rec ∨
      ((w.lose env w' l).exec rec = (w'.exec rec).map (·.quit env.runtime) ∧ l = .base .tAppend ∧
        ∃ p t box, w.base.tpc = .append p t box ∧ box.recordId = rec) := by
  unfold BSt.lose
  split
  · split
    · rename_i p t box hp
      simp only [BSt.dropHandle, setI_apply]
      split
      · rename_i he; subst he; exact Or.inr ⟨rfl, trivial, p, t, box, hp, rfl⟩
      · exact Or.inl rfl
    · exact Or.inl rfl
  · exact Or.inl rfl

theorem lose_append (env : Env) (w w' : BSt σ) {p : List Nat} {t : Task} {box : HandlerBox} (hp : w.base.tpc = .append p t box) :
    (w.lose env w' (.base .tAppend)).exec box.recordId = (w'.exec box.recordId).map (·.quit env.runtime) := by
  simp only [BSt.lose, hp, BSt.dropHandle, setI_same]

/-- A step of the whole: one of the system with its bodies, the end of the event thread, or a refused call. -/
inductive DStep (B : Bodies σ) (env : Env) (d : DSt σ) (d' : DSt σ) : DLabel → Prop
  | opened {l : BLabel} {w' : BSt σ} (hc : d.closed = false) (h : d.w.step B env l = some w') (he : d' = { d with w := w' }) :
      DStep B env d d' (.inner l)
  | shut {l : BLabel} {w' : BSt σ} (hc : d.closed = true) (hn : needsChannel l = false) (h : d.w.step B env l = some w')
      (he : d' = { d with w := d.w.lose env w' l }) : DStep B env d d' (.inner l)
  | die (hc : d.closed = false) (hf : fatal env d.w.base = true) (he : d' = { d with w := d.w.dropTrace env, closed := true }) :
      DStep B env d d' .die
  | refuse {l : Label} (hc : d.closed = true) (hl : isCall l = true) (he : d' = { d with errors := l :: d.errors }) :
      DStep B env d d' (.refuse l)

theorem dstep {B : Bodies σ} {env : Env} {d d' : DSt σ} {l : DLabel} (h : d.step B env l = some d') : DStep B env d d' l := by
  cases l with
  | inner l =>
    simp only [DSt.step] at h
    split at h
    · rename_i hc
      split at h
      · cases h
      · rename_i hn
        rw [Option.map_eq_some_iff] at h
        obtain ⟨w', h1, rfl⟩ := h
        exact .shut hc (by simpa using hn) h1 rfl
    · rename_i hc
      rw [Option.map_eq_some_iff] at h
      obtain ⟨w', h1, rfl⟩ := h
      exact .opened (by simpa using hc) h1 rfl
  | die =>
    simp only [DSt.step] at h
    split at h
    · rename_i hc; cases h; exact .die hc.1 hc.2 rfl
    · cases h
  | refuse l =>
    simp only [DSt.step] at h
    split at h
    · rename_i hc; cases h; exact .refuse hc.1 hc.2 rfl
    · cases h

/-- The system underneath takes a step, or none. -/
theorem DStep.base {B : Bodies σ} {env : Env} {d d' : DSt σ} {l : DLabel} (h : DStep B env d d' l) :
    d'.w.base = d.w.base ∨ ∃ m, DelayTimer.step env d.w.base m = some d'.w.base := by
  cases h with
  | opened hc h he => subst he; exact base_step h
  | shut hc hn h he => subst he; rw [lose_base]; exact base_step h
  | die hc hf he => subst he; exact Or.inl rfl
  | refuse hc hl he => subst he; exact Or.inl rfl

theorem DSt.Reachable.base {B : Bodies σ} {env : Env} {d : DSt σ} (hr : d.Reachable B env) :
    DelayTimer.Reachable env d.w.base := by
  obtain ⟨ls, h⟩ := hr
  refine DSt.run_induct (P := fun d : DSt σ => DelayTimer.Reachable env d.w.base) ?_ ls ⟨[], rfl⟩ ⟨[], rfl⟩ h
  intro d l d' _ hp hs
  rcases (dstep hs).base with h1 | ⟨m, h1⟩
  · rw [h1]; exact hp
  · exact hp.step h1

theorem DSt.log_grows {B : Bodies σ} {env : Env} {d d' : DSt σ} {l : DLabel} (h : d.step B env l = some d') {o : Obs}
    (ho : o ∈ d.w.base.log) : o ∈ d'.w.base.log := by
  rcases (dstep h).base with h1 | ⟨m, h1⟩
  · rw [h1]; exact ho
  · exact log_mono (step_act h1) ho

theorem DSt.log_run {B : Bodies σ} {env : Env} {d d' : DSt σ} (hr : d.Reachable B env) {ls : List DLabel}
    (h : d.run B env ls = some d') {o : Obs} (ho : o ∈ d.w.base.log) : o ∈ d'.w.base.log :=
  DSt.run_induct (P := fun d : DSt σ => o ∈ d.w.base.log) (fun _ _ _ _ hp h => DSt.log_grows h hp) ls hr ho h

/-- As long as the event thread lives, all is as without its end. -/
theorem DSt.Reachable.alive {B : Bodies σ} {env : Env} {d : DSt σ} (hr : d.Reachable B env) (hc : d.closed = false) :
    d.w.Reachable B env := by
  obtain ⟨ls, h⟩ := hr
  refine DSt.run_induct (P := fun d : DSt σ => d.closed = false → d.w.Reachable B env) ?_ ls ⟨[], rfl⟩ (fun _ => ⟨[], rfl⟩) h hc
  intro d l d' _ hp hs hc
  cases dstep hs with
  | opened h0 h he => subst he; exact (hp h0).step h
  | shut h0 hn h he => subst he; rw [h0] at hc; cases hc
  | die h0 hf he => subst he; cases hc
  | refuse h0 hl he => subst he; rw [h0] at hc; cases hc

theorem stuck_of_fatal {env : Env} {s : St} (h : fatal env s = true) : EStuck env s := by
  unfold fatal at h
  split at h
  · rename_i t c hand he
    rw [Bool.and_eq_true] at h
    refine ⟨h.1, t, c, hand, he, fun hf => ?_⟩
    rw [alarmOverflows_iff.2 hf] at h; cases h.2
  · cases h

/-- Once the channel is closed, nothing is dispatched any more. -/
theorem DSt.Reachable.stuck {B : Bodies σ} {env : Env} {d : DSt σ} (hr : d.Reachable B env) (hc : d.closed = true) :
    EStuck env d.w.base := by
  obtain ⟨ls, h⟩ := hr
  refine DSt.run_induct (P := fun d : DSt σ => d.closed = true → EStuck env d.w.base) ?_ ls ⟨[], rfl⟩ (fun h => by cases h) h hc
  intro d l d' _ hp hs hc
  cases dstep hs with
  | opened h0 h he => subst he; rw [h0] at hc; cases hc
  | shut h0 hn h he =>
    subst he
    have h1 := hp h0
    rw [lose_base]
    rcases base_step h with h2 | ⟨m, h2⟩
    · rw [h2]; exact h1
    · exact (stuck_forever [m] h1 (by simp only [DelayTimer.run, h2])).1
  | die h0 hf he => subst he; exact stuck_of_fatal hf
  | refuse h0 hl he => subst he; exact hp h0

/-! ## One run -/

theorem JobStep.keeps {B : Bodies σ} {env : Env} {rec : Int} {l : BLabel} {x x' : Job σ} {es es' : List Nat}
    (h : JobStep B env rec l x es x' es') : x'.routine = x.routine ∧
      (x.quitting = true ∨ x.cancelled = true → x'.quitting = true ∨ x'.cancelled = true) ∧
      (x.cancelled = true → x'.cancelled = true) := by
  cases h
  case quit => cases env.runtime <;> simp [Job.quit] <;> exact fun h => h
  case cancel => simp
  all_goals exact ⟨rfl, id, id⟩

theorem quit_told (rt : RuntimeKind) (x : Job σ) : (x.quit rt).quitting = true ∨ (x.quit rt).cancelled = true := by
  cases rt <;> simp [Job.quit]

/-- A run is started: it gets its body then. -/
theorem step_born {B : Bodies σ} {env : Env} {w w' : BSt σ} {l : BLabel} (h : w.step B env l = some w')
    {id rtn n ts : Nat} {rec : Int} (hs : .started id rtn rec n ts ∈ w'.base.log) (hn : .started id rtn rec n ts ∉ w.base.log) :
    l = .base (.tSpawn false) ∧ w'.exec rec = some { routine := rtn, place := .ready (B.start rtn) } ∧
      ∃ p t box, w'.base.tpc = .append p t box ∧ box.recordId = rec := by
  have hon : ∀ {r : Int} {f : RoutineKind → Job σ → Option (Job σ)}, w.on env r f = some w' → False := by
    intro r f h
    obtain ⟨y, z, h1, h2, rfl⟩ := on_some h
    exact hn hs
  cases l with
  | base m =>
    simp only [BSt.step, BSt.baseStep] at h
    split at h
    case isFalse => cases h
    rename_i hal
    rw [Option.map_eq_some_iff] at h
    obtain ⟨s, hst, rfl⟩ := h
    by_cases hsp : m = .tSpawn false
    · subst hsp
      simp only [step, tSpawn] at hst
      split at hst
      · rename_i p t rec' hp
        simp only [Bool.false_eq_true, if_false, Option.some.injEq] at hst
        subst hst
        have hh : ∀ s', s'.log = [.started t.taskId t.routine rec' w.base.ticks (env.clock w.base.ticks)] ++ w.base.log →
            happened w.base s' = [.started t.taskId t.routine rec' w.base.ticks (env.clock w.base.ticks)] :=
          fun s' h => happened_eq h
        rw [hh _ rfl]
        rcases List.mem_cons.1 hs with hs | hs
        · cases hs
          exact ⟨rfl, setI_same _ _ _, p, t, _, rfl, rfl⟩
        · exact absurd hs hn
      · cases hst
    · obtain ⟨⟨news, hnew, hnb⟩, _⟩ := base_quiet (step_act hst) (fun rec he => by subst he; simp [BSt.allows] at hal)
        (fun rec he => by subst he; simp [BSt.allows] at hal) hsp
      have hs : Obs.started id rtn rec n ts ∈ s.log := hs
      rw [hnew, List.mem_append] at hs
      rcases hs with hs | hs
      · exact (hnb _ hs).elim
      · exact absurd hs hn
  | move r =>
    exfalso
    simp only [BSt.step, BSt.moveStep] at h
    split at h
    case h_2 => cases h
    split at h
    case h_2 => cases h
    split at h
    · cases h; exact hn hs
    · cases h; exact hn hs
    · rw [Option.map_eq_some_iff] at h; obtain ⟨s, h1, rfl⟩ := h
      simp only [rBody] at h1
      split at h1
      · split at h1
        · cases h1
        · cases h1; simp at hs; exact hn hs
      · cases h1
    · rw [Option.map_eq_some_iff] at h; obtain ⟨s, h1, rfl⟩ := h
      simp only [rPanic] at h1
      split at h1
      · split at h1
        · cases h1
        · split at h1 <;> (cases h1; simp at hs; exact hn hs)
      · cases h1
  | poll r => exact (hon h).elim
  | wake r v => exact (hon (f := fun k => Job.wake k v) h).elim
  | cancel r => exact (hon (f := fun _ => Job.cancel) h).elim
  | reap r => exact (hon (f := Job.reap env.runtime) h).elim

/-- Steps of the runtime with bodies leave the scheduler where it is. -/
theorem step_tpc {B : Bodies σ} {env : Env} {w w' : BSt σ} {l : BLabel} (h : w.step B env l = some w') :
    (∃ m, l = .base m ∧ DelayTimer.step env w.base m = some w'.base) ∨ w'.base.tpc = w.base.tpc := by
  have hon : ∀ {r : Int} {f : RoutineKind → Job σ → Option (Job σ)}, w.on env r f = some w' → w'.base.tpc = w.base.tpc := by
    intro r f h
    obtain ⟨y, z, h1, h2, rfl⟩ := on_some h
    rfl
  cases l with
  | base m =>
    simp only [BSt.step, BSt.baseStep] at h
    split at h
    case isFalse => cases h
    rw [Option.map_eq_some_iff] at h
    obtain ⟨s, hst, rfl⟩ := h
    exact Or.inl ⟨m, rfl, hst⟩
  | move r =>
    right
    simp only [BSt.step, BSt.moveStep] at h
    split at h
    case h_2 => cases h
    split at h
    case h_2 => cases h
    split at h
    · cases h; rfl
    · cases h; rfl
    · rw [Option.map_eq_some_iff] at h; obtain ⟨s, h1, rfl⟩ := h
      simp only [rBody] at h1
      split at h1
      · split at h1
        · cases h1
        · cases h1; rfl
      · cases h1
    · rw [Option.map_eq_some_iff] at h; obtain ⟨s, h1, rfl⟩ := h
      simp only [rPanic] at h1
      split at h1
      · split at h1
        · cases h1
        · split at h1 <;> (cases h1; rfl)
      · cases h1
  | poll r => exact Or.inr (hon h)
  | wake r v => exact Or.inr (hon (f := fun k => Job.wake k v) h)
  | cancel r => exact Or.inr (hon (f := fun _ => Job.cancel) h)
  | reap r => exact Or.inr (hon (f := Job.reap env.runtime) h)

/-- Runs and bodies belong together. -/
structure Paired (d : DSt σ) : Prop where
  some : ∀ rec x, d.w.exec rec = some x → d.w.base.rt rec ≠ none
  run : ∀ id rtn rec n ts, .started id rtn rec n ts ∈ d.w.base.log → ∃ x, d.w.exec rec = .some x ∧ x.routine = rtn

theorem rt_stays {env : Env} {s s' : St} {l : Label} (hr : Reachable env s) (h : step env s l = some s') {rec : Int}
    (hx : s.rt rec ≠ none) : s'.rt rec ≠ none := by
  cases hq : s.rt rec with
  | none => exact absurd hq hx
  | some r =>
    obtain ⟨⟨n, ts, h1⟩, _⟩ := (rtOk hr).rt rec r hq
    obtain ⟨r', h2, _⟩ := (runLog (hr.step h)).started _ _ _ _ _ (log_mono (step_act h) h1)
    rw [h2]; simp

/-- What a step of the system with its bodies, open or shut, does to the pairing. -/
theorem paired_of {B : Bodies σ} {env : Env} {d : DSt σ} (hr : d.Reachable B env) (hp : Paired d) {l : BLabel} {w' : BSt σ}
    (h : d.w.step B env l = some w') (hb' : Reachable env w'.base) {ex : Int → Option (Job σ)}
    (hex : ∀ rec, ex rec = w'.exec rec ∨ ex rec = (w'.exec rec).map (·.quit env.runtime)) :
    (∀ rec x, ex rec = some x → w'.base.rt rec ≠ none) ∧
    ∀ id rtn rec n ts, .started id rtn rec n ts ∈ w'.base.log → ∃ x, ex rec = .some x ∧ x.routine = rtn := by
  have hall : ∀ id rtn rec n ts, .started id rtn rec n ts ∈ w'.base.log → ∃ x, w'.exec rec = .some x ∧ x.routine = rtn := by
    intro id rtn rec n ts hs
    by_cases ho : .started id rtn rec n ts ∈ d.w.base.log
    · obtain ⟨x, h1, h2⟩ := hp.run _ _ _ _ _ ho
      obtain ⟨x', h3, h4⟩ := job_step_of hr.base (hp.some rec x h1) h h1
      exact ⟨x', h3, h4.keeps.1.trans h2⟩
    · obtain ⟨_, h1, _⟩ := step_born h hs ho
      exact ⟨_, h1, rfl⟩
  have hrt : ∀ rec x, w'.exec rec = some x → w'.base.rt rec ≠ none := by
    intro rec x hx
    cases hq : d.w.exec rec with
    | some y =>
      rcases base_step h with h1 | ⟨m, h1⟩
      · rw [h1]; exact hp.some rec y hq
      · exact rt_stays hr.base h1 (hp.some rec y hq)
    | none =>
      rcases job_born h hq with h1 | ⟨rfl, rtn, h1⟩
      · rw [h1] at hx; cases hx
      · -- the run that is spawned
        have h2 := h
        simp only [BSt.step, BSt.baseStep] at h2
        split at h2
        case isFalse => cases h2
        rw [Option.map_eq_some_iff] at h2
        obtain ⟨s, hs, rfl⟩ := h2
        simp only [step, tSpawn] at hs
        split at hs
        · rename_i p t rec' hpc
          simp only [Bool.false_eq_true, if_false, Option.some.injEq] at hs
          subst hs
          have hh : ∀ s', s'.log = [.started t.taskId t.routine rec' d.w.base.ticks (env.clock d.w.base.ticks)] ++ d.w.base.log →
              happened d.w.base s' = [.started t.taskId t.routine rec' d.w.base.ticks (env.clock d.w.base.ticks)] :=
            fun s' h => happened_eq h
          rw [hh _ rfl] at h1
          simp only [observe, setI_apply] at h1 ⊢
          split
          · simp
          · rename_i hne; rw [if_neg hne, hq] at h1; cases h1
        · cases hs
  refine ⟨fun rec x hx => ?_, fun id rtn rec n ts hs => ?_⟩
  · rcases hex rec with h1 | h1
    · exact hrt rec x (h1.symm.trans hx)
    · rw [hx] at h1
      cases hq : w'.exec rec with
      | none => rw [hq] at h1; cases h1
      | some y => exact hrt rec y hq
  · obtain ⟨x, h1, h2⟩ := hall _ _ _ _ _ hs
    rcases hex rec with h3 | h3
    · exact ⟨x, h3.trans h1, h2⟩
    · rw [h1] at h3
      exact ⟨_, h3, by cases env.runtime <;> exact h2⟩

theorem paired {B : Bodies σ} {env : Env} {d : DSt σ} (hr : d.Reachable B env) : Paired d := by
  obtain ⟨ls, h⟩ := hr
  refine DSt.run_induct (P := Paired) ?_ ls ⟨[], rfl⟩ ⟨fun _ _ h => (by cases h), fun _ _ _ _ _ h => (by cases h)⟩ h
  intro d l d' hr hp hs
  have hr' := hr.step hs
  cases dstep hs with
  | opened h0 h he =>
    subst he
    obtain ⟨h1, h2⟩ := paired_of hr hp h hr'.base (fun rec => Or.inl rfl)
    exact ⟨h1, h2⟩
  | @shut l w' h0 hn h he =>
    subst he
    have hb := lose_base env d.w w' l
    obtain ⟨h1, h2⟩ := paired_of hr hp h (by rw [← hb]; exact hr'.base)
      (fun rec => (lose_exec env d.w w' l rec).imp id fun h => h.1)
    exact ⟨by rw [hb]; exact h1, by rw [hb]; exact h2⟩
  | die h0 hf he =>
    subst he
    refine ⟨fun rec x hx => ?_, fun id rtn rec n ts hs => ?_⟩
    · simp only [BSt.dropTrace] at hx ⊢
      split at hx
      · cases hq : d.w.exec rec with
        | none => rw [hq] at hx; cases hx
        | some y => exact hp.some rec y hq
      · exact hp.some rec x hx
    · obtain ⟨x, h1, h2⟩ := hp.run _ _ _ _ _ hs
      simp only [BSt.dropTrace]
      split
      · exact ⟨_, by rw [h1]; rfl, by cases env.runtime <;> exact h2⟩
      · exact ⟨x, h1, h2⟩
  | refuse h0 hl he => subst he; exact ⟨hp.some, hp.run⟩

/-- A step does to one body what a step of the runtime or the system does to it; besides, it may be told to stop. -/
theorem job_dstep {B : Bodies σ} {env : Env} {d d' : DSt σ} {l : DLabel} {rec : Int} {x : Job σ} (hr : d.Reachable B env)
    (h : d.step B env l = some d') (hx : d.w.exec rec = some x) :
    ∃ y z, d'.w.exec rec = some z ∧ (z = y ∨ z = y.quit env.runtime) ∧
      ((∃ m, l = .inner m ∧ JobStep B env rec m x (effectsOf rec d.w.effects) y (effectsOf rec d'.w.effects)) ∨
        (y = x ∧ d'.w.effects = d.w.effects ∧ ∀ m, l ≠ .inner m)) := by
  have hp := (paired hr).some rec x hx
  cases dstep h with
  | opened h0 h1 he =>
    subst he
    obtain ⟨y, h2, h3⟩ := job_step_of hr.base hp h1 hx
    exact ⟨y, y, h2, Or.inl rfl, Or.inl ⟨_, rfl, h3⟩⟩
  | @shut l w' h0 hn h1 he =>
    subst he
    obtain ⟨y, h2, h3⟩ := job_step_of hr.base hp h1 hx
    rcases lose_exec env d.w w' l rec with h4 | ⟨h4, _⟩
    · exact ⟨y, y, h4.trans h2, Or.inl rfl, Or.inl ⟨_, rfl, by rw [lose_effects]; exact h3⟩⟩
    · exact ⟨y, y.quit env.runtime, by rw [h4, h2]; rfl, Or.inr rfl, Or.inl ⟨_, rfl, by rw [lose_effects]; exact h3⟩⟩
  | die h0 hf he =>
    subst he
    by_cases hg : registered d.w.base rec = true
    · exact ⟨x, x.quit env.runtime, by simp only [BSt.dropTrace, if_pos hg, hx]; rfl, Or.inr rfl, Or.inr ⟨rfl, rfl, fun _ h => by cases h⟩⟩
    · exact ⟨x, x, by simp only [BSt.dropTrace, if_neg hg, hx], Or.inl rfl, Or.inr ⟨rfl, rfl, fun _ h => by cases h⟩⟩
  | refuse h0 hl he => subst he; exact ⟨x, x, hx, Or.inl rfl, Or.inr ⟨rfl, rfl, fun _ h => by cases h⟩⟩

theorem told_step {B : Bodies σ} {env : Env} {d d' : DSt σ} {l : DLabel} {rec : Int} (hr : d.Reachable B env)
    (h : d.step B env l = some d') (ht : Told d.w rec) : Told d'.w rec := by
  obtain ⟨x, hx, ht⟩ := ht
  obtain ⟨y, z, h1, h2, h3⟩ := job_dstep hr h hx
  refine ⟨z, h1, ?_⟩
  rcases h2 with rfl | rfl
  · rcases h3 with ⟨m, _, h3⟩ | ⟨rfl, _⟩
    · exact h3.keeps.2.1 ht
    · exact ht
  · exact quit_told _ _

theorem told_run {B : Bodies σ} {env : Env} {d d' : DSt σ} {rec : Int} (hr : d.Reachable B env) {ls : List DLabel}
    (h : d.run B env ls = some d') (ht : Told d.w rec) : Told d'.w rec :=
  DSt.run_induct (P := fun d : DSt σ => Told d.w rec) (fun _ _ _ hr hp h => told_step hr h hp) ls hr ht h

theorem shut_step {B : Bodies σ} {env : Env} {d d' : DSt σ} {l : DLabel} (h : d.step B env l = some d') (hc : d.closed = true) :
    d'.closed = true := by
  cases dstep h with
  | opened h0 h1 he => rw [hc] at h0; cases h0
  | shut h0 hn h1 he => subst he; exact hc
  | die h0 hf he => subst he; rfl
  | refuse h0 hl he => subst he; exact hc

/-- A registration that was queued is that of a run that was started. -/
theorem queued_begun {env : Env} {s : St} (hr : Reachable env s) {id : Nat} {rec : Int} (h : .queued (.append id rec) ∈ s.log) :
    ∃ rtn n ts, .started id rtn rec n ts ∈ s.log := by
  refine Reachable.induct (fun s => .queued (.append id rec) ∈ s.log → ∃ rtn n ts, .started id rtn rec n ts ∈ s.log)
    (fun h => by cases h) ?_ s hr h
  intro s l s' hr hs ha hq
  have hm : (∃ rtn n ts, .started id rtn rec n ts ∈ s.log) → ∃ rtn n ts, .started id rtn rec n ts ∈ s'.log :=
    fun ⟨a, b, c, h⟩ => ⟨a, b, c, log_mono ha h⟩
  rcases log_cases ha with ⟨n, hn, hmi, hsub⟩ | ⟨p, t, rec, box', rfl, hp, hp', hb, hn, hce⟩ | ⟨e'', hc', hn, h1⟩ |
    ⟨u, now, n, rfl, hp, hc', hn⟩ | ⟨rec, r, rfl, hr, hn, hce⟩
  · have h1 := queuedTags_minor (log := s.log) hmi
    rw [← hn] at h1
    exact hm (hs (mem_queuedTags.1 (h1 ▸ mem_queuedTags.2 hq)))
  · rw [hn] at hq; simp at hq; exact hm (hs hq)
  · rw [hn] at hq
    rcases List.mem_cons.1 hq with hq | hq
    · rcases h1 with ⟨p, t, box, rfl, hp, rfl⟩ | ⟨rec, now, r, rfl, _, _, _, rfl⟩ | ⟨op, rfl, rfl⟩ | ⟨t, c, rfl, rfl⟩ | ⟨w, i, rfl, rfl⟩
      · simp only [TimerEvent.tag, Obs.queued.injEq, Tag.append.injEq] at hq
        obtain ⟨rfl, rfl⟩ := hq
        obtain ⟨_, ⟨rtn, n, h2⟩, _⟩ := (rtOk hr).app _ _ _ hp
        exact hm ⟨_, _, _, h2⟩
      · simp [TimerEvent.tag] at hq
      · cases op <;> simp [UserOp.event, TimerEvent.tag] at hq
      · simp [TimerEvent.tag] at hq
      · simp [TimerEvent.tag] at hq
    · exact hm (hs hq)
  · rw [hn] at hq; simp at hq; exact hm (hs hq)
  · rw [hn] at hq; simp at hq; exact hm (hs hq)

/-- A run that was not told to stop is told so by the system only if it is stopped. -/
theorem told_new {B : Bodies σ} {env : Env} {w w' : BSt σ} {l : BLabel} {rec : Int} {x : Job σ}
    (hb : DelayTimer.Reachable env w.base) (hrt : w.base.rt rec ≠ none) (h : w.step B env l = some w')
    (hx : w.exec rec = some x) (hn : ¬ Told w rec) (ht : Told w' rec) : ∃ id, .stopped id rec ∈ w'.base.log := by
  have hno : ¬ (x.quitting = true ∨ x.cancelled = true) := fun h => hn ⟨x, hx, h⟩
  obtain ⟨x', hx', ht⟩ := ht
  obtain ⟨x'', h1, hj⟩ := job_step_of hb hrt h hx
  rw [hx'] at h1; cases h1
  generalize effectsOf rec w'.effects = fe at hj
  cases hj with
  | quit hl =>
    subst hl
    simp only [BSt.step, BSt.baseStep] at h
    split at h
    case isFalse => cases h
    rename_i hal
    rw [Option.map_eq_some_iff] at h
    obtain ⟨s, hst, rfl⟩ := h
    rename_i m
    by_cases hsp : m = .tSpawn false
    · subst hsp
      have hst' := hst
      simp only [step, tSpawn] at hst
      split at hst
      · rename_i p t rec' hp
        simp only [Bool.false_eq_true, if_false, Option.some.injEq] at hst
        subst hst
        obtain ⟨h3, _⟩ := spawn_fresh hb hst' rfl
        have hne : rec ≠ rec' := by rintro rfl; exact hrt h3
        have hh : ∀ s', s'.log = [.started t.taskId t.routine rec' w.base.ticks (env.clock w.base.ticks)] ++ w.base.log →
            happened w.base s' = [.started t.taskId t.routine rec' w.base.ticks (env.clock w.base.ticks)] :=
          fun s' h => happened_eq h
        rw [hh _ rfl] at hx'
        simp only [observe, setI_apply, if_neg hne, hx, Option.some.injEq] at hx'
        rw [← hx'] at ht
        exact absurd ht hno
      · cases hst
    · obtain ⟨⟨news, hnew, hnb⟩, _⟩ := base_quiet (step_act hst) (fun rec he => by subst he; simp [BSt.allows] at hal)
        (fun rec he => by subst he; simp [BSt.allows] at hal) hsp
      rw [happened_eq hnew] at hx'
      rcases observe_quiet (B := B) (env := env) (ex := w.exec) rec hnb with ⟨h1, _⟩ | ⟨_, id, h1⟩
      · simp only [h1, hx, Option.some.injEq] at hx'
        rw [← hx'] at ht
        exact absurd ht hno
      · exact ⟨id, by show _ ∈ s.log; rw [hnew]; exact List.mem_append_left _ h1⟩
  | cancel hl hq => exact absurd (Or.inl hq) hno
  | _ => exact absurd ht hno

/-- The registered runs are those whose registration was dispatched and that were not stopped since. -/
theorem registered_iff {env : Env} {s : St} (hr : Reachable env s) {rec : Int} :
    registered s rec = true ↔ ∃ id, .append id rec ∈ dispatchedTags s.log ∧ .stopped id rec ∉ s.log := by
  constructor
  · intro h
    unfold registered at h
    split at h
    · rename_i r hq
      rw [List.any_eq_true] at h
      obtain ⟨b, h1, h2⟩ := h
      exact ⟨r.taskId, ((traceOk hr).mem _ _).1 ⟨b, h1, by simpa using h2⟩⟩
    · cases h
  · rintro ⟨id, h⟩
    obtain ⟨b, h1, h2⟩ := ((traceOk hr).mem _ _).2 h
    obtain ⟨_, rtn, n, h3⟩ := (traceOk hr).own _ _ h1
    rw [h2] at h3
    obtain ⟨r, h4, h5, _⟩ := (runLog hr).started _ _ _ _ _ h3
    unfold registered
    rw [h4]
    simp only [List.any_eq_true, h5]
    exact ⟨b, h1, by simpa using h2⟩

end DelayTimer
