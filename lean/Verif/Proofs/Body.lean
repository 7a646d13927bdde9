import Verif.Spec.Body
import Verif.Props.Timeout

/-! Bodies, the runs of the system they belong to, and the log. -/

namespace DelayTimer
open Spec

variable {σ : Type}

/-- Observations that neither start nor end a body. -/
def NoBody : Obs → Prop
  | .started .. => False
  | .bodyEnded .. => False
  | .bodyPanicked .. => False
  | _ => True

/-- What of a run matters to its body. -/
def RtInst.key (r : RtInst) : Nat × Nat × Bool × Bool := (r.taskId, r.routine, r.bodyDone, r.lost)

theorem base_quiet {env : Env} {s s' : St} {l : Label} (h : Act env s l s') (h1 : ∀ rec, l ≠ .rBody rec)
    (h2 : ∀ rec, l ≠ .rPanic rec) (h3 : l ≠ .tSpawn false) :
    (∃ news, s'.log = news ++ s.log ∧ ∀ o ∈ news, NoBody o) ∧
    ∀ rec, (s'.rt rec).map RtInst.key = (s.rt rec).map RtInst.key := by
  cases h
  case spawn p t rec hp => exact absurd rfl h3
  case body rec r hr hb hl => exact absurd rfl (h1 _)
  case panic_caught rec r hr hb hl hc => exact absurd rfl (h2 _)
  case panic_lost rec r hr hb hl hc => exact absurd rfl (h2 _)
  case finish rec now r hr hb hg hf =>
    refine ⟨⟨[_], rfl, by intro o ho; simp at ho; subst ho; trivial⟩, fun x => ?_⟩
    simp only [setI_apply]
    split
    · rename_i he; subst he; rw [hr]; rfl
    · rfl
  case gate_panic p t rec hp hd | gate_again p t t' rec hp hd | gate_last p t t' rec hp hd =>
    refine ⟨⟨[], rfl, by simp⟩, fun x => ?_⟩
    simp only [setI_apply]
    split
    · rename_i he; subst he; cases s.rt x <;> rfl
    · rfl
  case recv_cancel id rec rest he hc =>
    refine ⟨?_, fun x => by simp⟩
    rcases cancelTask_log env true { s with chan := rest } id rec CANCELLED with h | h | ⟨_, _, h⟩
    · exact ⟨[_], by rw [done_log, h]; rfl, by intro o ho; simp at ho; subst ho; trivial⟩
    · exact ⟨[_, _], by rw [done_log, h]; rfl, by intro o ho; simp at ho; rcases ho with rfl | rfl <;> trivial⟩
    · exact ⟨[_, _, _], by rw [done_log, h]; rfl, by intro o ho; simp at ho; rcases ho with rfl | rfl | rfl <;> trivial⟩
  case recv_timeout id rec rest he hc =>
    refine ⟨?_, fun x => by simp⟩
    rcases cancelTask_log env false { s with chan := rest } id rec TIMEOUT with h | h | ⟨_, _, h⟩
    · exact ⟨[_], by rw [done_log, h]; rfl, by intro o ho; simp at ho; subst ho; trivial⟩
    · exact ⟨[_, _], by rw [done_log, h]; rfl, by intro o ho; simp at ho; rcases ho with rfl | rfl <;> trivial⟩
    · exact ⟨[_, _, _], by rw [done_log, h]; rfl, by intro o ho; simp at ho; rcases ho with rfl | rfl | rfl <;> trivial⟩
  case recv_finish b rest he hc =>
    refine ⟨?_, fun x => by simp⟩
    rcases finishTask_log env { s with chan := rest } b.taskId b.recordId with h | h | ⟨_, _, h⟩
    · exact ⟨[_], by rw [done_log, h]; rfl, by intro o ho; simp at ho; subst ho; trivial⟩
    · exact ⟨[_, _], by rw [done_log, h]; rfl, by intro o ho; simp at ho; rcases ho with rfl | rfl <;> trivial⟩
    · exact ⟨[_, _, _], by rw [done_log, h]; rfl, by intro o ho; simp at ho; rcases ho with rfl | rfl | rfl <;> trivial⟩
  case spop u now n hp hu hmin hle =>
    exact ⟨⟨[_, _], rfl, by intro o ho; simp at ho; rcases ho with rfl | rfl <;> trivial⟩, fun _ => rfl⟩
  case recv_append id box rest he hc =>
    refine ⟨⟨[.dispatched (.append id box.recordId) (some true)], by simp, ?_⟩, fun _ => by simp⟩
    intro o ho; simp at ho; subst ho; trivial
  case next_add1_err t chain hand he hn =>
    refine ⟨⟨[.dispatched (addTag t chain) none], by simp, ?_⟩, fun _ => by simp⟩
    intro o ho; simp at ho; subst ho; trivial
  case next_add3 tag m he =>
    refine ⟨⟨[.dispatched tag (some true)], by simp, ?_⟩, fun _ => by simp⟩
    intro o ho; simp at ho; subst ho; trivial
  case next_remove id ok he =>
    refine ⟨⟨[.dispatched (.remove id) (if ok then some true else none)], by simp, ?_⟩, fun _ => by simp⟩
    intro o ho; simp at ho; subst ho; trivial
  all_goals
    first
      | exact ⟨⟨[], rfl, by simp⟩, fun _ => rfl⟩
      | refine ⟨⟨[_], rfl, ?_⟩, fun _ => rfl⟩; intro o ho; simp at ho; subst ho; trivial
      | refine ⟨⟨[], ?_, ?_⟩, fun _ => ?_⟩ <;> simp <;> done

theorem happened_eq {s s' : St} {news : List Obs} (h : s'.log = news ++ s.log) : happened s s' = news := by
  simp [happened, h]

theorem observe_quiet {B : Bodies σ} {env : Env} {ex : Int → Option (Job σ)} {os : List Obs} (rec : Int)
    (h : ∀ o ∈ os, NoBody o) : observe B env ex os rec = ex rec ∧ (∀ id, .stopped id rec ∉ os) ∨
      observe B env ex os rec = (ex rec).map (·.quit env.runtime) ∧ ∃ id, .stopped id rec ∈ os := by
  induction os with
  | nil => left; exact ⟨rfl, by simp⟩
  | cons o os ih =>
    have ih := ih fun o ho => h o (List.mem_cons_of_mem _ ho)
    have h0 := h o List.mem_cons_self
    cases o
    case started => exact h0.elim
    case stopped id r =>
      simp only [observe, setI_apply]
      split
      · rename_i he; subst he
        right
        refine ⟨?_, id, List.mem_cons_self⟩
        rcases ih with ⟨h1, _⟩ | ⟨h1, _⟩
        · rw [h1]
        · rw [h1]; cases ex rec with
          | none => rfl
          | some x => cases hrt : env.runtime <;> simp [Job.quit]
      · rename_i he
        rcases ih with ⟨h1, h2⟩ | ⟨h1, id', h2⟩
        · left; refine ⟨h1, fun id' hx => ?_⟩
          rcases List.mem_cons.1 hx with hx | hx
          · cases hx; exact he rfl
          · exact h2 id' hx
        · right; exact ⟨h1, id', List.mem_cons_of_mem _ h2⟩
    all_goals
      simp only [observe]
      rcases ih with ⟨h1, h2⟩ | ⟨h1, id', h2⟩
      · left; exact ⟨h1, fun id' hx => by simp at hx; exact h2 id' hx⟩
      · right; exact ⟨h1, id', List.mem_cons_of_mem _ h2⟩

/-! ## Steps of the whole -/

/-- A step leaves the system as it is or is one of its steps. -/
theorem base_step {B : Bodies σ} {env : Env} {w w' : BSt σ} {l : BLabel} (h : w.step B env l = some w') :
    w'.base = w.base ∨ ∃ m, DelayTimer.step env w.base m = some w'.base := by
  have hon : ∀ {rec : Int} {f : RoutineKind → Job σ → Option (Job σ)}, w.on env rec f = some w' → w'.base = w.base := by
    intro rec f h
    simp only [BSt.on] at h
    split at h
    · rw [Option.map_eq_some_iff] at h; obtain ⟨y, _, rfl⟩ := h; rfl
    · cases h
  cases l with
  | base m =>
    simp only [BSt.step, BSt.baseStep] at h
    split at h
    · rw [Option.map_eq_some_iff] at h; obtain ⟨s, h1, rfl⟩ := h; exact Or.inr ⟨m, h1⟩
    · cases h
  | poll rec => exact Or.inl (hon h)
  | wake rec v => exact Or.inl (hon (f := fun k => Job.wake k v) h)
  | cancel rec => exact Or.inl (hon (f := fun _ => Job.cancel) h)
  | reap rec => exact Or.inl (hon h)
  | move rec =>
    simp only [BSt.step, BSt.moveStep] at h
    split at h
    · split at h
      · split at h
        · cases h; exact Or.inl rfl
        · cases h; exact Or.inl rfl
        · rw [Option.map_eq_some_iff] at h; obtain ⟨s, h1, rfl⟩ := h; exact Or.inr ⟨.rBody rec, h1⟩
        · rw [Option.map_eq_some_iff] at h; obtain ⟨s, h1, rfl⟩ := h; exact Or.inr ⟨.rPanic rec, h1⟩
      · cases h
    · cases h

theorem BSt.run_append {B : Bodies σ} {env : Env} (a b : List BLabel) : ∀ (w : BSt σ),
    w.run B env (a ++ b) = (w.run B env a).bind fun x => x.run B env b := by
  induction a with
  | nil => intro w; rfl
  | cons l a ih =>
    intro w
    simp only [List.cons_append, BSt.run]
    cases w.step B env l with
    | none => rfl
    | some x => exact ih x

theorem BSt.Reachable.step {B : Bodies σ} {env : Env} {w w' : BSt σ} {l : BLabel} (hr : w.Reachable B env)
    (h : w.step B env l = some w') : w'.Reachable B env := by
  obtain ⟨ls, h0⟩ := hr
  exact ⟨ls ++ [l], by rw [BSt.run_append, h0]; simp [BSt.run, h]⟩

/-- Induction over executions. -/
theorem BSt.run_induct {B : Bodies σ} {env : Env} {P : BSt σ → Prop}
    (hs : ∀ w l w', w.Reachable B env → P w → w.step B env l = some w' → P w') :
    ∀ (ls : List BLabel) {w w' : BSt σ}, w.Reachable B env → P w → w.run B env ls = some w' → P w' := by
  intro ls
  induction ls with
  | nil => intro w w' _ hp h; cases h; exact hp
  | cons l ls ih =>
    intro w w' hr hp h
    simp only [BSt.run] at h
    split at h
    · rename_i x hx; exact ih (hr.step hx) (hs w l x hr hp hx) h
    · cases h

theorem BSt.Reachable.base {B : Bodies σ} {env : Env} {w : BSt σ} (hr : w.Reachable B env) :
    DelayTimer.Reachable env w.base := by
  obtain ⟨ls, h⟩ := hr
  refine BSt.run_induct (P := fun w => DelayTimer.Reachable env w.base) (fun w l w' _ hp hs => ?_) ls
    ⟨[], rfl⟩ ⟨[], rfl⟩ h
  rcases base_step hs with h1 | ⟨m, h1⟩
  · rw [h1]; exact hp
  · exact hp.step h1

theorem BSt.log_grows {B : Bodies σ} {env : Env} {w w' : BSt σ} {l : BLabel} (h : w.step B env l = some w') {o : Obs}
    (ho : o ∈ w.base.log) : o ∈ w'.base.log := by
  rcases base_step h with h1 | ⟨m, h1⟩
  · rw [h1]; exact ho
  · exact log_mono (step_act h1) ho

/-! ## What the bodies did -/

theorem goes_trans {B : Bodies σ} {x y z : σ} {es fs : List Nat} (h : Goes B x es y) (h' : Goes B y fs z) :
    Goes B x (es ++ fs) z := by
  induction h with
  | refl => exact h'
  | effect h _ ih => exact .effect h (ih h')
  | await v h _ ih => exact .await v h (ih h')

theorem effectsOf_self (rec : Int) (e : Nat) (es : List (Int × Nat)) :
    effectsOf rec ((rec, e) :: es) = effectsOf rec es ++ [e] := by simp [effectsOf]

theorem effectsOf_other {rec r : Int} (h : r ≠ rec) (e : Nat) (es : List (Int × Nat)) :
    effectsOf rec ((r, e) :: es) = effectsOf rec es := by simp [effectsOf, h]

/-- The body has come this far. -/
def At (B : Bodies σ) (es : List Nat) (rec : Int) (r : RtInst) (log : List Obs) : Place σ → Prop
  | .ready y => Goes B (B.start r.routine) es y ∧ r.bodyDone = false ∧ r.lost = false
  | .active y => Goes B (B.start r.routine) es y ∧ r.bodyDone = false ∧ r.lost = false
  | .blocked k => (∃ y, Goes B (B.start r.routine) es y ∧ B.move y = .await k) ∧ r.bodyDone = false ∧ r.lost = false
  | .gone => (∃ y, Goes B (B.start r.routine) es y) ∧ r.bodyDone = false ∧ r.lost = false
  | .over => ∃ y, Goes B (B.start r.routine) es y ∧
      ((B.move y = .finish ∧ .bodyEnded r.taskId rec ∈ log ∧ ∀ id, .bodyPanicked id rec ∉ log) ∨
       (B.move y = .panic ∧ .bodyPanicked r.taskId rec ∈ log ∧ ∀ id, .bodyEnded id rec ∉ log))

theorem At.goes {B : Bodies σ} {es : List Nat} {rec : Int} {r : RtInst} {log : List Obs} {p : Place σ}
    (h : At B es rec r log p) : ∃ y, Goes B (B.start r.routine) es y := by
  cases p with
  | ready y => exact ⟨_, h.1⟩
  | active y => exact ⟨_, h.1⟩
  | blocked k => obtain ⟨⟨y, h, _⟩, _⟩ := h; exact ⟨y, h⟩
  | gone => exact h.1
  | over => obtain ⟨y, h, _⟩ := h; exact ⟨y, h⟩

theorem At.keep {B : Bodies σ} {es : List Nat} {rec : Int} {r r' : RtInst} {log log' : List Obs} {p : Place σ}
    (h : At B es rec r log p) (hk : r'.key = r.key) (h1 : ∀ id, .bodyEnded id rec ∈ log' ↔ .bodyEnded id rec ∈ log)
    (h2 : ∀ id, .bodyPanicked id rec ∈ log' ↔ .bodyPanicked id rec ∈ log) : At B es rec r' log' p := by
  simp only [RtInst.key, Prod.mk.injEq] at hk
  obtain ⟨k1, k2, k3, k4⟩ := hk
  cases p <;> simp only [At, k1, k2, k3, k4, h1, h2] at h ⊢ <;> exact h

structure JobOk (B : Bodies σ) (env : Env) (w : BSt σ) (rec : Int) (x : Job σ) : Prop where
  run : ∃ r, w.base.rt rec = some r ∧ r.routine = x.routine ∧ At B (effectsOf rec w.effects) rec r w.base.log x.place
  stop : (∃ id, .stopped id rec ∈ w.base.log) ↔ x.quitting = true ∨ x.cancelled = true
  tokio : env.runtime = .tokio → x.quitting = false
  dropped : x.dropped = true → x.cancelled = true
  gone : x.place = .gone → x.dropped = true

structure BodyOk (B : Bodies σ) (env : Env) (w : BSt σ) : Prop where
  none : ∀ rec, w.exec rec = none → w.base.rt rec = none ∧ effectsOf rec w.effects = []
  some : ∀ rec x, w.exec rec = some x → JobOk B env w rec x

/-- A step of the runtime with one body. -/
theorem bodyOk_on {B : Bodies σ} {env : Env} {w : BSt σ} {rec : Int} {x y : Job σ} (hw : BodyOk B env w)
    (hx : w.exec rec = .some x) (hy : JobOk B env { w with exec := setI w.exec rec (.some y) } rec y) :
    BodyOk B env { w with exec := setI w.exec rec (.some y) } := by
  refine ⟨fun r hr => ?_, fun r z hz => ?_⟩
  · simp only [setI_apply] at hr
    split at hr
    · cases hr
    · exact hw.none r hr
  · simp only [setI_apply] at hz
    split at hz
    · rename_i he; subst he; cases hz; exact hy
    · obtain ⟨a, b, c, d, e⟩ := hw.some r z hz
      exact ⟨a, b, c, d, e⟩

/-- Nothing of a run is in the log before it is spawned. -/
theorem spawn_fresh {env : Env} {s s' : St} {l : Label} (hr : Reachable env s) (h : step env s l = some s') {rec : Int}
    {id rtn n ts : Nat} (hn : s'.log = .started id rtn rec n ts :: s.log) :
    s.rt rec = none ∧ ∀ id, .stopped id rec ∉ s.log := by
  have hr' := hr.step h
  have hnd : (startedRecs s'.log).Nodup := (recOk hr').sorted.imp fun h => h.1
  rw [hn] at hnd
  simp only [startedRecs, List.nodup_append] at hnd
  have h0 : rec ∉ startedRecs s.log := fun hx => hnd.2.2 rec hx rec (by simp) rfl
  have hrt : s.rt rec = none := by
    cases hq : s.rt rec with
    | none => rfl
    | some r =>
      obtain ⟨⟨n, ts, h1⟩, _⟩ := (rtOk hr).rt rec r hq
      exact absurd (mem_startedRecs.2 ⟨_, _, _, _, h1⟩) h0
  refine ⟨hrt, fun id hx => ?_⟩
  have h1 : rec ∈ appendRecs (queuedTags s.log) := List.mem_filterMap.2 ⟨_, dispatched_queued hr ((traceOk hr).stop id rec hx), rfl⟩
  apply h0
  rw [(recOk hr).start]
  exact List.mem_append_left _ h1

theorem bodyOk_base {B : Bodies σ} {env : Env} {w w' : BSt σ} {l : Label} (hr : w.Reachable B env) (hw : BodyOk B env w)
    (h : w.step B env (.base l) = .some w') : BodyOk B env w' := by
  simp only [BSt.step, BSt.baseStep] at h
  split at h
  case isFalse => cases h
  rename_i hal
  rw [Option.map_eq_some_iff] at h
  obtain ⟨s, hs, rfl⟩ := h
  have ha := step_act hs
  by_cases hsp : l = .tSpawn false
  · subst hsp
    simp only [step, tSpawn] at hs
    split at hs
    · rename_i p t rec hp
      simp only [Bool.false_eq_true, if_false, Option.some.injEq] at hs
      subst hs
      obtain ⟨h1, h2⟩ := spawn_fresh hr.base (l := .tSpawn false) (by simp only [step, tSpawn, hp]; rfl) rfl
      have hex : w.exec rec = .none := by
        cases hq : w.exec rec with
        | none => rfl
        | some x => obtain ⟨r, h3, _⟩ := (hw.some rec x hq).run; rw [h1] at h3; cases h3
      have h3 := (hw.none rec hex).2
      have hh : ∀ s', s'.log = [.started t.taskId t.routine rec w.base.ticks (env.clock w.base.ticks)] ++ w.base.log →
          happened w.base s' = [.started t.taskId t.routine rec w.base.ticks (env.clock w.base.ticks)] :=
        fun s' h => happened_eq h
      rw [hh _ rfl]
      refine ⟨fun r hx => ?_, fun r x hx => ?_⟩
      · simp only [observe, setI_apply] at hx ⊢
        split at hx
        · cases hx
        · rename_i he
          rw [if_neg he]; exact hw.none r hx
      · simp only [observe, setI_apply] at hx
        split at hx
        · rename_i he; subst he; cases hx
          refine ⟨⟨_, setI_same _ _ _, rfl, ?_, rfl, rfl⟩, ?_, fun _ => rfl, by simp, by simp⟩
          · simp only [h3]; exact .refl _
          · simp only [List.mem_cons, reduceCtorEq, false_or, Bool.false_eq_true, or_false, iff_false]
            rintro ⟨id, hx⟩; exact h2 id hx
        · rename_i he
          obtain ⟨⟨q, a1, a2, a3⟩, b, c, d, e⟩ := hw.some r x hx
          refine ⟨⟨q, ?_, a2, a3.keep rfl (by simp) (by simp)⟩, ?_, c, d, e⟩
          · simp only [setI_apply, if_neg he]; exact a1
          · simpa using b
    · cases hs
  · obtain ⟨⟨news, hn, hnb⟩, hk⟩ := base_quiet ha (fun rec he => by subst he; simp [BSt.allows] at hal)
      (fun rec he => by subst he; simp [BSt.allows] at hal) hsp
    rw [happened_eq hn]
    have hend : ∀ id rec, .bodyEnded id rec ∈ s.log ↔ .bodyEnded id rec ∈ w.base.log := by
      intro id rec; rw [hn, List.mem_append]
      exact ⟨fun h => h.resolve_left fun h => hnb _ h, Or.inr⟩
    have hpan : ∀ id rec, .bodyPanicked id rec ∈ s.log ↔ .bodyPanicked id rec ∈ w.base.log := by
      intro id rec; rw [hn, List.mem_append]
      exact ⟨fun h => h.resolve_left fun h => hnb _ h, Or.inr⟩
    refine ⟨fun rec hx => ?_, fun rec x hx => ?_⟩
    · have : w.exec rec = .none := by
        rcases observe_quiet (B := B) (env := env) (ex := w.exec) rec hnb with ⟨h1, _⟩ | ⟨h1, _⟩
        · exact h1 ▸ hx
        · simp only [h1, Option.map_eq_none_iff] at hx; exact hx
      obtain ⟨h1, h2⟩ := hw.none rec this
      refine ⟨?_, h2⟩
      have := hk rec
      rw [h1] at this
      simpa using this
    · have hrun : ∀ z, w.exec rec = .some z → z.routine = x.routine → z.place = x.place →
          ∃ r, s.rt rec = .some r ∧ r.routine = x.routine ∧ At B (effectsOf rec w.effects) rec r s.log x.place := by
        intro z hz h1 h2
        obtain ⟨r, a1, a2, a3⟩ := (hw.some rec z hz).run
        have := hk rec
        rw [a1] at this
        simp only [Option.map_some, Option.map_eq_some_iff] at this
        obtain ⟨r', b1, b2⟩ := this
        refine ⟨r', b1, ?_, ?_⟩
        · have h3 : r'.routine = r.routine := by simp only [RtInst.key, Prod.mk.injEq] at b2; exact b2.2.1
          rw [h3, a2, h1]
        · rw [← h2]; exact a3.keep b2 (fun id => hend id rec) (fun id => hpan id rec)
      rcases observe_quiet (B := B) (env := env) (ex := w.exec) rec hnb with ⟨h1, h2⟩ | ⟨h1, id0, h2⟩
      · have hx' : w.exec rec = .some x := h1 ▸ hx
        obtain ⟨a, b, c, d, e⟩ := hw.some rec x hx'
        refine ⟨hrun x hx' rfl rfl, ?_, c, d, e⟩
        rw [← b]
        constructor
        · rintro ⟨id, h⟩
          simp only [hn, List.mem_append] at h
          exact ⟨id, h.resolve_left (h2 id)⟩
        · rintro ⟨id, h⟩; exact ⟨id, by simp only [hn, List.mem_append]; exact Or.inr h⟩
      · simp only [h1, Option.map_eq_some_iff] at hx
        obtain ⟨z, hz, rfl⟩ := hx
        obtain ⟨a, b, c, d, e⟩ := hw.some rec z hz
        have hst : ∃ id, Obs.stopped id rec ∈ s.log := ⟨id0, by rw [hn]; exact List.mem_append_left _ h2⟩
        cases hrt : env.runtime with
        | smol =>
          rw [hrt] at hrun c
          exact ⟨hrun z hz rfl rfl, ⟨fun _ => Or.inl rfl, fun _ => hst⟩, fun h => by simp [hrt] at h, d, e⟩
        | tokio =>
          rw [hrt] at hrun c
          exact ⟨hrun z hz rfl rfl, ⟨fun _ => Or.inr rfl, fun _ => hst⟩, fun _ => c rfl, fun _ => rfl, e⟩

/-- The job after a step of the runtime. -/
theorem on_some {env : Env} {w w' : BSt σ} {rec : Int} {f : RoutineKind → Job σ → Option (Job σ)} (h : w.on env rec f = .some w') :
    ∃ x y, w.exec rec = .some x ∧ f (env.kind x.routine) x = .some y ∧ w' = { w with exec := setI w.exec rec (.some y) } := by
  simp only [BSt.on] at h
  split at h
  · rename_i x hx
    rw [Option.map_eq_some_iff] at h; obtain ⟨y, h1, rfl⟩ := h; exact ⟨x, y, hx, h1, rfl⟩
  · cases h

theorem bodyOk_move {B : Bodies σ} {env : Env} {w w' : BSt σ} {rec : Int} (hr : w.Reachable B env) (hw : BodyOk B env w)
    (h : w.step B env (.move rec) = .some w') : BodyOk B env w' := by
  simp only [BSt.step, BSt.moveStep] at h
  split at h
  case h_2 => cases h
  rename_i x hx
  split at h
  case h_2 => cases h
  rename_i y hp
  obtain ⟨⟨r, a1, a2, a3⟩, b, c, d, e⟩ := hw.some rec x hx
  rw [hp] at a3
  obtain ⟨a3, a4, a5⟩ := a3
  -- the body ends
  have hover : ∀ (s : St) (o : Obs) (r' : RtInst), s.log = o :: w.base.log → s.rt = setI w.base.rt rec (.some r') →
      r'.taskId = r.taskId → r'.routine = r.routine →
      ((B.move y = .finish ∧ o = .bodyEnded r.taskId rec) ∨ (B.move y = .panic ∧ o = .bodyPanicked r.taskId rec)) →
      BodyOk B env { w with base := s, exec := setI w.exec rec (.some { x with place := .over }) } := by
    intro s o r' hl hrt ht hrr ho
    have hnone : (∀ id, .bodyEnded id rec ∉ w.base.log) ∧ ∀ id, .bodyPanicked id rec ∉ w.base.log := by
      constructor
      · intro id hx
        obtain ⟨q, q1, _, q2⟩ := (runLog hr.base).ended id rec hx
        rw [a1] at q1; cases q1; rw [a4] at q2; cases q2
      · intro id hx
        obtain ⟨q, q1, _, q2⟩ := (runLog hr.base).panicked id rec hx
        rw [a1] at q1; cases q1
        split at q2
        · rw [a4] at q2; cases q2
        · rw [a5] at q2; cases q2
    have hstop : ∀ id r2, Obs.stopped id r2 ∈ s.log ↔ Obs.stopped id r2 ∈ w.base.log := by
      intro id r2; rw [hl]
      rcases ho with ⟨_, rfl⟩ | ⟨_, rfl⟩ <;> simp
    refine ⟨fun q hq => ?_, fun q z hz => ?_⟩
    · simp only [setI_apply] at hq
      split at hq
      · cases hq
      · rename_i he
        simp only [hrt, setI_apply, if_neg he]; exact hw.none q hq
    · simp only [setI_apply] at hz
      split at hz
      · rename_i he; subst he; cases hz
        refine ⟨⟨r', by simp only [hrt]; exact setI_same _ _ _, hrr.trans a2, ?_⟩, ?_, c, d, by simp⟩
        · refine ⟨y, by rw [hrr]; exact a3, ?_⟩
          rcases ho with ⟨h1, rfl⟩ | ⟨h1, rfl⟩
          · refine Or.inl ⟨h1, by simp [hl, ht], fun id hx => ?_⟩
            simp only [hl, List.mem_cons, reduceCtorEq, false_or] at hx
            exact hnone.2 id hx
          · refine Or.inr ⟨h1, by simp [hl, ht], fun id hx => ?_⟩
            simp only [hl, List.mem_cons, reduceCtorEq, false_or] at hx
            exact hnone.1 id hx
        · simp only [hstop]; exact b
      · rename_i he
        obtain ⟨⟨q', b1, b2, b3⟩, g, i, j, k⟩ := hw.some q z hz
        refine ⟨⟨q', by simp only [hrt, setI_apply, if_neg he]; exact b1, b2, b3.keep rfl ?_ ?_⟩, ?_, i, j, k⟩
        · intro id; rcases ho with ⟨_, rfl⟩ | ⟨_, rfl⟩ <;> simp [hl, he]
        · intro id; rcases ho with ⟨_, rfl⟩ | ⟨_, rfl⟩ <;> simp [hl, he]
        · simp only [hstop]; exact g
  split at h
  · rename_i e' z hm
    cases h
    refine ⟨fun q hq => ?_, fun q z' hz => ?_⟩
    · simp only [setI_apply] at hq
      split at hq
      · cases hq
      · rename_i he
        rw [effectsOf_other (Ne.symm he)]; exact hw.none q hq
    · simp only [setI_apply] at hz
      split at hz
      · rename_i he; subst he; cases hz
        refine ⟨⟨r, a1, a2, ?_, a4, a5⟩, b, c, d, by simp⟩
        rw [effectsOf_self]
        exact goes_trans a3 (.effect hm (.refl _))
      · rename_i he
        obtain ⟨⟨q', b1, b2, b3⟩, g, i, j, k⟩ := hw.some q z' hz
        exact ⟨⟨q', b1, b2, by simp only [effectsOf_other (Ne.symm he)]; exact b3⟩, g, i, j, k⟩
  · rename_i k hm
    cases h
    exact bodyOk_on hw hx ⟨⟨r, a1, a2, ⟨y, a3, hm⟩, a4, a5⟩, b, c, d, by simp⟩
  · rename_i hm
    rw [Option.map_eq_some_iff] at h; obtain ⟨s, h1, rfl⟩ := h
    simp only [rBody, a1, a4, a5, Bool.or_self, Bool.false_eq_true, if_false, Option.some.injEq] at h1
    subst h1
    exact hover _ _ _ rfl rfl rfl rfl (Or.inl ⟨hm, rfl⟩)
  · rename_i hm
    rw [Option.map_eq_some_iff] at h; obtain ⟨s, h1, rfl⟩ := h
    simp only [rPanic, a1, a4, a5, Bool.or_self, Bool.false_eq_true, if_false] at h1
    split at h1
    · cases h1; exact hover _ _ _ rfl rfl rfl rfl (Or.inr ⟨hm, rfl⟩)
    · cases h1; exact hover _ _ _ rfl rfl rfl rfl (Or.inr ⟨hm, rfl⟩)

theorem bodyOk_step {B : Bodies σ} {env : Env} {w w' : BSt σ} {l : BLabel} (hr : w.Reachable B env) (hw : BodyOk B env w)
    (h : w.step B env l = .some w') : BodyOk B env w' := by
  cases l with
  | base l => exact bodyOk_base hr hw h
  | move rec => exact bodyOk_move hr hw h
  | poll rec =>
    obtain ⟨x, y, hx, hf, rfl⟩ := on_some h
    obtain ⟨⟨r, a1, a2, a3⟩, b, c, d, e⟩ := hw.some rec x hx
    refine bodyOk_on hw hx ?_
    simp only [Job.poll] at hf
    split at hf
    · rename_i z hp
      split at hf
      · cases hf
      · cases hf
        rw [hp] at a3
        exact ⟨⟨r, a1, a2, a3⟩, b, c, d, by simp⟩
    · cases hf
  | wake rec v =>
    obtain ⟨x, y, hx, hf, rfl⟩ := on_some (f := fun k => Job.wake k v) h
    obtain ⟨⟨r, a1, a2, a3⟩, b, c, d, e⟩ := hw.some rec x hx
    refine bodyOk_on hw hx ?_
    simp only [Job.wake] at hf
    split at hf
    · rename_i k hp
      cases hf
      rw [hp] at a3
      obtain ⟨⟨z, a3, a6⟩, a4, a5⟩ := a3
      have := goes_trans a3 (.await v a6 (.refl _))
      rw [List.append_nil] at this
      cases hk : env.kind x.routine
      · exact ⟨⟨r, a1, a2, this, a4, a5⟩, b, c, d, by simp⟩
      · exact ⟨⟨r, a1, a2, this, a4, a5⟩, b, c, d, by simp⟩
    · cases hf
  | cancel rec =>
    obtain ⟨x, y, hx, hf, rfl⟩ := on_some (env := env) (f := fun _ => Job.cancel) h
    obtain ⟨⟨r, a1, a2, a3⟩, b, c, d, e⟩ := hw.some rec x hx
    refine bodyOk_on hw hx ?_
    simp only [Job.cancel] at hf
    split at hf
    · rename_i hq
      cases hf
      exact ⟨⟨r, a1, a2, a3⟩, ⟨fun _ => Or.inr rfl, fun _ => b.2 (Or.inl hq)⟩, fun _ => rfl, fun _ => rfl, e⟩
    · cases hf
  | reap rec =>
    obtain ⟨x, y, hx, hf, rfl⟩ := on_some h
    obtain ⟨⟨r, a1, a2, a3⟩, b, c, d, e⟩ := hw.some rec x hx
    refine bodyOk_on hw hx ?_
    simp only [Job.reap] at hf
    split at hf
    case isFalse => cases hf
    rename_i hc
    have hsame : JobOk B env { w with exec := setI w.exec rec (.some { x with dropped := true }) } rec { x with dropped := true } :=
      ⟨⟨r, a1, a2, a3⟩, b, c, fun _ => hc.1, fun _ => rfl⟩
    have hgone : x.place ≠ .over → JobOk B env { w with exec := setI w.exec rec (.some { x with dropped := true, place := .gone }) } rec
        { x with dropped := true, place := .gone } := by
      intro ho
      refine ⟨⟨r, a1, a2, ?_⟩, b, c, fun _ => hc.1, fun _ => rfl⟩
      have h1 := a3.goes
      cases hp : x.place with
      | over => exact absurd hp ho
      | ready z => rw [hp] at a3; exact ⟨h1, a3.2⟩
      | active z => rw [hp] at a3; exact ⟨h1, a3.2⟩
      | blocked z => rw [hp] at a3; exact ⟨h1, a3.2⟩
      | gone => rw [hp] at a3; exact ⟨h1, a3.2⟩
    have hcases : y = { x with dropped := true } ∨ (x.place ≠ .over ∧ y = { x with dropped := true, place := .gone }) := by
      cases hp : x.place <;> rw [hp] at hf <;> cases hk : env.kind x.routine <;> rw [hk] at hf <;> cases hrt : env.runtime <;>
        rw [hrt] at hf <;> simp at hf <;> subst hf <;> simp
    rcases hcases with rfl | ⟨ho, rfl⟩
    · exact hsame
    · exact hgone ho

theorem bodyOk {B : Bodies σ} {env : Env} {w : BSt σ} (hr : w.Reachable B env) : BodyOk B env w := by
  obtain ⟨ls, h⟩ := hr
  refine BSt.run_induct (P := BodyOk B env) (fun w l w' hr hp hs => bodyOk_step hr hp hs) ls ⟨[], rfl⟩ ?_ h
  exact ⟨fun _ _ => ⟨rfl, rfl⟩, fun _ _ h => by cases h⟩

/-! ## One body -/

/-- What a step does to one body: the job, and what has been done. -/
inductive JobStep (B : Bodies σ) (env : Env) (rec : Int) (l : BLabel) (x : Job σ) (es : List Nat) : Job σ → List Nat → Prop
  | same : JobStep B env rec l x es x es
  | quit {m : Label} (hl : l = .base m) : JobStep B env rec l x es (x.quit env.runtime) es
  | poll {y : σ} (hl : l = .poll rec) (hp : x.place = .ready y) (hc : env.kind x.routine = .asyncFn → x.cancelled = false) :
      JobStep B env rec l x es { x with place := .active y } es
  | queued {k : Nat → σ} {v : Nat} (hl : l = .wake rec v) (hp : x.place = .blocked k) (hk : env.kind x.routine = .asyncFn) :
      JobStep B env rec l x es { x with place := .ready (k v) } es
  | resumed {k : Nat → σ} {v : Nat} (hl : l = .wake rec v) (hp : x.place = .blocked k) (hk : env.kind x.routine = .syncFn) :
      JobStep B env rec l x es { x with place := .active (k v) } es
  | effect {y z : σ} {e : Nat} (hl : l = .move rec) (hp : x.place = .active y) (hm : B.move y = .effect e z) :
      JobStep B env rec l x es { x with place := .active z } (es ++ [e])
  | await {y : σ} {k : Nat → σ} (hl : l = .move rec) (hp : x.place = .active y) (hm : B.move y = .await k) :
      JobStep B env rec l x es { x with place := .blocked k } es
  | over {y : σ} (hl : l = .move rec) (hp : x.place = .active y) : JobStep B env rec l x es { x with place := .over } es
  | cancel (hl : l = .cancel rec) (hq : x.quitting = true) : JobStep B env rec l x es { x with quitting := false, cancelled := true } es
  | drop (hl : l = .reap rec) (hc : x.cancelled = true) (hn : env.kind x.routine = .asyncFn → x.place = .over)
      (hr : ∀ y, x.place = .ready y → env.runtime = .tokio) : JobStep B env rec l x es { x with dropped := true } es
  | gone (hl : l = .reap rec) (hc : x.cancelled = true) (ha : env.kind x.routine = .syncFn → ∃ y, x.place = .ready y ∧ env.runtime = .smol)
      (ho : x.place ≠ .over) : JobStep B env rec l x es { x with dropped := true, place := .gone } es

theorem job_step_of {B : Bodies σ} {env : Env} {w w' : BSt σ} {l : BLabel} {rec : Int} {x : Job σ}
    (hb : DelayTimer.Reachable env w.base) (hrt : w.base.rt rec ≠ .none)
    (h : w.step B env l = .some w') (hx : w.exec rec = .some x) : ∃ x', w'.exec rec = .some x' ∧
      JobStep B env rec l x (effectsOf rec w.effects) x' (effectsOf rec w'.effects) := by
  have hon : ∀ {r : Int} {f : RoutineKind → Job σ → Option (Job σ)}, w.on env r f = .some w' →
      (r ≠ rec ∧ w'.exec rec = .some x ∧ w'.effects = w.effects) ∨
      (r = rec ∧ ∃ y, f (env.kind x.routine) x = .some y ∧ w'.exec rec = .some y ∧ w'.effects = w.effects) := by
    intro r f h
    obtain ⟨y, z, h1, h2, rfl⟩ := on_some h
    by_cases he : r = rec
    · subst he
      rw [hx] at h1; cases h1
      exact Or.inr ⟨rfl, z, h2, setI_same _ _ _, rfl⟩
    · exact Or.inl ⟨he, by simp only [setI_apply, if_neg (Ne.symm he)]; exact hx, rfl⟩
  cases l with
  | base m =>
    simp only [BSt.step, BSt.baseStep] at h
    split at h
    case isFalse => cases h
    rename_i hal
    rw [Option.map_eq_some_iff] at h
    obtain ⟨s, hs, rfl⟩ := h
    by_cases hsp : m = .tSpawn false
    · subst hsp
      have hs' := hs
      simp only [step, tSpawn] at hs
      split at hs
      · rename_i p t rec' hp
        simp only [Bool.false_eq_true, if_false, Option.some.injEq] at hs
        subst hs
        obtain ⟨h1, h2⟩ := spawn_fresh hb hs' rfl
        have hne : rec ≠ rec' := by
          rintro rfl
          exact hrt h1
        have hh : ∀ s', s'.log = [.started t.taskId t.routine rec' w.base.ticks (env.clock w.base.ticks)] ++ w.base.log →
            happened w.base s' = [.started t.taskId t.routine rec' w.base.ticks (env.clock w.base.ticks)] :=
          fun s' h => happened_eq h
        rw [hh _ rfl]
        refine ⟨x, ?_, .same⟩
        simp only [observe, setI_apply, if_neg hne]; exact hx
      · cases hs
    · obtain ⟨⟨news, hn, hnb⟩, hk⟩ := base_quiet (step_act hs) (fun rec he => by subst he; simp [BSt.allows] at hal)
        (fun rec he => by subst he; simp [BSt.allows] at hal) hsp
      rw [happened_eq hn]
      rcases observe_quiet (B := B) (env := env) (ex := w.exec) rec hnb with ⟨h1, _⟩ | ⟨h1, _⟩
      · exact ⟨x, h1.trans hx, .same⟩
      · exact ⟨_, by simp only [h1, hx]; rfl, .quit rfl⟩
  | move r =>
    simp only [BSt.step, BSt.moveStep] at h
    split at h
    case h_2 => cases h
    rename_i y hy
    split at h
    case h_2 => cases h
    rename_i y' hp
    by_cases he : r = rec
    · subst he
      rw [hx] at hy; cases hy
      split at h
      · rename_i hm
        cases h
        exact ⟨_, setI_same _ _ _, by rw [effectsOf_self]; exact .effect rfl hp hm⟩
      · rename_i hm
        cases h
        exact ⟨_, setI_same _ _ _, .await rfl hp hm⟩
      · rw [Option.map_eq_some_iff] at h; obtain ⟨s, _, rfl⟩ := h
        exact ⟨_, setI_same _ _ _, .over rfl hp⟩
      · rw [Option.map_eq_some_iff] at h; obtain ⟨s, _, rfl⟩ := h
        exact ⟨_, setI_same _ _ _, .over rfl hp⟩
    · have he' := Ne.symm he
      split at h
      · cases h
        exact ⟨x, by simp only [setI_apply, if_neg he']; exact hx, by rw [effectsOf_other he]; exact .same⟩
      · cases h
        exact ⟨x, by simp only [setI_apply, if_neg he']; exact hx, .same⟩
      · rw [Option.map_eq_some_iff] at h; obtain ⟨s, _, rfl⟩ := h
        exact ⟨x, by simp only [setI_apply, if_neg he']; exact hx, .same⟩
      · rw [Option.map_eq_some_iff] at h; obtain ⟨s, _, rfl⟩ := h
        exact ⟨x, by simp only [setI_apply, if_neg he']; exact hx, .same⟩
  | poll r =>
    rcases hon h with ⟨_, h1, h2⟩ | ⟨rfl, y, hf, h1, h2⟩ <;> rw [h2]
    · exact ⟨x, h1, .same⟩
    · refine ⟨y, h1, ?_⟩
      simp only [Job.poll] at hf
      split at hf
      · rename_i z hp
        split at hf
        · cases hf
        · rename_i hc; cases hf; exact .poll rfl hp fun hk => by simpa [hk] using hc
      · cases hf
  | wake r v =>
    rcases hon (f := fun k => Job.wake k v) h with ⟨_, h1, h2⟩ | ⟨rfl, y, hf, h1, h2⟩ <;> rw [h2]
    · exact ⟨x, h1, .same⟩
    · refine ⟨y, h1, ?_⟩
      simp only [Job.wake] at hf
      split at hf
      · rename_i z hp
        cases hk : env.kind x.routine <;> rw [hk] at hf <;> cases hf
        · exact .queued rfl hp hk
        · exact .resumed rfl hp hk
      · cases hf
  | cancel r =>
    rcases hon (f := fun _ => Job.cancel) h with ⟨_, h1, h2⟩ | ⟨rfl, y, hf, h1, h2⟩ <;> rw [h2]
    · exact ⟨x, h1, .same⟩
    · refine ⟨y, h1, ?_⟩
      simp only [Job.cancel] at hf
      split at hf
      · cases hf; exact .cancel rfl ‹_›
      · cases hf
  | reap r =>
    rcases hon h with ⟨_, h1, h2⟩ | ⟨rfl, y, hf, h1, h2⟩ <;> rw [h2]
    · exact ⟨x, h1, .same⟩
    · refine ⟨y, h1, ?_⟩
      simp only [Job.reap] at hf
      split at hf
      case isFalse => cases hf
      rename_i hc
      have hcases : (y = { x with dropped := true } ∧ (env.kind x.routine = .asyncFn → x.place = .over) ∧
            ∀ z, x.place = .ready z → env.runtime = .tokio) ∨
          (y = { x with dropped := true, place := .gone } ∧
            (env.kind x.routine = .syncFn → ∃ z, x.place = .ready z ∧ env.runtime = .smol) ∧ x.place ≠ .over) := by
        obtain ⟨rtn, pl, q, c, d⟩ := x
        simp only at hf ⊢
        cases pl <;> cases hk : env.kind rtn <;> rw [hk] at hf <;> cases hrt : env.runtime <;>
          rw [hrt] at hf <;> simp at hf <;> subst hf <;> simp
      rcases hcases with ⟨rfl, h3, h4⟩ | ⟨rfl, h3, h4⟩
      · exact .drop rfl hc.1 h3 h4
      · exact .gone rfl hc.1 h3 h4

theorem job_step {B : Bodies σ} {env : Env} {w w' : BSt σ} {l : BLabel} {rec : Int} {x : Job σ} (hr : w.Reachable B env)
    (h : w.step B env l = .some w') (hx : w.exec rec = .some x) : ∃ x', w'.exec rec = .some x' ∧
      JobStep B env rec l x (effectsOf rec w.effects) x' (effectsOf rec w'.effects) := by
  refine job_step_of hr.base (fun h3 => ?_) h hx
  obtain ⟨r, h4, _⟩ := ((bodyOk hr).some rec x hx).run
  rw [h3] at h4; cases h4

/-- A run that has no body yet gets one when it is spawned, at the beginning of its routine. -/
theorem job_born {B : Bodies σ} {env : Env} {w w' : BSt σ} {l : BLabel} {rec : Int}
    (h : w.step B env l = .some w') (hx : w.exec rec = .none) : w'.exec rec = .none ∨
      (l = .base (.tSpawn false) ∧ ∃ rtn, w'.exec rec = .some { routine := rtn, place := .ready (B.start rtn) }) := by
  have hon : ∀ {r : Int} {f : RoutineKind → Job σ → Option (Job σ)}, w.on env r f = .some w' → w'.exec rec = .none := by
    intro r f h
    obtain ⟨y, z, h1, h2, rfl⟩ := on_some h
    have he : rec ≠ r := by rintro rfl; rw [hx] at h1; cases h1
    simp only [setI_apply, if_neg he]; exact hx
  cases l with
  | base m =>
    simp only [BSt.step, BSt.baseStep] at h
    split at h
    case isFalse => cases h
    rename_i hal
    rw [Option.map_eq_some_iff] at h
    obtain ⟨s, hs, rfl⟩ := h
    by_cases hsp : m = .tSpawn false
    · subst hsp
      simp only [step, tSpawn] at hs
      split at hs
      · rename_i p t rec' hp
        simp only [Bool.false_eq_true, if_false, Option.some.injEq] at hs
        subst hs
        have hh : ∀ s', s'.log = [.started t.taskId t.routine rec' w.base.ticks (env.clock w.base.ticks)] ++ w.base.log →
            happened w.base s' = [.started t.taskId t.routine rec' w.base.ticks (env.clock w.base.ticks)] :=
          fun s' h => happened_eq h
        rw [hh _ rfl]
        simp only [observe, setI_apply]
        split
        · exact Or.inr ⟨trivial, _, rfl⟩
        · exact Or.inl hx
      · cases hs
    · obtain ⟨⟨news, hn, hnb⟩, hk⟩ := base_quiet (step_act hs) (fun rec he => by subst he; simp [BSt.allows] at hal)
        (fun rec he => by subst he; simp [BSt.allows] at hal) hsp
      rw [happened_eq hn]
      left
      rcases observe_quiet (B := B) (env := env) (ex := w.exec) rec hnb with ⟨h1, _⟩ | ⟨h1, _⟩
      · exact h1.trans hx
      · simp only [h1, hx]; rfl
  | move r =>
    left
    simp only [BSt.step, BSt.moveStep] at h
    split at h
    case h_2 => cases h
    rename_i y hy
    have he : rec ≠ r := by rintro rfl; rw [hx] at hy; cases hy
    split at h
    case h_2 => cases h
    split at h
    · cases h; simp only [setI_apply, if_neg he]; exact hx
    · cases h; simp only [setI_apply, if_neg he]; exact hx
    · rw [Option.map_eq_some_iff] at h; obtain ⟨s, _, rfl⟩ := h; simp only [setI_apply, if_neg he]; exact hx
    · rw [Option.map_eq_some_iff] at h; obtain ⟨s, _, rfl⟩ := h; simp only [setI_apply, if_neg he]; exact hx
  | poll r => exact Or.inl (hon h)
  | wake r v => exact Or.inl (hon (f := fun k => Job.wake k v) h)
  | cancel r => exact Or.inl (hon (f := fun _ => Job.cancel) h)
  | reap r => exact Or.inl (hon (f := Job.reap env.runtime) h)

/-- What holds of a body from its birth on, given which of its steps were taken. -/
theorem job_induct {B : Bodies σ} {env : Env} {rec : Int} {P : Job σ → List Nat → Prop} {Q : BLabel → Prop}
    (h0 : ∀ rtn, P { routine := rtn, place := .ready (B.start rtn) } [])
    (h1 : ∀ l x es x' es', Q l → P x es → JobStep B env rec l x es x' es' → P x' es') :
    ∀ (ls : List BLabel) {w w' : BSt σ}, w.Reachable B env → w.run B env ls = .some w' → (∀ l ∈ ls, Q l) →
      (∀ x, w.exec rec = .some x → P x (effectsOf rec w.effects)) → ∀ x, w'.exec rec = .some x → P x (effectsOf rec w'.effects) := by
  intro ls
  induction ls with
  | nil => intro w w' _ h _ hp; cases h; exact hp
  | cons l ls ih =>
    intro w w' hr h hq hp
    simp only [BSt.run] at h
    split at h
    case h_2 => cases h
    rename_i v hv
    refine ih (hr.step hv) h (fun l hl => hq l (List.mem_cons_of_mem _ hl)) fun x hx => ?_
    cases hw : w.exec rec with
    | some z =>
      obtain ⟨x', h2, h3⟩ := job_step hr hv hw
      rw [hx] at h2; cases h2
      exact h1 _ _ _ _ _ (hq l List.mem_cons_self) (hp z hw) h3
    | none =>
      rcases job_born hv hw with h2 | ⟨rfl, rtn, h2⟩
      · rw [h2] at hx; cases hx
      · rw [h2] at hx; cases hx
        have h4 : effectsOf rec v.effects = [] := by
          have h5 := ((bodyOk hr).none rec hw).2
          simp only [BSt.step, BSt.baseStep] at hv
          split at hv
          case isFalse => cases hv
          rw [Option.map_eq_some_iff] at hv
          obtain ⟨s, _, rfl⟩ := hv
          exact h5
        rw [h4]; exact h0 rtn

/-- What holds of a body stays true of it. -/
theorem job_keep {B : Bodies σ} {env : Env} {rec : Int} {P : Job σ → List Nat → Prop}
    (h1 : ∀ l x es x' es', P x es → JobStep B env rec l x es x' es' → P x' es') :
    ∀ (ls : List BLabel) {w w' : BSt σ} {x : Job σ}, w.Reachable B env → w.run B env ls = .some w' → w.exec rec = .some x →
      P x (effectsOf rec w.effects) → ∃ x', w'.exec rec = .some x' ∧ P x' (effectsOf rec w'.effects) := by
  intro ls
  induction ls with
  | nil => intro w w' x _ h hx hp; cases h; exact ⟨x, hx, hp⟩
  | cons l ls ih =>
    intro w w' x hr h hx hp
    simp only [BSt.run] at h
    split at h
    case h_2 => cases h
    rename_i v hv
    obtain ⟨x', h2, h3⟩ := job_step hr hv hx
    exact ih (hr.step hv) h h2 (h1 _ _ _ _ _ hp h3)

/-- The state before and after a step of an execution. -/
theorem run_split {B : Bodies σ} {env : Env} {l : BLabel} {ls : List BLabel} {w w' : BSt σ} (h : w.run B env ls = .some w')
    (hl : l ∈ ls) : ∃ a b v v', ls = a ++ l :: b ∧ w.run B env a = .some v ∧ v.step B env l = .some v' ∧ v'.run B env b = .some w' := by
  obtain ⟨a, b, rfl⟩ := List.append_of_mem hl
  rw [BSt.run_append] at h
  cases hv : w.run B env a with
  | none => rw [hv] at h; cases h
  | some v =>
    rw [hv] at h
    simp only [Option.bind_some, BSt.run] at h
    split at h
    · rename_i v' hs; exact ⟨a, b, v, v', rfl, hv, hs, h⟩
    · cases h

end DelayTimer
