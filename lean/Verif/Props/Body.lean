import Verif.Proofs.Body

/-!
# C68, C69: what the bodies of runs do
-/

namespace DelayTimer
open Spec

variable {σ : Type}

/-! ## C69 -/

/-- **C69** What a run has done is what its body does when it is left to itself, from its beginning on: nothing is left
out, repeated, or interchanged. -/
theorem C69_as_alone {B : Bodies σ} {env : Env} {w : BSt σ} (hr : w.Reachable B env) {id rtn n ts : Nat} {rec : Int}
    (hs : .started id rtn rec n ts ∈ w.base.log) : ∃ y, Goes B (B.start rtn) (effectsOf rec w.effects) y := by
  obtain ⟨r, h1, _, h2⟩ := (runLog hr.base).started _ _ _ _ _ hs
  cases hx : w.exec rec with
  | none => have := ((bodyOk hr).none rec hx).1; rw [h1] at this; cases this
  | some x =>
    obtain ⟨r', h3, h4, h5⟩ := ((bodyOk hr).some rec x hx).run
    rw [h1] at h3; cases h3
    rw [← h2]; exact h5.goes

/-- **C69** Only runs that were started do anything. -/
theorem C69_started {B : Bodies σ} {env : Env} {w : BSt σ} (hr : w.Reachable B env) {rec : Int}
    (he : effectsOf rec w.effects ≠ []) : ∃ id rtn n ts, .started id rtn rec n ts ∈ w.base.log := by
  cases hx : w.exec rec with
  | none => exact absurd ((bodyOk hr).none rec hx).2 he
  | some x =>
    obtain ⟨r, h3, _⟩ := ((bodyOk hr).some rec x hx).run
    obtain ⟨⟨n, ts, h1⟩, _⟩ := (rtOk hr.base).rt rec r h3
    exact ⟨_, _, n, ts, h1⟩

/-- **C69** A run that has come to its end has done all its body does. -/
theorem C69_ended {B : Bodies σ} {env : Env} {w : BSt σ} (hr : w.Reachable B env) {id : Nat} {rec : Int}
    (he : .bodyEnded id rec ∈ w.base.log) : ∃ rtn n ts y, .started id rtn rec n ts ∈ w.base.log ∧
      Goes B (B.start rtn) (effectsOf rec w.effects) y ∧ B.move y = .finish := by
  obtain ⟨r, h1, h2, h3⟩ := (runLog hr.base).ended _ _ he
  cases hx : w.exec rec with
  | none => have := ((bodyOk hr).none rec hx).1; rw [h1] at this; cases this
  | some x =>
    obtain ⟨r', h4, h5, h6⟩ := ((bodyOk hr).some rec x hx).run
    rw [h1] at h4; cases h4
    obtain ⟨⟨n, ts, h7⟩, _⟩ := (rtOk hr.base).rt rec r h1
    cases hp : x.place <;> rw [hp] at h6
    case over =>
      obtain ⟨y, g1, ⟨g2, g3, _⟩ | ⟨_, _, g2⟩⟩ := h6
      · exact ⟨r.routine, n, ts, y, h2 ▸ h7, g1, g2⟩
      · exact absurd he (g2 id)
    all_goals have := h6.2.1; rw [h3] at this; cases this

/-- **C69** A run that has panicked has done all its body does up to the panic. -/
theorem C69_panicked {B : Bodies σ} {env : Env} {w : BSt σ} (hr : w.Reachable B env) {id : Nat} {rec : Int}
    (he : .bodyPanicked id rec ∈ w.base.log) : ∃ rtn n ts y, .started id rtn rec n ts ∈ w.base.log ∧
      Goes B (B.start rtn) (effectsOf rec w.effects) y ∧ B.move y = .panic := by
  obtain ⟨r, h1, h2, h3⟩ := (runLog hr.base).panicked _ _ he
  cases hx : w.exec rec with
  | none => have := ((bodyOk hr).none rec hx).1; rw [h1] at this; cases this
  | some x =>
    obtain ⟨r', h4, h5, h6⟩ := ((bodyOk hr).some rec x hx).run
    rw [h1] at h4; cases h4
    obtain ⟨⟨n, ts, h7⟩, _⟩ := (rtOk hr.base).rt rec r h1
    cases hp : x.place <;> rw [hp] at h6
    case over =>
      obtain ⟨y, g1, ⟨_, _, g2⟩ | ⟨g2, g3, _⟩⟩ := h6
      · exact absurd he (g2 id)
      · exact ⟨r.routine, n, ts, y, h2 ▸ h7, g1, g2⟩
    all_goals
      have ha := h6.2.1
      have hb := h6.2.2
      rw [ha, hb] at h3
      split at h3 <;> cases h3

/-- **C69** A run is reported as finished only after its body has come to its end, by itself or, where a panic is caught
(synchronous functions on tokio), by a panic. -/
theorem C69_reported {B : Bodies σ} {env : Env} {w : BSt σ} (hr : w.Reachable B env) {id : Nat} {rec : Int}
    (he : .queued (.finish id rec) ∈ w.base.log) : ∃ rtn n ts y, .started id rtn rec n ts ∈ w.base.log ∧
      Goes B (B.start rtn) (effectsOf rec w.effects) y ∧
      (B.move y = .finish ∨ B.move y = .panic ∧ env.kind rtn = .syncFn ∧ env.runtime = .tokio) := by
  obtain ⟨r, h1, h2, h3⟩ := (runLog hr.base).reported _ _ he
  have hd := ((runLog hr.base).sent rec r h1 h3).2
  cases hx : w.exec rec with
  | none => have := ((bodyOk hr).none rec hx).1; rw [h1] at this; cases this
  | some x =>
    obtain ⟨r', h4, h5, h6⟩ := ((bodyOk hr).some rec x hx).run
    rw [h1] at h4; cases h4
    obtain ⟨⟨n, ts, h7⟩, _⟩ := (rtOk hr.base).rt rec r h1
    cases hp : x.place <;> rw [hp] at h6
    case over =>
      obtain ⟨y, g1, ⟨g2, _⟩ | ⟨g2, g3, _⟩⟩ := h6
      · exact ⟨r.routine, n, ts, y, h2 ▸ h7, g1, Or.inl g2⟩
      · refine ⟨r.routine, n, ts, y, h2 ▸ h7, g1, Or.inr ⟨g2, ?_⟩⟩
        obtain ⟨r', g4, _, g5⟩ := (runLog hr.base).panicked _ _ g3
        rw [h1] at g4; cases g4
        cases hk : env.kind r.routine <;> cases ht : env.runtime <;> rw [hk, ht] at g5
        case syncFn.tokio => exact ⟨rfl, rfl⟩
        all_goals
          have := (runLog hr.base).gone rec r h1 g5
          rw [hd] at this; cases this
    all_goals have := h6.2.1; rw [hd] at this; cases this

/-- **C69** After its end a run does nothing any more. -/
theorem C69_after {B : Bodies σ} {env : Env} {w w' : BSt σ} (hr : w.Reachable B env) {id : Nat} {rec : Int}
    (he : .bodyEnded id rec ∈ w.base.log ∨ .bodyPanicked id rec ∈ w.base.log) {ls : List BLabel} (h : w.run B env ls = some w') :
    effectsOf rec w'.effects = effectsOf rec w.effects := by
  have hx : ∃ x, w.exec rec = some x ∧ x.place = .over := by
    obtain ⟨r, h1, h3⟩ : ∃ r, w.base.rt rec = some r ∧ (r.bodyDone = true ∨ r.lost = true) := by
      rcases he with he | he
      · obtain ⟨r, h1, _, h3⟩ := (runLog hr.base).ended _ _ he; exact ⟨r, h1, Or.inl h3⟩
      · obtain ⟨r, h1, _, h3⟩ := (runLog hr.base).panicked _ _ he
        refine ⟨r, h1, ?_⟩
        split at h3
        · exact Or.inl h3
        · exact Or.inr h3
    cases hx : w.exec rec with
    | none => have := ((bodyOk hr).none rec hx).1; rw [h1] at this; cases this
    | some x =>
      obtain ⟨r', h4, h5, h6⟩ := ((bodyOk hr).some rec x hx).run
      rw [h1] at h4; cases h4
      refine ⟨x, rfl, ?_⟩
      cases hp : x.place <;> rw [hp] at h6
      all_goals
        have ha := h6.2.1
        have hb := h6.2.2
        rw [ha, hb] at h3
        rcases h3 with h3 | h3 <;> cases h3
  obtain ⟨x, hx, hp⟩ := hx
  refine (job_keep (P := fun x es => x.place = .over ∧ es = effectsOf rec w.effects) ?_ ls hr h hx ⟨hp, rfl⟩).elim fun _ h1 => h1.2.2
  intro l x es x' es' hp hj
  cases hj with
  | quit => cases env.runtime <;> exact hp
  | same | cancel | drop => exact hp
  | gone _ _ _ ho => exact absurd hp.1 ho
  | poll _ h | queued _ h | resumed _ h | effect _ h | await _ h | over _ h => rw [hp.1] at h; cases h

/-- The body of the run is at work, waits, or is waiting to be executed. -/
theorem unfinished {B : Bodies σ} {env : Env} {w : BSt σ} (hr : w.Reachable B env) {id rtn n ts : Nat} {rec : Int}
    (hs : .started id rtn rec n ts ∈ w.base.log) (he : .bodyEnded id rec ∉ w.base.log) (hp : .bodyPanicked id rec ∉ w.base.log) :
    ∃ x r, w.exec rec = some x ∧ x.routine = rtn ∧ x.place ≠ .over ∧ w.base.rt rec = some r ∧ r.taskId = id ∧
      r.routine = rtn := by
  obtain ⟨r, h1, h2, h3⟩ := (runLog hr.base).started _ _ _ _ _ hs
  cases hx : w.exec rec with
  | none => have := ((bodyOk hr).none rec hx).1; rw [h1] at this; cases this
  | some x =>
    obtain ⟨r', h4, h5, h6⟩ := ((bodyOk hr).some rec x hx).run
    rw [h1] at h4; cases h4
    refine ⟨x, r, rfl, h5.symm.trans h3, fun ho => ?_, h1, h2, h3⟩
    rw [ho] at h6
    obtain ⟨y, g1, ⟨_, g3, _⟩ | ⟨_, g3, _⟩⟩ := h6
    · exact he (h2 ▸ g3)
    · exact hp (h2 ▸ g3)

/-- A body that is being executed goes on, by steps of the runtime alone. -/
theorem go_active {B : Bodies σ} {env : Env} {rec : Int} {y z : σ} {es : List Nat} (hg : Goes B y es z) :
    ∀ {w : BSt σ} {x : Job σ}, w.exec rec = some x → x.place = .active y → (env.kind x.routine = .asyncFn → x.cancelled = false) →
      ∃ ls w' x', (∀ l ∈ ls, Only rec l) ∧ w.run B env ls = some w' ∧ w'.exec rec = some x' ∧ x'.place = .active z ∧
        effectsOf rec w'.effects = effectsOf rec w.effects ++ es := by
  induction hg with
  | refl y => intro w x hx hp hc; exact ⟨[], w, x, by simp, rfl, hx, hp, by simp⟩
  | @effect x0 z0 y0 e es hm hg ih =>
    intro w x hx hp hc
    obtain ⟨ls, w', x', h1, h2, h3, h4, h5⟩ := ih (w := ⟨w.base, setI w.exec rec (some { x with place := .active z0 }),
      (rec, e) :: w.effects⟩) (x := { x with place := .active z0 }) (setI_same _ _ _) rfl hc
    refine ⟨.move rec :: ls, w', x', ?_, ?_, h3, h4, ?_⟩
    · intro l hl
      rcases List.mem_cons.1 hl with rfl | hl
      · rfl
      · exact h1 l hl
    · simp only [BSt.run, BSt.step, BSt.moveStep, hx, hp, hm]; exact h2
    · rw [h5, effectsOf_self]; simp
  | @await x0 y0 k es v hm hg ih =>
    intro w x hx hp hc
    cases hk : env.kind x.routine with
    | asyncFn =>
      obtain ⟨ls, w', x', h1, h2, h3, h4, h5⟩ := ih (w := ⟨w.base, setI (setI (setI w.exec rec
          (some { x with place := .blocked k })) rec (some { x with place := .ready (k v) })) rec
          (some { x with place := .active (k v) }), w.effects⟩) (x := { x with place := .active (k v) }) (setI_same _ _ _) rfl hc
      refine ⟨.move rec :: .wake rec v :: .poll rec :: ls, w', x', ?_, ?_, h3, h4, h5⟩
      · intro l hl
        simp only [List.mem_cons] at hl
        rcases hl with rfl | rfl | rfl | hl
        · rfl
        · rfl
        · rfl
        · exact h1 l hl
      · simp only [BSt.run, BSt.step, BSt.moveStep, BSt.on, hx, hp, hm, setI_same, Job.wake, Job.poll, hk, hc hk, Option.map_some,
          Bool.false_eq_true, and_false, if_false]
        simp only [hc hk] at h2
        exact h2
    | syncFn =>
      obtain ⟨ls, w', x', h1, h2, h3, h4, h5⟩ := ih (w := ⟨w.base, setI (setI w.exec rec
          (some { x with place := .blocked k })) rec (some { x with place := .active (k v) }), w.effects⟩)
          (x := { x with place := .active (k v) }) (setI_same _ _ _) rfl hc
      refine ⟨.move rec :: .wake rec v :: ls, w', x', ?_, ?_, h3, h4, h5⟩
      · intro l hl
        simp only [List.mem_cons] at hl
        rcases hl with rfl | rfl | hl
        · rfl
        · rfl
        · exact h1 l hl
      · simp only [BSt.run, BSt.step, BSt.moveStep, BSt.on, hx, hp, hm, setI_same, Job.wake, hk, Option.map_some]
        exact h2

/-- A body that is not over, was not dropped, and is not part of a future that is marked, comes to its end by steps of
the runtime alone, whichever way it can go. -/
theorem goes_on {B : Bodies σ} {env : Env} {w : BSt σ} (hr : w.Reachable B env) {rec : Int} {x : Job σ} {r : RtInst}
    (hx : w.exec rec = some x) (hrt : w.base.rt rec = some r) (ho : x.place ≠ .over) (hn : x.place ≠ .gone)
    (hc : env.kind x.routine = .asyncFn → x.cancelled = false) :
    ∃ y, Goes B (B.start r.routine) (effectsOf rec w.effects) y ∧ ∀ es z, Goes B y es z → B.move z = .finish →
      ∃ ls w', (∀ l ∈ ls, Only rec l) ∧ w.run B env ls = some w' ∧
        effectsOf rec w'.effects = effectsOf rec w.effects ++ es ∧ .bodyEnded r.taskId rec ∈ w'.base.log := by
  obtain ⟨r', h1, h2, h3⟩ := ((bodyOk hr).some rec x hx).run
  rw [hrt] at h1; cases h1
  -- from a state in which it is executed
  have hgo : ∀ (pre : List BLabel) (w1 : BSt σ) (x1 : Job σ) (y z : σ) (es : List Nat), (∀ l ∈ pre, Only rec l) →
      w.run B env pre = some w1 → w1.exec rec = some x1 → x1.place = .active y → x1.routine = x.routine →
      x1.cancelled = x.cancelled → effectsOf rec w1.effects = effectsOf rec w.effects → w1.base = w.base →
      Goes B y es z → B.move z = .finish →
      ∃ ls w', (∀ l ∈ ls, Only rec l) ∧ w.run B env ls = some w' ∧
        effectsOf rec w'.effects = effectsOf rec w.effects ++ es ∧ .bodyEnded r.taskId rec ∈ w'.base.log := by
    intro pre w1 x1 y z es p1 p2 p3 p4 p5 p6 p7 p8 hg hf
    obtain ⟨ls, w2, x2, q1, q2, q3, q4, q5⟩ := go_active (B := B) (env := env) hg p3 p4 (by rw [p5, p6]; exact hc)
    have hr2 : w2.Reachable B env := by
      obtain ⟨l0, h0⟩ := hr
      exact ⟨l0 ++ (pre ++ ls), by rw [BSt.run_append, h0]; simp only [Option.bind_some]; rw [BSt.run_append, p2]; exact q2⟩
    obtain ⟨r2, g1, g2, g3⟩ := ((bodyOk hr2).some rec x2 q3).run
    rw [q4] at g3
    obtain ⟨_, g4, g5⟩ := g3
    have hid : r2.taskId = r.taskId := by
      obtain ⟨⟨n, ts, h4⟩, _⟩ := (rtOk hr.base).rt rec r hrt
      have h5 := BSt.run_induct (P := fun v : BSt σ => .started r.taskId r.routine rec n ts ∈ v.base.log)
        (fun _ _ _ _ hp hs => BSt.log_grows hs hp) (pre ++ ls) hr h4 (by rw [BSt.run_append, p2]; exact q2)
      obtain ⟨r3, h6, h7, _⟩ := (runLog hr2.base).started _ _ _ _ _ h5
      rw [g1] at h6; cases h6; exact h7
    obtain ⟨s', hb, hl⟩ : ∃ s', rBody w2.base rec = some s' ∧ .bodyEnded r.taskId rec ∈ s'.log := by
      simp only [rBody, g1, g4, g5, Bool.or_self, Bool.false_eq_true, if_false]
      exact ⟨_, rfl, by simp [hid]⟩
    refine ⟨pre ++ (ls ++ [.move rec]), ⟨s', setI w2.exec rec (some { x2 with place := .over }), w2.effects⟩, ?_, ?_, ?_, hl⟩
    rotate_left
    · rw [BSt.run_append, p2]; simp only [Option.bind_some]
      rw [BSt.run_append, q2]; simp only [Option.bind_some, BSt.run, BSt.step, BSt.moveStep, q3, q4, hf, hb, Option.map_some]
    · simp only [q5, p7]
    · intro l hl
      simp only [List.mem_append, List.mem_singleton] at hl
      rcases hl with hl | hl | rfl
      · exact p1 l hl
      · exact q1 l hl
      · rfl
  cases hp : x.place with
  | over => exact absurd hp ho
  | gone => exact absurd hp hn
  | ready y =>
    rw [hp] at h3
    refine ⟨y, h3.1, fun es z hg hf => ?_⟩
    refine hgo [.poll rec] { w with exec := setI w.exec rec (some { x with place := .active y }) } { x with place := .active y }
      y z es (by simp [Only]) ?_ (setI_same _ _ _) rfl rfl rfl rfl rfl hg hf
    have hnc : ¬ (env.kind x.routine = .asyncFn ∧ x.cancelled = true) := fun h => by rw [hc h.1] at h; exact absurd h.2 (by simp)
    simp only [BSt.run, BSt.step, BSt.on, hx, Job.poll, hp, if_neg hnc, Option.map_some]
  | active y =>
    rw [hp] at h3
    exact ⟨y, h3.1, fun es z hg hf => hgo [] w x y z es (by simp) rfl hx hp rfl rfl rfl rfl hg hf⟩
  | blocked k =>
    rw [hp] at h3
    obtain ⟨⟨y, h4, h5⟩, _⟩ := h3
    refine ⟨y, h4, fun es z hg hf => ?_⟩
    cases hg with
    | refl => rw [h5] at hf; cases hf
    | effect h _ => rw [h5] at h; cases h
    | await v h hg =>
      rw [h5] at h; cases h
      cases hk : env.kind x.routine with
      | asyncFn =>
        refine hgo [.wake rec v, .poll rec] { w with exec := setI (setI w.exec rec (some { x with place := .ready (k v) })) rec (some { x with place := .active (k v) }) } { x with place := .active (k v) }
          (k v) z es (by simp [Only]) ?_ (setI_same _ _ _) rfl rfl rfl rfl rfl hg hf
        simp only [BSt.run, BSt.step, BSt.on, hx, Job.wake, Job.poll, hp, hk, hc hk, setI_same, Option.map_some, Bool.false_eq_true,
          and_false, if_false]
      | syncFn =>
        refine hgo [.wake rec v] { w with exec := setI w.exec rec (some { x with place := .active (k v) }) }
          { x with place := .active (k v) } (k v) z es (by simp [Only]) ?_ (setI_same _ _ _) rfl rfl rfl rfl rfl hg hf
        simp only [BSt.run, BSt.step, BSt.on, hx, Job.wake, hp, hk, Option.map_some]

/-- **C69** A run that was not stopped is not disturbed: it can come to its end in every way its body can, by steps of
the runtime alone, and then has done all of it. -/
theorem C69_undisturbed {B : Bodies σ} {env : Env} {w : BSt σ} (hr : w.Reachable B env) {id rtn n ts : Nat} {rec : Int}
    (hs : .started id rtn rec n ts ∈ w.base.log) (he : .bodyEnded id rec ∉ w.base.log) (hp : .bodyPanicked id rec ∉ w.base.log)
    (hst : ∀ k, .stopped k rec ∉ w.base.log) :
    ∃ y, Goes B (B.start rtn) (effectsOf rec w.effects) y ∧ ∀ es z, Goes B y es z → B.move z = .finish →
      ∃ ls w', (∀ l ∈ ls, Only rec l) ∧ w.run B env ls = some w' ∧
        effectsOf rec w'.effects = effectsOf rec w.effects ++ es ∧ .bodyEnded id rec ∈ w'.base.log := by
  obtain ⟨x, r, h1, h2, h3, h4, rfl, rfl⟩ := unfinished hr hs he hp
  have hj := (bodyOk hr).some rec x h1
  have hnc : x.cancelled = false := by
    cases hc : x.cancelled with
    | false => rfl
    | true => obtain ⟨k, hk⟩ := hj.stop.2 (Or.inr hc); exact absurd hk (hst k)
  refine goes_on hr h1 h4 h3 (fun hg => ?_) (fun _ => hnc)
  have := hj.dropped (hj.gone hg)
  rw [hnc] at this; cases this

/-! ## C68 -/

/-- A future that is marked is not polled any more. -/
theorem marked_stays {B : Bodies σ} {env : Env} {rec : Int} : ∀ (ls : List BLabel) {w w' : BSt σ} {x : Job σ}, w.Reachable B env →
    w.run B env ls = some w' → w.exec rec = some x → env.kind x.routine = .asyncFn → x.cancelled = true →
    .poll rec ∉ ls ∧ ∃ es, effectsOf rec w'.effects = effectsOf rec w.effects ++ es ∧
      (es = [] ∨ ∃ y, Executing w rec y ∧ Stretch B y es) := by
  intro ls
  induction ls with
  | nil => intro w w' x _ h _ _ _; cases h; exact ⟨by simp, [], by simp, Or.inl rfl⟩
  | cons l ls ih =>
    intro w w' x hr h hx hk hc
    simp only [BSt.run] at h
    split at h
    case h_2 => cases h
    rename_i v hv
    obtain ⟨x', hx', hj⟩ := job_step hr hv hx
    generalize hfe : effectsOf rec v.effects = fe at hj
    have hrec : x'.routine = x.routine ∧ x'.cancelled = true := by
      cases hj
      case quit => cases env.runtime <;> exact ⟨rfl, by simp [Job.quit, hc]⟩
      all_goals exact ⟨rfl, by first | exact hc | rfl⟩
    obtain ⟨h1, es, h2, h3⟩ := ih (hr.step hv) h hx' (by rw [hrec.1]; exact hk) hrec.2
    have hpl : .poll rec ≠ l := by
      rintro rfl
      cases hj with
      | poll _ _ h => rw [hc] at h; exact absurd (h hk) (by simp)
      | same =>
        simp only [BSt.step, BSt.on, hx, Job.poll, hk, hc] at hv
        split at hv <;> simp at hv
      | quit h => cases h
      | queued h | resumed h | effect h | await h | over h | cancel h | drop h | gone h => cases h
    refine ⟨fun hm => (List.mem_cons.1 hm).elim hpl h1, ?_⟩
    have hex : ∀ y, Executing v rec y → x'.place = .active y := by
      rintro y ⟨j, hj1, hj2⟩; rw [hx'] at hj1; cases hj1; exact hj2
    rw [hfe] at h2
    cases hj with
    | effect hl hp hm =>
      refine ⟨_ :: es, by rw [h2]; simp, Or.inr ⟨_, ⟨x, hx, hp⟩, .effect hm ?_⟩⟩
      rcases h3 with rfl | ⟨y, h3, h4⟩
      · exact .nil _
      · have := hex y h3; cases this; exact h4
    | same | quit =>
      refine ⟨es, h2, h3.imp id fun ⟨y, h3, h4⟩ => ⟨y, ⟨x, hx, ?_⟩, h4⟩⟩
      first
        | exact hex y h3
        | (have := hex y h3; revert this; cases env.runtime <;> exact id)
    | cancel | drop =>
      exact ⟨es, h2, h3.imp id fun ⟨y, h3, h4⟩ => ⟨y, ⟨x, hx, hex y h3⟩, h4⟩⟩
    | poll hl => exact absurd hl.symm hpl
    | resumed _ _ hs => rw [hk] at hs; cases hs
    | queued | await | over | gone =>
      refine ⟨es, h2, Or.inl ?_⟩
      rcases h3 with h3 | ⟨y, h3, _⟩
      · exact h3
      · have := hex y h3; cases this

theorem stopped_job {B : Bodies σ} {env : Env} {w : BSt σ} (hr : w.Reachable B env) {id rtn n ts : Nat} {rec : Int}
    (hs : .started id rtn rec n ts ∈ w.base.log) : ∃ x, w.exec rec = some x ∧ x.routine = rtn := by
  obtain ⟨r, h1, h2, h3⟩ := (runLog hr.base).started _ _ _ _ _ hs
  cases hx : w.exec rec with
  | none => have := ((bodyOk hr).none rec hx).1; rw [h1] at this; cases this
  | some x =>
    obtain ⟨r', h4, h5, _⟩ := ((bodyOk hr).some rec x hx).run
    rw [h1] at h4; cases h4
    exact ⟨x, rfl, h5.symm.trans h3⟩

/-- **C68** On tokio, stopping a run of an asynchronous function stops it: if a thread is just executing it, it may go on
to the next place where it waits, and after that it does nothing any more. -/
theorem C68_tokio_partial {B : Bodies σ} {env : Env} {w w' : BSt σ} (hr : w.Reachable B env) {id rtn n ts : Nat} {rec : Int}
    (hs : .started id rtn rec n ts ∈ w.base.log) (ha : env.kind rtn = .asyncFn) (hrt : env.runtime = .tokio) {k : Nat}
    (hst : .stopped k rec ∈ w.base.log) {ls : List BLabel} (h : w.run B env ls = some w') :
    .poll rec ∉ ls ∧ ∃ es, effectsOf rec w'.effects = effectsOf rec w.effects ++ es ∧
      (es = [] ∨ ∃ y, Executing w rec y ∧ Stretch B y es) := by
  obtain ⟨x, h1, rfl⟩ := stopped_job hr hs
  have hj := (bodyOk hr).some rec x h1
  refine marked_stays ls hr h h1 ha ?_
  rcases hj.stop.1 ⟨k, hst⟩ with h2 | h2
  · rw [hj.tokio hrt] at h2; cases h2
  · exact h2

/-- A body whose task was cancelled is marked as such ever after. -/
theorem cancel_marks {B : Bodies σ} {env : Env} {w : BSt σ} {rec : Int} {pre : List BLabel}
    (h : (BSt.init σ env).run B env pre = some w) (hc : .cancel rec ∈ pre) : ∃ x, w.exec rec = some x ∧ x.cancelled = true := by
  obtain ⟨a, b, v, v', rfl, h1, h2, h3⟩ := run_split h hc
  have hr : v.Reachable B env := ⟨a, h1⟩
  obtain ⟨y, z, h4, h5, rfl⟩ := on_some (env := env) (f := fun _ => Job.cancel) h2
  refine job_keep (P := fun x _ => x.cancelled = true) ?_ b (hr.step h2) h3 (setI_same _ _ _) ?_
  · intro l x es x' es' hp hj
    cases hj
    case quit => cases env.runtime <;> simp [Job.quit, hp]
    all_goals first | exact hp | rfl
  · simp only [Job.cancel] at h5
    split at h5
    · cases h5; rfl
    · cases h5

/-- On smol only the task spawned by `quit` marks it. -/
theorem marks_cancel {B : Bodies σ} {env : Env} {w : BSt σ} {rec : Int} {pre : List BLabel} (hrt : env.runtime = .smol)
    (h : (BSt.init σ env).run B env pre = some w) (hc : .cancel rec ∉ pre) {x : Job σ} (hx : w.exec rec = some x) :
    x.cancelled = false := by
  refine job_induct (P := fun x _ => x.cancelled = false) (Q := fun l => l ≠ .cancel rec) (fun _ => rfl) ?_ pre ⟨[], rfl⟩ h
    (fun l hl he => hc (he ▸ hl)) (fun x hx => by cases hx) x hx
  intro l x es x' es' hq hp hj
  cases hj
  case quit => rw [hrt]; exact hp
  case cancel hl _ => exact absurd hl hq
  all_goals exact hp

/-- **C68** On smol it is stopped the same way, but only once the task spawned by `quit` has run. -/
theorem C68_smol_partial {B : Bodies σ} {env : Env} {w w' : BSt σ} {pre : List BLabel}
    (hpre : (BSt.init σ env).run B env pre = some w) {id rtn n ts : Nat} {rec : Int}
    (hs : .started id rtn rec n ts ∈ w.base.log) (ha : env.kind rtn = .asyncFn) (hc : .cancel rec ∈ pre)
    {ls : List BLabel} (h : w.run B env ls = some w') :
    .poll rec ∉ ls ∧ ∃ es, effectsOf rec w'.effects = effectsOf rec w.effects ++ es ∧
      (es = [] ∨ ∃ y, Executing w rec y ∧ Stretch B y es) := by
  have hr : w.Reachable B env := ⟨pre, hpre⟩
  obtain ⟨x, h1, rfl⟩ := stopped_job hr hs
  obtain ⟨x', h2, h3⟩ := cancel_marks hpre hc
  rw [h1] at h2; cases h2
  exact marked_stays ls hr h h1 ha h3

/-- **C68** From the moment a run is stopped on, that task can run. -/
theorem C68_smol_cancel {B : Bodies σ} {env : Env} {w : BSt σ} {pre : List BLabel}
    (hpre : (BSt.init σ env).run B env pre = some w) (hrt : env.runtime = .smol) {id rtn n ts : Nat} {rec : Int}
    (hs : .started id rtn rec n ts ∈ w.base.log) {k : Nat} (hst : .stopped k rec ∈ w.base.log) (hc : .cancel rec ∉ pre) :
    ∃ w', w.step B env (.cancel rec) = some w' := by
  have hr : w.Reachable B env := ⟨pre, hpre⟩
  obtain ⟨x, h1, rfl⟩ := stopped_job hr hs
  have h2 := marks_cancel hrt hpre hc h1
  have h3 : x.quitting = true := (((bodyOk hr).some rec x h1).stop.1 ⟨k, hst⟩).resolve_right (by rw [h2]; simp)
  exact ⟨_, by simp only [BSt.step, BSt.on, h1, Job.cancel, h3, if_true, Option.map_some]; rfl⟩

/-- **C68** is false on smol as it stands: until that task has run, a run that was stopped goes on as if it had not been,
to every end its body can come to, however far that is. -/
theorem C68_smol_late {B : Bodies σ} {env : Env} {w : BSt σ} {pre : List BLabel}
    (hpre : (BSt.init σ env).run B env pre = some w) (hrt : env.runtime = .smol) {id rtn n ts : Nat} {rec : Int}
    (hs : .started id rtn rec n ts ∈ w.base.log) (he : .bodyEnded id rec ∉ w.base.log) (hp : .bodyPanicked id rec ∉ w.base.log)
    (hc : .cancel rec ∉ pre) :
    ∃ y, Goes B (B.start rtn) (effectsOf rec w.effects) y ∧ ∀ es z, Goes B y es z → B.move z = .finish →
      ∃ ls w', (∀ l ∈ ls, Only rec l) ∧ w.run B env ls = some w' ∧
        effectsOf rec w'.effects = effectsOf rec w.effects ++ es ∧ .bodyEnded id rec ∈ w'.base.log := by
  have hr : w.Reachable B env := ⟨pre, hpre⟩
  obtain ⟨x, r, h1, h2, h3, h4, rfl, rfl⟩ := unfinished hr hs he hp
  have hnc := marks_cancel hrt hpre hc h1
  have hj := (bodyOk hr).some rec x h1
  refine goes_on hr h1 h4 h3 (fun hg => ?_) (fun _ => hnc)
  have := hj.dropped (hj.gone hg)
  rw [hnc] at this; cases this

/-- A blocking job that was begun is not dropped. -/
theorem begun_stays {B : Bodies σ} {env : Env} {w : BSt σ} {rec : Int} {pre : List BLabel}
    (h : (BSt.init σ env).run B env pre = some w) (hc : .poll rec ∈ pre) {x : Job σ} (hx : w.exec rec = some x)
    (hk : env.kind x.routine = .syncFn) : x.place ≠ .gone := by
  obtain ⟨a, b, v, v', rfl, h1, h2, h3⟩ := run_split h hc
  have hr : v.Reachable B env := ⟨a, h1⟩
  obtain ⟨y, z, h4, h5, rfl⟩ := on_some (f := Job.poll) h2
  have h6 : ∃ c, z.place = .active c := by
    simp only [Job.poll] at h5
    split at h5
    · split at h5
      · cases h5
      · cases h5; exact ⟨_, rfl⟩
    · cases h5
  obtain ⟨x', h7, h8⟩ := job_keep (P := fun x _ => env.kind x.routine = .syncFn → x.place ≠ .gone ∧ ∀ y, x.place ≠ .ready y)
    (by
      intro l x es x' es' hp hj
      cases hj with
      | quit => cases env.runtime <;> exact hp
      | same | cancel | drop => exact hp
      | queued _ _ hk => intro hk'; rw [show env.kind x.routine = .syncFn from hk'] at hk; cases hk
      | gone _ _ ha => intro hk'; obtain ⟨y, h9, _⟩ := ha hk'; exact absurd h9 ((hp hk').2 y)
      | poll | resumed | effect | await | over => intro _; exact ⟨by simp, by simp⟩)
    b (hr.step h2) h3 (setI_same _ _ _) (by obtain ⟨c, h6⟩ := h6; intro _; rw [h6]; exact ⟨by simp, by simp⟩)
  rw [hx] at h7; cases h7
  exact (h8 hk).1

/-- On tokio, blocking jobs are not dropped at all. -/
theorem detached_stays {B : Bodies σ} {env : Env} {w : BSt σ} {rec : Int} (hr : w.Reachable B env) (hrt : env.runtime = .tokio)
    {x : Job σ} (hx : w.exec rec = some x) (hk : env.kind x.routine = .syncFn) : x.place ≠ .gone := by
  obtain ⟨pre, h⟩ := hr
  refine job_induct (P := fun x _ => env.kind x.routine = .syncFn → x.place ≠ .gone) (Q := fun _ => True) (fun _ _ => by simp) ?_ pre
    ⟨[], rfl⟩ h (fun _ _ => trivial) (fun x hx => by cases hx) x hx hk
  intro l x es x' es' _ hp hj
  cases hj with
  | quit => cases env.runtime <;> exact hp
  | same | cancel | drop => exact hp
  | gone _ _ ha => intro hk'; obtain ⟨y, _, h9⟩ := ha hk'; rw [hrt] at h9; cases h9
  | poll | queued | resumed | effect | await | over => intro _; simp

/-- **C68** is false for synchronous functions: stopping a run does not reach its body. On smol that holds once the body
was begun; on tokio it holds in any case, so that a body may even begin after its run was stopped. It goes on to every
end it can come to. -/
theorem C68_sync_late {B : Bodies σ} {env : Env} {w : BSt σ} {pre : List BLabel}
    (hpre : (BSt.init σ env).run B env pre = some w) {id rtn n ts : Nat} {rec : Int}
    (hs : .started id rtn rec n ts ∈ w.base.log) (hk : env.kind rtn = .syncFn) (he : .bodyEnded id rec ∉ w.base.log)
    (hp : .bodyPanicked id rec ∉ w.base.log) (hb : env.runtime = .tokio ∨ .poll rec ∈ pre) :
    ∃ y, Goes B (B.start rtn) (effectsOf rec w.effects) y ∧ ∀ es z, Goes B y es z → B.move z = .finish →
      ∃ ls w', (∀ l ∈ ls, Only rec l) ∧ w.run B env ls = some w' ∧
        effectsOf rec w'.effects = effectsOf rec w.effects ++ es ∧ .bodyEnded id rec ∈ w'.base.log := by
  have hr : w.Reachable B env := ⟨pre, hpre⟩
  obtain ⟨x, r, h1, h2, h3, h4, rfl, rfl⟩ := unfinished hr hs he hp
  refine goes_on hr h1 h4 h3 ?_ (fun ha => ?_)
  · rcases hb with hb | hb
    · exact detached_stays hr hb h1 (by rw [h2]; exact hk)
    · exact begun_stays hpre hb h1 (by rw [h2]; exact hk)
  · rw [h2, hk] at ha; cases ha

/-- Once dropped, a future stays so. -/
theorem reaped {B : Bodies σ} {env : Env} {w : BSt σ} {pre : List BLabel} (hpre : (BSt.init σ env).run B env pre = some w)
    {rec : Int} (hc : .reap rec ∈ pre) : ∃ x, w.exec rec = some x ∧ x.dropped = true := by
  obtain ⟨a, b, v, v', rfl, h1, h2, h3⟩ := run_split hpre hc
  have hv : v.Reachable B env := ⟨a, h1⟩
  obtain ⟨y, z, h4, h5, rfl⟩ := on_some (f := Job.reap env.runtime) h2
  refine job_keep (P := fun x _ => x.dropped = true) ?_ b (hv.step h2) h3 (setI_same _ _ _) ?_
  · intro l x es x' es' hp hj
    cases hj
    case quit => cases env.runtime <;> exact hp
    all_goals first | exact hp | rfl
  · simp only [Job.reap] at h5
    split at h5
    · split at h5 <;> cases h5 <;> rfl
    · cases h5

/-- The completion of a run is reported by its future and by nothing else. -/
theorem reports {B : Bodies σ} {env : Env} {w w' : BSt σ} {l : BLabel} (h : w.step B env l = some w') {id : Nat} {rec : Int}
    (ho : .queued (.finish id rec) ∈ w'.base.log) : .queued (.finish id rec) ∈ w.base.log ∨ ∃ now, l = .base (.rFinish rec now) := by
  have hm : ∀ {m : Label}, DelayTimer.step env w.base m = some w'.base →
      .queued (.finish id rec) ∈ w.base.log ∨ ∃ now, m = .rFinish rec now := by
    intro m hs
    rcases log_cases (step_act hs) with ⟨news, h1, h2, _⟩ | ⟨p, t, r, box, _, _, _, _, h1, _⟩ |
      ⟨e, _, h1, h2⟩ | ⟨u, now, n, _, _, _, h1⟩ | ⟨r, x, _, _, h1, _⟩
    · rw [h1, List.mem_append] at ho
      rcases ho with ho | ho
      · exact (h2 _ ho).elim
      · exact Or.inl ho
    · rw [h1] at ho; exact Or.inl (by simpa using ho)
    · rw [h1] at ho
      rcases List.mem_cons.1 ho with ho | ho
      · rcases h2 with ⟨p, t, box, _, _, rfl⟩ | ⟨r, now, x, rfl, _, _, _, rfl⟩ | ⟨op, _, rfl⟩ | ⟨t, c, _, rfl⟩ | ⟨v, i, _, rfl⟩
        · cases ho
        · simp only [TimerEvent.tag, Obs.queued.injEq, Tag.finish.injEq] at ho
          obtain ⟨_, rfl⟩ := ho
          exact Or.inr ⟨now, rfl⟩
        · cases op <;> cases ho
        · cases ho
        · cases ho
      · exact Or.inl ho
    · rw [h1] at ho; exact Or.inl (by simpa using ho)
    · rw [h1] at ho; exact Or.inl (by simpa using ho)
  have hs : w'.base = w.base → .queued (.finish id rec) ∈ w.base.log ∨ ∃ now, l = .base (.rFinish rec now) :=
    fun he => Or.inl (he ▸ ho)
  cases l with
  | base m =>
    simp only [BSt.step, BSt.baseStep] at h
    split at h
    · rw [Option.map_eq_some_iff] at h; obtain ⟨s, h1, rfl⟩ := h
      rcases hm h1 with h2 | ⟨now, rfl⟩
      · exact Or.inl h2
      · exact Or.inr ⟨now, rfl⟩
    · cases h
  | poll r => obtain ⟨_, _, _, _, rfl⟩ := on_some (f := Job.poll) h; exact hs rfl
  | wake r v => obtain ⟨_, _, _, _, rfl⟩ := on_some (f := fun k => Job.wake k v) h; exact hs rfl
  | cancel r => obtain ⟨_, _, _, _, rfl⟩ := on_some (env := env) (f := fun _ => Job.cancel) h; exact hs rfl
  | reap r => obtain ⟨_, _, _, _, rfl⟩ := on_some (f := Job.reap env.runtime) h; exact hs rfl
  | move r =>
    simp only [BSt.step, BSt.moveStep] at h
    split at h
    · split at h
      · split at h
        · cases h; exact Or.inl ho
        · cases h; exact Or.inl ho
        · rw [Option.map_eq_some_iff] at h; obtain ⟨s, h1, rfl⟩ := h
          exact (hm (m := .rBody r) h1).imp (fun h => h) (fun ⟨_, he⟩ => nomatch he)
        · rw [Option.map_eq_some_iff] at h; obtain ⟨s, h1, rfl⟩ := h
          exact (hm (m := .rPanic r) h1).imp (fun h => h) (fun ⟨_, he⟩ => nomatch he)
      · cases h
    · cases h

/-- **C68** A run whose future was dropped never reports its completion, even if its body (that of a synchronous
function, see `C68_sync_late`) goes on and returns. -/
theorem C68_silent {B : Bodies σ} {env : Env} {w w' : BSt σ} {pre ls : List BLabel}
    (hpre : (BSt.init σ env).run B env pre = some w) {rec : Int} (hc : .reap rec ∈ pre) (h : w.run B env ls = some w') :
    (∀ now, .base (.rFinish rec now) ∉ ls) ∧
    ∀ id, .queued (.finish id rec) ∈ w'.base.log → .queued (.finish id rec) ∈ w.base.log := by
  induction ls generalizing w pre with
  | nil => cases h; exact ⟨by simp, fun _ h => h⟩
  | cons l ls ih =>
    simp only [BSt.run] at h
    split at h
    case h_2 => cases h
    rename_i v hv
    obtain ⟨x, hx, hd⟩ := reaped hpre hc
    have hn : ∀ now, l ≠ .base (.rFinish rec now) := by
      rintro now rfl
      simp [BSt.step, BSt.baseStep, BSt.allows, hx, hd] at hv
    have hp : (BSt.init σ env).run B env (pre ++ [l]) = some v := by
      rw [BSt.run_append, hpre]; simp [BSt.run, hv]
    obtain ⟨h1, h2⟩ := ih hp (List.mem_append_left _ hc) h
    refine ⟨fun now hm => ?_, fun id ho => ?_⟩
    · rcases List.mem_cons.1 hm with he | hm
      · exact hn now he.symm
      · exact h1 now hm
    · rcases reports hv (h2 id ho) with h3 | ⟨now, h3⟩
      · exact h3
      · exact absurd h3 (hn now)

/-- **C68** On smol, the body of a synchronous function that is dropped before it was begun does nothing at all. -/
theorem C68_smol_sync_partial {B : Bodies σ} {env : Env} {w w' : BSt σ} {pre ls : List BLabel}
    (hpre : (BSt.init σ env).run B env pre = some w) (hrt : env.runtime = .smol) {rec : Int} (hc : .reap rec ∈ pre)
    (hb : .poll rec ∉ pre) (h : w.run B env ls = some w') : .poll rec ∉ ls ∧ effectsOf rec w'.effects = [] := by
  have hr : w.Reachable B env := ⟨pre, hpre⟩
  obtain ⟨x, hx, hd⟩ := reaped hpre hc
  have h6 : x.place = .gone ∧ effectsOf rec w.effects = [] := by
    have := job_induct (P := fun x es => es = [] ∧ ((∃ y, x.place = .ready y ∧ x.dropped = false) ∨ x.place = .gone))
      (Q := fun l => l ≠ .poll rec) (B := B) (env := env) (rec := rec) (fun rtn => ⟨rfl, Or.inl ⟨_, rfl, rfl⟩⟩) ?_ pre ⟨[], rfl⟩ hpre
      (fun l hl he => hb (he ▸ hl)) (fun x hx => by cases hx) x hx
    · obtain ⟨h7, ⟨y, _, h8⟩ | h8⟩ := this
      · rw [hd] at h8; cases h8
      · exact ⟨h8, h7⟩
    · intro l x es x' es' hq hp hj
      obtain ⟨hp1, hp⟩ := hp
      have hno : ∀ {p : Place σ}, x.place = p → (∀ y, p ≠ .ready y) → p ≠ .gone → False := by
        rintro p rfl h1 h2
        rcases hp with ⟨y, h3, _⟩ | h3
        · exact h1 y h3
        · exact h2 h3
      cases hj with
      | quit => cases env.runtime <;> exact ⟨hp1, hp⟩
      | same | cancel => exact ⟨hp1, hp⟩
      | drop _ _ hn hr =>
        refine ⟨hp1, Or.inr (hp.resolve_left ?_)⟩
        rintro ⟨y, h1, _⟩
        have := hr y h1
        rw [hrt] at this; cases this
      | gone => exact ⟨hp1, Or.inr rfl⟩
      | poll hl => exact absurd hl hq
      | queued _ h | resumed _ h | effect _ h | await _ h | over _ h => exact (hno h (by simp) (by simp)).elim
  clear hd hc hb hpre
  induction ls generalizing w x with
  | nil => cases h; exact ⟨by simp, h6.2⟩
  | cons l ls ih =>
    simp only [BSt.run] at h
    split at h
    case h_2 => cases h
    rename_i v hv
    obtain ⟨x', hx', hj⟩ := job_step hr hv hx
    generalize hfe : effectsOf rec v.effects = fe at hj
    have h7 : x'.place = .gone ∧ fe = [] := by
      cases hj with
      | quit => cases env.runtime <;> exact h6
      | same | cancel | drop => exact h6
      | gone => exact ⟨rfl, h6.2⟩
      | poll _ h | queued _ h | resumed _ h | effect _ h | await _ h | over _ h => rw [h6.1] at h; cases h
    have h8 := ih h (hr.step hv) x' hx' ⟨h7.1, hfe.trans h7.2⟩
    refine ⟨fun hm => ?_, h8.2⟩
    rcases List.mem_cons.1 hm with rfl | hm
    · simp only [BSt.step, BSt.on, hx, Job.poll, h6.1] at hv
      cases hv
    · exact h8.1 hm

/-! ## Examples -/

namespace Ex

/-- A body that says `n`, waits and starts again with the next number, until it is told otherwise. -/
def counter : Bodies (Nat × Nat) where
  start := fun _ => (0, 0)
  move := fun x =>
    match x with
    | (n, 0) => .effect n (n, 1)
    | (n, 1) => .await fun v => if v = 0 then (n + 1, 0) else (n, v + 1)
    | (_, 2) => .finish
    | _ => .panic

def playB (env : Env) (ls : List BLabel) : BSt (Nat × Nat) := ((BSt.init _ env).run counter env ls).getD (BSt.init _ env)

theorem playB_run {env : Env} {ls : List BLabel} (h : ((BSt.init _ env).run counter env ls).isSome = true) :
    (BSt.init _ env).run counter env ls = some (playB env ls) := by
  obtain ⟨w, hw⟩ := Option.isSome_iff_exists.1 h
  rw [playB, hw]; rfl

/-- Task 1 is run, as run 0, and the handle of the run registered. -/
def begun : List BLabel := (add (every 1 101 5000) ++ idle ++ idle ++ fire 1 0 ++ [Label.eRecv]).map .base

/-- The run says 0 and waits. -/
def said : List BLabel := [.poll 0, .move 0, .move 0]

/-- It is cancelled by the user. -/
def halt : List BLabel := [.base (.uSend (.cancel 1 0)), .base .eRecv]

def envFut : Env := { env0 with runtime := .smol }
def envJob : Env := { env0 with kind := fun _ => .syncFn }
def envJobSmol : Env := { env0 with kind := fun _ => .syncFn, runtime := .smol }

/-- However long, the counter can go on. -/
theorem counter_goes (m n : Nat) : Goes counter (n, 1) (List.range' (n + 1) m) (n + m, 2) := by
  induction m generalizing n with
  | zero => exact .await 1 rfl (.refl _)
  | succ m ih =>
    have h := ih (n + 1)
    rw [show n + 1 + m = n + (m + 1) by omega] at h
    exact .await 0 rfl (.effect rfl h)

/-- C69: a run that says 0, 1, 2 and ends; then its end is reported; after that, nothing more. A second one panics. -/
example : .started 1 1 0 2 102 ∈ (playB env0 (begun ++ said)).base.log ∧ effectsOf 0 (playB env0 (begun ++ said)).effects = [0] ∧
    .bodyEnded 1 0 ∈ (playB env0 (begun ++ said ++ [.wake 0 0, .poll 0, .move 0, .move 0, .wake 0 1, .poll 0, .move 0])).base.log ∧
    effectsOf 0 (playB env0 (begun ++ said ++ [.wake 0 0, .poll 0, .move 0, .move 0, .wake 0 1, .poll 0, .move 0])).effects = [0, 1] ∧
    .queued (.finish 1 0) ∈ (playB env0 (begun ++ said ++
      [.wake 0 0, .poll 0, .move 0, .move 0, .wake 0 1, .poll 0, .move 0, .base (.rFinish 0 0)])).base.log ∧
    .bodyPanicked 1 0 ∈ (playB env0 (begun ++ said ++ [.wake 0 2, .poll 0, .move 0])).base.log := by
  refine ⟨by decide +kernel, by decide +kernel, by decide +kernel, by decide +kernel, by decide +kernel, by decide +kernel⟩

/-- C69, `C69_undisturbed`: having said 0, the run can go on. -/
example : .bodyEnded 1 0 ∉ (playB env0 (begun ++ said)).base.log ∧ .bodyPanicked 1 0 ∉ (playB env0 (begun ++ said)).base.log ∧
    (∀ k, .stopped k 0 ∉ (playB env0 (begun ++ said)).base.log) ∧ Goes counter (0, 1) [1, 2, 3] (3, 2) := by
  refine ⟨by decide +kernel, by decide +kernel, fun k hk => ?_, counter_goes 3 0⟩
  have : (playB env0 (begun ++ said)).base.log.all (fun o => match o with | .stopped _ _ => false | _ => true) = true := by
    decide +kernel
  have := List.all_eq_true.1 this _ hk
  cases this

/-- C68, `C68_tokio_partial`: the run is stopped while it is being executed, and still says 0. -/
example : .started 1 1 0 2 102 ∈ (playB env0 (begun ++ [.poll 0] ++ halt)).base.log ∧ env0.kind 1 = .asyncFn ∧
    .stopped 1 0 ∈ (playB env0 (begun ++ [.poll 0] ++ halt)).base.log ∧
    ((BSt.init _ env0).run counter env0 (begun ++ [.poll 0] ++ halt ++ [.move 0, .move 0, .wake 0 0, .reap 0])).isSome = true ∧
    effectsOf 0 (playB env0 (begun ++ [.poll 0] ++ halt)).effects = [] ∧
    effectsOf 0 (playB env0 (begun ++ [.poll 0] ++ halt ++ [.move 0, .move 0, .wake 0 0, .reap 0])).effects = [0] ∧
    ((BSt.init _ env0).run counter env0 (begun ++ [.poll 0] ++ halt ++ [.move 0, .move 0, .wake 0 0, .poll 0])).isSome = false := by
  refine ⟨by decide +kernel, rfl, by decide +kernel, by decide +kernel, by decide +kernel, by decide +kernel, by decide +kernel⟩

/-- C68, `C68_smol_partial`, `C68_smol_cancel`, `C68_smol_late`: on smol the stopped run goes on until it is cancelled. -/
example : envFut.runtime = .smol ∧ .started 1 1 0 2 102 ∈ (playB envFut (begun ++ said ++ halt)).base.log ∧
    .stopped 1 0 ∈ (playB envFut (begun ++ said ++ halt)).base.log ∧ .cancel 0 ∉ begun ++ said ++ halt ∧
    .bodyEnded 1 0 ∉ (playB envFut (begun ++ said ++ halt)).base.log ∧
    .bodyPanicked 1 0 ∉ (playB envFut (begun ++ said ++ halt)).base.log ∧
    effectsOf 0 (playB envFut (begun ++ said ++ halt ++ [.wake 0 0, .poll 0, .move 0, .move 0])).effects = [0, 1] ∧
    ((BSt.init _ envFut).run counter envFut (begun ++ said ++ halt ++ [.cancel 0, .wake 0 0, .reap 0])).isSome = true ∧
    ((BSt.init _ envFut).run counter envFut (begun ++ said ++ halt ++ [.cancel 0, .wake 0 0, .poll 0])).isSome = false := by
  refine ⟨rfl, by decide +kernel, by decide +kernel, by simp [begun, said, halt], by decide +kernel, by decide +kernel,
    by decide +kernel, by decide +kernel, by decide +kernel⟩

/-- C68, `C68_smol_sync_partial`: on smol a job that is dropped before it was begun is not begun any more. -/
example : ((BSt.init _ envJobSmol).run counter envJobSmol (begun ++ halt ++ [.cancel 0, .reap 0])).isSome = true ∧
    .poll 0 ∉ begun ++ halt ++ [.cancel 0, .reap 0] ∧
    ((BSt.init _ envJobSmol).run counter envJobSmol (begun ++ halt ++ [.cancel 0, .reap 0, .poll 0])).isSome = false ∧
    ((BSt.init _ envJobSmol).run counter envJobSmol (begun ++ [.poll 0] ++ halt ++ [.cancel 0, .reap 0, .move 0])).isSome = true := by
  refine ⟨by decide +kernel, by simp [begun, halt], by decide +kernel, by decide +kernel⟩

/-- C68, `C68_silent`: on tokio the body of a synchronous function goes on after its future was dropped, says 0 and
returns; there is nothing to report that. -/
example : .bodyEnded 1 0 ∈ (playB envJob (begun ++ [.poll 0] ++ halt ++ [.reap 0, .move 0, .move 0, .wake 0 1, .move 0])).base.log ∧
    effectsOf 0 (playB envJob (begun ++ [.poll 0] ++ halt ++ [.reap 0, .move 0, .move 0, .wake 0 1, .move 0])).effects = [0] ∧
    ((BSt.init _ envJob).run counter envJob
      (begun ++ [.poll 0] ++ halt ++ [.reap 0, .move 0, .move 0, .wake 0 1, .move 0, .base (.rFinish 0 0)])).isSome = false ∧
    ((BSt.init _ envJob).run counter envJob
      (begun ++ [.poll 0] ++ halt ++ [.move 0, .move 0, .wake 0 1, .move 0, .base (.rFinish 0 0)])).isSome = true := by
  refine ⟨by decide +kernel, by decide +kernel, by decide +kernel, by decide +kernel⟩

theorem counter_all (m : Nat) : Goes counter (0, 0) (List.range' 0 (m + 1)) (m, 2) := by
  have := counter_goes m 0
  rw [show 0 + m = m by omega] at this
  exact .effect rfl this

/-- On smol: being executed, run 0 was stopped. -/
def late : BSt (Nat × Nat) := playB envFut (begun ++ [.poll 0] ++ halt)

/-- On tokio, and the body is synchronous: run 0 was stopped before its body was begun. -/
def later : BSt (Nat × Nat) := playB envJob (begun ++ halt ++ [.poll 0])

end Ex

/-- **C68** is false on smol: a run that was stopped can do as much as one likes, and wait in between, before it is
cancelled. -/
theorem C68_smol_false (m : Nat) : Ex.late.Reachable Ex.counter Ex.envFut ∧ .stopped 1 0 ∈ Ex.late.base.log ∧
    effectsOf 0 Ex.late.effects = [] ∧ ∃ ls w', Ex.late.run Ex.counter Ex.envFut ls = some w' ∧
    effectsOf 0 w'.effects = List.range' 0 (m + 1) := by
  refine ⟨⟨_, Ex.playB_run (by decide +kernel)⟩, by decide +kernel, by decide +kernel, ?_⟩
  obtain ⟨ls, w', x', _, h1, _, _, h2⟩ := go_active (env := Ex.envFut) (Ex.counter_all m) (w := Ex.late) (rec := 0)
    (x := { routine := 1, place := .active (0, 0), quitting := true }) (by rfl) rfl (fun _ => rfl)
  exact ⟨ls, w', h1, h2⟩

/-- **C68** is false for synchronous functions: a body can be begun after its run was stopped, and do as much as one
likes. -/
theorem C68_sync_false (m : Nat) : Ex.later.Reachable Ex.counter Ex.envJob ∧ .stopped 1 0 ∈ Ex.later.base.log ∧
    effectsOf 0 Ex.later.effects = [] ∧ ∃ ls w', Ex.later.run Ex.counter Ex.envJob ls = some w' ∧
    effectsOf 0 w'.effects = List.range' 0 (m + 1) := by
  refine ⟨⟨_, Ex.playB_run (by decide +kernel)⟩, by decide +kernel, by decide +kernel, ?_⟩
  obtain ⟨ls, w', x', _, h1, _, _, h2⟩ := go_active (env := Ex.envJob) (Ex.counter_all m) (w := Ex.later) (rec := 0)
    (x := { routine := 1, place := .active (0, 0), cancelled := true }) (by rfl) rfl (fun h => by cases h)
  exact ⟨ls, w', h1, h2⟩

end DelayTimer
