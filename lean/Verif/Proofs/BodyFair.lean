import Verif.Spec.BodyFair
import Verif.Proofs.Body
import Verif.Proofs.Fair

/-! Executions of the system with its bodies that never end: what the system does in them, and what fairness gives. -/

namespace DelayTimer
open Spec

variable {σ : Type}

/-! ## The system alone -/

/-- The step of the system in a step of the whole. -/
def lower (B : Bodies σ) (w : BSt σ) : BLabel → Option Label
  | .base l => some l
  | .move rec =>
    match w.exec rec with
    | some x =>
      match x.place with
      | .active y =>
        match B.move y with
        | .finish => some (.rBody rec)
        | .panic => some (.rPanic rec)
        | _ => none
      | _ => none
    | none => none
  | _ => none

theorem lower_step {B : Bodies σ} {env : Env} {w w' : BSt σ} {l : BLabel} (h : w.step B env l = some w') :
    match lower B w l with
    | some m => DelayTimer.step env w.base m = some w'.base
    | none => w'.base = w.base := by
  have hon : ∀ {rec : Int} {f : RoutineKind → Job σ → Option (Job σ)}, w.on env rec f = some w' → w'.base = w.base := by
    intro rec f h
    obtain ⟨_, _, _, _, rfl⟩ := on_some h
    rfl
  cases l with
  | base m =>
    simp only [BSt.step, BSt.baseStep] at h
    split at h
    · rw [Option.map_eq_some_iff] at h; obtain ⟨s, h1, rfl⟩ := h; exact h1
    · cases h
  | poll rec => exact hon h
  | wake rec v => exact hon (f := fun k => Job.wake k v) h
  | cancel rec => exact hon (f := fun _ => Job.cancel) h
  | reap rec => exact hon h
  | move rec =>
    simp only [BSt.step, BSt.moveStep] at h
    simp only [lower]
    split at h
    · rename_i x hx
      split at h
      · rename_i y hp
        simp only [hx, hp]
        split at h
        · rename_i hm; cases h; simp only [hm]
        · rename_i hm; cases h; simp only [hm]
        · rename_i hm
          rw [Option.map_eq_some_iff] at h; obtain ⟨s, h1, rfl⟩ := h
          simp only [hm]; exact h1
        · rename_i hm
          rw [Option.map_eq_some_iff] at h; obtain ⟨s, h1, rfl⟩ := h
          simp only [hm]; exact h1
      · cases h
    · cases h

/-- What the system does in an execution of the whole. -/
def lowered {B : Bodies σ} {env : Env} (c : BodyCourse B env) : Course env where
  st n := (c.st n).base
  lab n := (c.lab n).bind (lower B (c.st n))
  start := by rw [c.start]; rfl
  next n := by
    have h := c.next n
    cases hl : c.lab n with
    | none => rw [hl] at h; simp only [Option.bind_none]; rw [h]
    | some l =>
      rw [hl] at h
      have h1 := lower_step h
      simp only [Option.bind_some]
      cases hm : lower B (c.st n) l with
      | none => rw [hm] at h1; exact h1
      | some m => rw [hm] at h1; exact h1

theorem lowered_lab {B : Bodies σ} {env : Env} (c : BodyCourse B env) {n : Nat} {m : Label} (h : (lowered c).lab n = some m) :
    c.lab n = some (.base m) ∨ ∃ rec, c.lab n = some (.move rec) ∧ (m = .rBody rec ∨ m = .rPanic rec) := by
  simp only [lowered] at h
  rw [Option.bind_eq_some_iff] at h
  obtain ⟨l, h1, h2⟩ := h
  cases l <;> simp only [lower, reduceCtorEq, Option.some.injEq] at h2
  · exact Or.inl (by rw [h1, h2])
  · rename_i rec
    refine Or.inr ⟨rec, h1, ?_⟩
    split at h2
    · split at h2
      · split at h2
        · cases h2; exact Or.inl rfl
        · cases h2; exact Or.inr rfl
        · cases h2
      · cases h2
    · cases h2

theorem possible_of {B : Bodies σ} {env : Env} {A : BLabel → Prop} {w : BSt σ} {l : BLabel} (hA : A l)
    (h : w.step B env l ≠ none) : Possible B env A w := by
  cases hs : w.step B env l with
  | none => exact absurd hs h
  | some w' => exact ⟨l, w', hA, hs⟩

/-- A thread of the timer that is not held up in an execution of the whole is not held up in the system. -/
theorem lowered_fair {B : Bodies σ} {env : Env} (c : BodyCourse B env) {P : Label → Bool}
    (hP : ∀ (w : BSt σ) l, P l = true → w.allows l = true) (hf : c.WeaklyFair (OfThread P)) :
    (lowered c).WeaklyFair (P · = true) := by
  intro n hen
  have hposs : ∀ m, n ≤ m → Possible B env (OfThread P) (c.st m) := by
    intro m hm
    obtain ⟨l, s', h1, h2⟩ := hen m hm
    refine possible_of (l := .base l) h1 ?_
    have h2' : DelayTimer.step env (c.st m).base l = some s' := h2
    simp only [BSt.step, BSt.baseStep, hP _ _ h1, if_true, h2', Option.map_some]
    simp
  obtain ⟨m, hm, l, hl, hlab⟩ := hf n hposs
  cases l with
  | base l => exact ⟨m, hm, l, hl, by simp only [lowered, hlab, Option.bind_some, lower]⟩
  | _ => exact hl.elim

theorem events_allowed (w : BSt σ) (l : Label) (h : ByEvents l = true) : w.allows l = true := by
  cases l <;> first | rfl | cases h

theorem scheduler_allowed (w : BSt σ) (l : Label) (h : ByScheduler l = true) : w.allows l = true := by
  cases l <;> first | rfl | cases h

theorem bcourse_step {B : Bodies σ} {env : Env} (c : BodyCourse B env) {n : Nat} {l : BLabel} (h : c.lab n = some l) :
    (c.st n).step B env l = some (c.st (n + 1)) := by
  have := c.next n; rw [h] at this; exact this

theorem bcourse_rest {B : Bodies σ} {env : Env} (c : BodyCourse B env) {n : Nat} (h : c.lab n = none) :
    c.st (n + 1) = c.st n := by
  have := c.next n; rw [h] at this; exact this

theorem bcourse_reach {B : Bodies σ} {env : Env} (c : BodyCourse B env) : ∀ n, (c.st n).Reachable B env
  | 0 => by rw [c.start]; exact ⟨[], rfl⟩
  | n + 1 => by
    have ih := bcourse_reach c n
    cases hl : c.lab n with
    | none => rw [bcourse_rest c hl]; exact ih
    | some l => exact ih.step (bcourse_step c hl)

theorem bcourse_between {B : Bodies σ} {env : Env} (c : BodyCourse B env) {n m : Nat} (h : n ≤ m) :
    ∃ ls, (c.st n).run B env ls = some (c.st m) := by
  induction m with
  | zero => obtain rfl : n = 0 := by omega
            exact ⟨[], rfl⟩
  | succ m ih =>
    by_cases hm : n = m + 1
    · subst hm; exact ⟨[], rfl⟩
    · obtain ⟨ls, h1⟩ := ih (by omega)
      refine ⟨ls ++ (c.lab m).toList, ?_⟩
      rw [BSt.run_append, h1]
      cases hl : c.lab m with
      | none => simp [BSt.run, bcourse_rest c hl]
      | some l => simp [BSt.run, bcourse_step c hl]

theorem bcourse_log {B : Bodies σ} {env : Env} (c : BodyCourse B env) {n m : Nat} (h : n ≤ m) {o : Obs}
    (ho : o ∈ (c.st n).base.log) : o ∈ (c.st m).base.log := course_log (lowered c) h ho

/-! ## One body -/

/-- The body of `rec` is not over, and its future is not marked. -/
structure AtWork (c : BSt σ) (rec : Int) (p : Place σ) : Prop where
  job : ∃ x, c.exec rec = some x ∧ x.place = p ∧ x.cancelled = false

/-- A body that is at work can go on. -/
theorem can_go {B : Bodies σ} {env : Env} {w : BSt σ} (hr : w.Reachable B env) {rec : Int} {p : Place σ}
    (h : AtWork w rec p) (ho : p ≠ .over) (hn : p ≠ .gone) : Possible B env (Only rec) w := by
  obtain ⟨x, hx, rfl, hc⟩ := h
  obtain ⟨r, h1, h2, h3⟩ := ((bodyOk hr).some rec x hx).run
  cases hp : x.place with
  | over => exact absurd hp ho
  | gone => exact absurd hp hn
  | ready y =>
    refine possible_of (l := .poll rec) rfl ?_
    simp only [BSt.step, BSt.on, hx, Job.poll, hp, hc, Bool.false_eq_true, and_false, if_false, Option.map_some]
    simp
  | blocked k =>
    refine possible_of (l := .wake rec 0) rfl ?_
    simp only [BSt.step, BSt.on, hx, Job.wake, hp, Option.map_some]
    simp
  | active y =>
    rw [hp] at h3
    obtain ⟨_, h4, h5⟩ := h3
    refine possible_of (l := .move rec) rfl ?_
    cases hm : B.move y with
    | effect e z => simp only [BSt.step, BSt.moveStep, hx, hp, hm]; simp
    | await k => simp only [BSt.step, BSt.moveStep, hx, hp, hm]; simp
    | finish => simp [BSt.step, BSt.moveStep, hx, hp, hm, rBody, h1, h4, h5]
    | panic =>
      cases hsv : survivesPanic (env.kind r.routine) env.runtime <;>
        simp [BSt.step, BSt.moveStep, hx, hp, hm, rPanic, h1, h4, h5, hsv]

/-- A step that does not belong to a body that is at work leaves it where it is, unless the run was stopped. -/
theorem stays {B : Bodies σ} {env : Env} {w w' : BSt σ} (hr : w.Reachable B env) {l : BLabel} {rec : Int} {p : Place σ}
    (h : AtWork w rec p) (hl : ¬ Only rec l) (hs : w.step B env l = some w') :
    ∃ x, w'.exec rec = some x ∧ x.place = p := by
  obtain ⟨x, hx, rfl, hc⟩ := h
  obtain ⟨x', hx', hj⟩ := job_step hr hs hx
  refine ⟨x', hx', ?_⟩
  generalize effectsOf rec w'.effects = fe at hj
  cases hj with
  | same | cancel | drop => rfl
  | quit => cases env.runtime <;> rfl
  | poll hl' | queued hl' | resumed hl' | effect hl' | await hl' | over hl' => subst hl'; exact absurd rfl hl
  | gone _ hc' => rw [hc] at hc'; cases hc'

/-- A body that is at work is gone on with. -/
theorem goes_next {B : Bodies σ} {env : Env} (c : BodyCourse B env) {rec : Int} (hf : c.WeaklyFair (Only rec)) {n : Nat}
    {p : Place σ} (hc : ∀ m x, n ≤ m → (c.st m).exec rec = some x → x.place ≠ .over → x.cancelled = false)
    (ho : p ≠ .over) (hn : p ≠ .gone) {x : Job σ} (hx : (c.st n).exec rec = some x) (hp : x.place = p) :
    ∃ m l, n ≤ m ∧ c.lab m = some l ∧ Only rec l ∧ AtWork (c.st m) rec p := by
  refine Classical.byContradiction fun hno => ?_
  have hat : ∀ d, AtWork (c.st (n + d)) rec p := by
    intro d
    induction d with
    | zero => exact ⟨x, hx, hp, hc n x (Nat.le_refl _) hx (hp ▸ ho)⟩
    | succ d ih =>
      obtain ⟨x', hx', hp'⟩ : ∃ x, (c.st (n + (d + 1))).exec rec = some x ∧ x.place = p := by
        cases hl : c.lab (n + d) with
        | none =>
          have h0 := bcourse_rest c hl
          obtain ⟨x', h1, h2, _⟩ := ih
          exact ⟨x', by rw [← h1, ← h0]; rfl, h2⟩
        | some l =>
          exact stays (bcourse_reach c _) ih (fun h => hno ⟨n + d, l, by omega, hl, h, ih⟩) (bcourse_step c hl)
      exact ⟨x', hx', hp', hc _ x' (by omega) hx' (hp' ▸ ho)⟩
  have hat' : ∀ m, n ≤ m → AtWork (c.st m) rec p := fun m hm => by
    have := hat (m - n); rwa [show n + (m - n) = m by omega] at this
  obtain ⟨m, hm, l, h1, h2⟩ := hf n (fun m hm => can_go (bcourse_reach c m) (hat' m hm) ho hn)
  exact hno ⟨m, l, hm, h2, h1, hat' m hm⟩

/-- A body that waits goes on when what it waits for comes. -/
theorem wakes {B : Bodies σ} {env : Env} {w w' : BSt σ} {l : BLabel} {rec : Int} {x : Job σ} {k : Nat → σ}
    (hs : w.step B env l = some w') (hl : Only rec l) (hx : w.exec rec = some x) (hp : x.place = .blocked k) :
    ∃ v z, w'.exec rec = some z ∧ (z.place = .ready (k v) ∨ z.place = .active (k v)) := by
  cases l with
  | poll q =>
    cases hl
    obtain ⟨_, z, e1, e2, e3⟩ := on_some hs
    rw [hx] at e1; cases e1
    simp only [Job.poll, hp] at e2; cases e2
  | wake q v =>
    cases hl
    obtain ⟨_, z, e1, e2, e3⟩ := on_some (f := fun k => Job.wake k v) hs
    rw [hx] at e1; cases e1
    simp only [Job.wake, hp, Option.some.injEq] at e2
    refine ⟨v, z, by rw [e3]; exact setI_same _ _ _, ?_⟩
    rw [← e2]
    cases env.kind x.routine
    · simp
    · simp
  | base _ => exact hl.elim
  | cancel _ => exact hl.elim
  | reap _ => exact hl.elim
  | move q => cases hl; simp only [BSt.step, BSt.moveStep, hx, hp] at hs; cases hs

/-- A body that is at work, is not stopped, and halts when left to itself, comes to its end. -/
theorem halts {B : Bodies σ} {env : Env} (c : BodyCourse B env) {rec : Int} (hf : c.WeaklyFair (Only rec)) {n : Nat}
    (hc : ∀ m x, n ≤ m → (c.st m).exec rec = some x → x.place ≠ .over → x.cancelled = false) {y : σ} (hh : Halts B y) :
    ∀ {m : Nat} {x : Job σ}, n ≤ m → (c.st m).exec rec = some x → (x.place = .ready y ∨ x.place = .active y) →
      ∃ m' x', m ≤ m' ∧ (c.st m').exec rec = some x' ∧ x'.place = .over := by
  -- it is enough to look at bodies that are being executed
  have hready : ∀ {y : σ}, (∀ {m : Nat} {x : Job σ}, n ≤ m → (c.st m).exec rec = some x → x.place = .active y →
        ∃ m' x', m ≤ m' ∧ (c.st m').exec rec = some x' ∧ x'.place = .over) →
      ∀ {m : Nat} {x : Job σ}, n ≤ m → (c.st m).exec rec = some x → (x.place = .ready y ∨ x.place = .active y) →
        ∃ m' x', m ≤ m' ∧ (c.st m').exec rec = some x' ∧ x'.place = .over := by
    intro y hact m x hm hx hp
    rcases hp with hp | hp
    · obtain ⟨m1, l, h1, h2, h3, x1, h4, h5, h6⟩ := goes_next c hf (fun m' x' hm' => hc m' x' (by omega)) (p := .ready y)
        (by simp) (by simp) hx hp
      obtain ⟨x2, h7, hj⟩ := job_step (bcourse_reach c _) (bcourse_step c h2) h4
      generalize effectsOf rec (c.st (m1 + 1)).effects = fe at hj
      have hx2 : x2.place = .active y := by
        cases hj with
        | same =>
          exfalso
          have hst := bcourse_step c h2
          cases l with
          | poll r =>
            cases h3
            obtain ⟨_, z, g1, g2, g3⟩ := on_some hst
            rw [h4] at g1; cases g1
            rw [g3] at h7
            simp only [setI_same, Option.some.injEq] at h7
            subst h7
            simp only [Job.poll, h5, h6, Bool.false_eq_true, and_false, if_false, Option.some.injEq] at g2
            rw [← g2] at h5; cases h5
          | move r => cases h3; simp only [BSt.step, BSt.moveStep, h4, h5] at hst; cases hst
          | wake r v =>
            cases h3
            obtain ⟨_, z, g1, g2, g3⟩ := on_some (f := fun k => Job.wake k v) hst
            rw [h4] at g1; cases g1
            simp only [Job.wake, h5] at g2; cases g2
          | base _ => exact h3
          | cancel _ => exact h3
          | reap _ => exact h3
        | poll _ hp' => rw [h5] at hp'; cases hp'; rfl
        | quit hl | cancel hl | drop hl | gone hl => subst hl; exact h3.elim
        | queued _ hp' | resumed _ hp' | effect _ hp' | await _ hp' | over _ hp' => rw [h5] at hp'; cases hp'
      obtain ⟨m', x', h8, h9⟩ := hact (by omega) h7 hx2
      exact ⟨m', x', by omega, h9⟩
    · exact hact hm hx hp
  -- the next move of a body that is being executed
  have hmove : ∀ {y : σ} {m : Nat} {x : Job σ}, n ≤ m → (c.st m).exec rec = some x → x.place = .active y →
      ∃ m' x', m ≤ m' ∧ n ≤ m' ∧ (c.st m').exec rec = some x' ∧ match B.move y with
        | .effect _ z => x'.place = .active z
        | .await r => x'.place = .blocked r
        | _ => x'.place = .over := by
    intro y m x hm hx hp
    obtain ⟨m1, l, h1, h2, h3, x1, h4, h5, h6⟩ := goes_next c hf (fun m' x' hm' => hc m' x' (by omega)) (p := .active y)
      (by simp) (by simp) hx hp
    have hst := bcourse_step c h2
    cases l with
    | poll r =>
      cases h3
      obtain ⟨_, z, g1, g2, g3⟩ := on_some hst
      rw [h4] at g1; cases g1
      simp only [Job.poll, h5] at g2; cases g2
    | wake r v =>
      cases h3
      obtain ⟨_, z, g1, g2, g3⟩ := on_some (f := fun k => Job.wake k v) hst
      rw [h4] at g1; cases g1
      simp only [Job.wake, h5] at g2; cases g2
    | base _ => exact h3.elim
    | cancel _ => exact h3.elim
    | reap _ => exact h3.elim
    | move r =>
      cases h3
      simp only [BSt.step, BSt.moveStep, h4, h5] at hst
      cases hm' : B.move y with
      | effect e z =>
        simp only [hm', Option.some.injEq] at hst
        exact ⟨m1 + 1, _, by omega, by omega, by rw [← hst]; exact setI_same _ _ _, rfl⟩
      | await k =>
        simp only [hm', Option.some.injEq] at hst
        exact ⟨m1 + 1, _, by omega, by omega, by rw [← hst]; exact setI_same _ _ _, rfl⟩
      | finish =>
        simp only [hm', Option.map_eq_some_iff] at hst
        obtain ⟨s, _, hst⟩ := hst
        exact ⟨m1 + 1, _, by omega, by omega, by rw [← hst]; exact setI_same _ _ _, rfl⟩
      | panic =>
        simp only [hm', Option.map_eq_some_iff] at hst
        obtain ⟨s, _, hst⟩ := hst
        exact ⟨m1 + 1, _, by omega, by omega, by rw [← hst]; exact setI_same _ _ _, rfl⟩
  induction hh with
  | finish h =>
    intro m0 x0 hm0 hx0 hp0
    refine hready (fun hm hx hp => ?_) hm0 hx0 hp0
    obtain ⟨m', x', h1, h2, h3, h4⟩ := hmove hm hx hp
    rw [h] at h4
    exact ⟨m', x', h1, h3, h4⟩
  | panic h =>
    intro m0 x0 hm0 hx0 hp0
    refine hready (fun hm hx hp => ?_) hm0 hx0 hp0
    obtain ⟨m', x', h1, h2, h3, h4⟩ := hmove hm hx hp
    rw [h] at h4
    exact ⟨m', x', h1, h3, h4⟩
  | effect h _ ih =>
    intro m0 x0 hm0 hx0 hp0
    refine hready (fun hm hx hp => ?_) hm0 hx0 hp0
    obtain ⟨m', x', h1, h2, h3, h4⟩ := hmove hm hx hp
    rw [h] at h4
    obtain ⟨m2, x2, h5, h6⟩ := ih h2 h3 (Or.inr h4)
    exact ⟨m2, x2, by omega, h6⟩
  | @await y r h _ ih =>
    intro m0 x0 hm0 hx0 hp0
    refine hready (fun hm hx hp => ?_) hm0 hx0 hp0
    obtain ⟨m', x', h1, h2, h3, h4⟩ := hmove hm hx hp
    rw [h] at h4
    obtain ⟨m1, l, g1, g2, g3, x1, g4, g5, g6⟩ := goes_next c hf (fun m' x' hm' => hc m' x' (by omega)) (p := .blocked r)
      (by simp) (by simp) h3 h4
    obtain ⟨v, z, e1, e2⟩ := wakes (bcourse_step c g2) g3 g4 g5
    obtain ⟨m2, x2, h5, h6⟩ := ih v (m := m1 + 1) (x := z) (by omega) e1 e2
    exact ⟨m2, x2, by omega, h6⟩

end DelayTimer
