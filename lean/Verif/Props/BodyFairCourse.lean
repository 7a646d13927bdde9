import Verif.Props.BodyFair
import Verif.Props.FairCourse

/-!
There are fair executions of the system with its bodies, so the hypotheses of C84 can be met.
-/

namespace DelayTimer

open Spec

variable {σ : Type}

/-- What is tried in the turn of `j`: the event thread, the scheduler, the bodies of the runs `0, 0, 1, -1, 2, -2, …`. -/
def BodyTried : Nat → BLabel → Prop
  | 0, l => OfThread ByEvents l
  | 1, l => OfThread ByScheduler l ∧ l ≠ .base (.tSpawn true)
  | j + 2, l => if j % 2 = 0 then Only (j / 2 : Nat) l else Only (-(j / 2 : Nat)) l

/-- First `l0` happens, then the turns are taken. -/
def BodyTurn (l0 : BLabel) : Nat → BLabel → Prop
  | 0, l => l = l0
  | n + 1, l => BodyTried (Nat.unpair n).1 l

open Classical in
/-- One of the actions `A`, if one is possible. -/
noncomputable def bodyPick (B : Bodies σ) (env : Env) (A : BLabel → Prop) (w : BSt σ) : Option (BLabel × BSt σ) :=
  if h : ∃ p : BLabel × BSt σ, A p.1 ∧ w.step B env p.1 = some p.2 then some h.choose else none

theorem bodyPick_some {B : Bodies σ} {env : Env} {A : BLabel → Prop} {w : BSt σ} {p : BLabel × BSt σ}
    (h : bodyPick B env A w = some p) : A p.1 ∧ w.step B env p.1 = some p.2 := by
  unfold bodyPick at h
  split at h
  · rename_i hx
    cases h
    exact hx.choose_spec
  · cases h

theorem bodyPick_none {B : Bodies σ} {env : Env} {A : BLabel → Prop} {w : BSt σ} (h : bodyPick B env A w = none) :
    ¬ Possible B env A w := by
  rintro ⟨l, s', h1, h2⟩
  unfold bodyPick at h
  rw [dif_pos ⟨(l, s'), h1, h2⟩] at h
  cases h

noncomputable def bodyTurns (B : Bodies σ) (env : Env) (l0 : BLabel) : Nat → BSt σ
  | 0 => BSt.init σ env
  | n + 1 => match bodyPick B env (BodyTurn l0 n) (bodyTurns B env l0 n) with
    | some p => p.2
    | none => bodyTurns B env l0 n

noncomputable def bodyTurnCourse (B : Bodies σ) (env : Env) (l0 : BLabel) : BodyCourse B env where
  st := bodyTurns B env l0
  lab n := (bodyPick B env (BodyTurn l0 n) (bodyTurns B env l0 n)).map Prod.fst
  start := rfl
  next n := by
    cases h : bodyPick B env (BodyTurn l0 n) (bodyTurns B env l0 n) with
    | none => simp only [Option.map_none, bodyTurns, h]
    | some p => simp only [Option.map_some, bodyTurns, h]; exact (bodyPick_some h).2

/-- The number of the turn of the body of run `rec`. -/
def bodyTurnOf (rec : Int) : Nat := if 0 ≤ rec then 2 * rec.natAbs + 2 else 2 * rec.natAbs + 3

theorem bodyTried_only (rec : Int) (l : BLabel) : BodyTried (bodyTurnOf rec) l ↔ Only rec l := by
  unfold bodyTurnOf
  split
  · simp only [BodyTried]
    rw [if_pos (by omega), show 2 * rec.natAbs / 2 = rec.natAbs by omega, show ((rec.natAbs : Nat) : Int) = rec by omega]
  · rw [show 2 * rec.natAbs + 3 = (2 * rec.natAbs + 1) + 2 by omega]
    simp only [BodyTried]
    rw [if_neg (by omega), show (2 * rec.natAbs + 1) / 2 = rec.natAbs by omega,
      show (-((rec.natAbs : Nat) : Int)) = rec by omega]

/-- From one call on, everybody takes turns. -/
theorem fair_body_course (B : Bodies σ) (env : Env) {l0 : BLabel} (h0 : (BSt.init σ env).step B env l0 ≠ none) :
    ∃ c : BodyCourse B env, c.lab 0 = some l0 ∧ c.WeaklyFair (OfThread ByEvents) ∧ c.WeaklyFair (OfThread ByScheduler) ∧
      (∀ rec, c.WeaklyFair (Only rec)) ∧
      ∀ n l, n ≠ 0 → c.lab n = some l → OfThread ByEvents l ∨ (OfThread ByScheduler l ∧ l ≠ .base (.tSpawn true)) ∨ ∃ rec, Only rec l := by
  have taken : ∀ n, Possible B env (BodyTurn l0 n) (bodyTurns B env l0 n) →
      ∃ l, BodyTurn l0 n l ∧ (bodyTurnCourse B env l0).lab n = some l := by
    intro n h
    simp only [bodyTurnCourse]
    cases hp : bodyPick B env (BodyTurn l0 n) (bodyTurns B env l0 n) with
    | none => exact absurd h (bodyPick_none hp)
    | some p => exact ⟨p.1, (bodyPick_some hp).1, rfl⟩
  have weak : ∀ (A : BLabel → Prop) (j : Nat), (∀ l, BodyTried j l → A l) →
      (∀ w, Possible B env A w → Possible B env (BodyTried j) w) → (bodyTurnCourse B env l0).WeaklyFair A := by
    intro A j ha hb n hen
    have hk : n ≤ Nat.pair j n + 1 := Nat.le_succ_of_le (Nat.right_le_pair j n)
    have he : Possible B env (BodyTurn l0 (Nat.pair j n + 1)) (bodyTurns B env l0 (Nat.pair j n + 1)) := by
      obtain ⟨l, s', h4, h5⟩ := hb _ (hen _ hk)
      exact ⟨l, s', by simp only [BodyTurn, Nat.unpair_pair]; exact h4, h5⟩
    obtain ⟨l, hl, hlab⟩ := taken _ he
    simp only [BodyTurn, Nat.unpair_pair] at hl
    exact ⟨_, hk, l, ha l hl, hlab⟩
  refine ⟨bodyTurnCourse B env l0, ?_, ?_, ?_, ?_, ?_⟩
  · obtain ⟨l, hl, hlab⟩ := taken 0 (possible_of (A := BodyTurn l0 0) (l := l0) rfl h0)
    rw [hlab]; cases hl; rfl
  · exact weak _ 0 (fun l h => h) fun w h => h
  · refine weak _ 1 (fun l h => h.1) fun w h => ?_
    obtain ⟨l, w', h1, h2⟩ := h
    by_cases hl : l = .base (.tSpawn true)
    · subst hl
      refine possible_of (l := .base (.tSpawn false)) ⟨rfl, by simp⟩ ?_
      simp only [BSt.step, BSt.baseStep, BSt.allows, if_true, Option.map_eq_some_iff] at h2
      obtain ⟨s, h2, _⟩ := h2
      simp only [DelayTimer.step, tSpawn] at h2
      split at h2
      · rename_i p t rec hp
        simp [BSt.step, BSt.baseStep, BSt.allows, DelayTimer.step, tSpawn, hp]
      · cases h2
    · exact ⟨l, w', ⟨h1, hl⟩, h2⟩
  · exact fun rec => weak _ (bodyTurnOf rec) (fun l h => (bodyTried_only rec l).1 h)
      fun w ⟨l, w', h1, h2⟩ => ⟨l, w', (bodyTried_only rec l).2 h1, h2⟩
  · intro n l hn hlab
    simp only [bodyTurnCourse] at hlab
    cases hp : bodyPick B env (BodyTurn l0 n) (bodyTurns B env l0 n) with
    | none => rw [hp] at hlab; cases hlab
    | some p =>
      rw [hp] at hlab; cases hlab
      have ht := (bodyPick_some hp).1
      cases n with
      | zero => exact absurd rfl hn
      | succ n =>
        simp only [BodyTurn] at ht
        revert ht
        generalize (Nat.unpair n).1 = j
        intro ht
        match j, ht with
        | 0, ht => exact Or.inl ht
        | 1, ht => exact Or.inr (Or.inl ht)
        | j + 2, ht =>
          simp only [BodyTried] at ht
          split at ht
          · exact Or.inr (Or.inr ⟨_, ht⟩)
          · exact Or.inr (Or.inr ⟨_, ht⟩)

end DelayTimer

namespace DelayTimer.Ex

open Spec

/-- A body that does 7, waits for a number, and does that number, then returns. -/
def echo : Bodies (List (Option Nat)) where
  start _ := [some 7, none]
  move
    | [] => .finish
    | some e :: rest => .effect e rest
    | none :: rest => .await fun v => some v :: rest

theorem echo_halts : Halts echo (echo.start 1) :=
  .effect (e := 7) (z := [none]) rfl (.await (r := fun v => [some v]) rfl fun v => .effect (e := v) (z := []) rfl (.finish rfl))

/-- The same with a wait whose outcome does not matter: it does 7, waits, and does 8. -/
def plain : Bodies (List (Option Nat)) where
  start _ := [some 7, none, some 8]
  move
    | [] => .finish
    | some e :: rest => .effect e rest
    | none :: rest => .await fun _ => rest

theorem plain_halts : Halts plain (plain.start 1) :=
  .effect (e := 7) (z := [none, some 8]) rfl (.await (r := fun _ => [some 8]) rfl
    fun _ => .effect (e := 8) (z := []) rfl (.finish rfl))

/-- It always does the same. -/
theorem plain_does : ∀ es, DoesAll plain (plain.start 1) es → es = [7, 8] := by
  rintro es ⟨y, hg, hy⟩
  have key : ∀ (x y : List (Option Nat)) (es : List Nat), Goes plain x es y → plain.move y = .finish ∨ plain.move y = .panic →
      es = x.filterMap id := by
    intro x y es hg
    induction hg with
    | refl x =>
      intro h
      match x, h with
      | [], _ => rfl
      | some _ :: _, h => simp [plain] at h
      | none :: _, h => simp [plain] at h
    | @effect x z y e es h _ ih =>
      intro hy
      match x, h with
      | some _ :: _, h => simp only [plain, Move.effect.injEq] at h; obtain ⟨rfl, rfl⟩ := h; simp [ih hy]
      | none :: _, h => simp [plain] at h
      | [], h => simp [plain] at h
    | @await x y r es v h _ ih =>
      intro hy
      match x, h with
      | some _ :: _, h => simp [plain] at h
      | none :: _, h => simp only [plain, Move.await.injEq] at h; subst h; simp [ih hy]
      | [], h => simp [plain] at h
  exact key _ _ _ hg hy

/-- C84, `C84_run`, `C84_unlimited`, `C84_started`, `C84_total`, `C84_count`, `C84_forever`: a task is handed in, and nothing
else is asked of the timer. All the hypotheses about the execution hold. -/
theorem asked_once {σ : Type} (B : Bodies σ) (t : Task) : ∃ c : BodyCourse B env0, c.WeaklyFair (OfThread ByEvents) ∧
    c.WeaklyFair (OfThread ByScheduler) ∧
    (∀ rec, c.WeaklyFair (Only rec)) ∧ (∀ n, ¬ Deaf env0 (c.st n).base) ∧ (∀ n, ¬ Spec.Gone env0 (c.st n).base) ∧
    c.lab 0 = some (.base (.uSend (.add t))) ∧
    (∀ m l, m ≠ 0 → c.lab m = some (.base l) → ¬ Touches t.taskId l) ∧
    ∀ m l rec, c.lab m = some (.base l) → ¬ CancelCall t.taskId rec l := by
  obtain ⟨c, h1, h2, h3, h4, h5⟩ := fair_body_course B env0 (l0 := .base (.uSend (.add t))) (by
    simp only [BSt.step, BSt.baseStep, BSt.allows, if_true, DelayTimer.step, Option.map_some]; simp)
  have hno : ∀ n l, n ≠ 0 → c.lab n = some (.base l) → ByEvents l = true ∨ (ByScheduler l = true ∧ l ≠ .tSpawn true) := by
    intro n l hn hl
    rcases h5 n _ hn hl with h | ⟨h, h'⟩ | ⟨_, h⟩
    · exact Or.inl h
    · exact Or.inr ⟨h, fun he => h' (by rw [he])⟩
    · exact h.elim
  have hlow : ∀ n l, n ≠ 0 → (lowered c).lab n = some l → Unasked l ∨ ∃ rec, l = .rBody rec ∨ l = .rPanic rec := by
    intro n l hn hl
    rcases lowered_lab c hl with h | ⟨rec, _, h⟩
    · rcases hno n l hn h with h | ⟨h, h'⟩
      · left; cases l <;> trivial
      · left
        cases l
        case tSpawn b _ => cases b; · trivial
                           · exact absurd rfl h'
        all_goals trivial
    · exact Or.inr ⟨rec, h⟩
  have hl0 : (lowered c).lab 0 = some (.uSend (.add t)) := by
    simp only [lowered, h1, Option.bind_some, lower]
  refine ⟨c, h2, h3, h4, (unchecked_lives rfl (lowered c)).1, ?_, h1, ?_, ?_⟩
  · refine C71_turning (lowered c) ?_ ?_ (fun n k t _ j h => by cases h)
    · intro n h
      cases n with
      | zero => rw [hl0] at h; cases h
      | succ n => rcases hlow _ _ (by simp) h with h | ⟨_, h | h⟩ <;> first | exact h | cases h
    · intro n h
      cases n with
      | zero => rw [hl0] at h; cases h
      | succ n => rcases hlow _ _ (by simp) h with h | ⟨_, h | h⟩ <;> first | exact h | cases h
  · intro m l hm h
    rcases hno m l hm h with h | ⟨h, _⟩ <;> cases l <;> first | exact id | cases h
  · intro m l rec h
    cases m with
    | zero => rw [h1] at h; cases h; exact id
    | succ m => rcases hno _ l (by simp) h with h | ⟨h, _⟩ <;> cases l <;> first | exact id | cases h

/-- So 7 and 8 are done three times each, and nothing else. -/
example : ∃ (c : BodyCourse plain env0) (m0 : Nat), ∀ m, m0 ≤ m → timesDone 1 7 (c.st m) = 3 ∧ timesDone 1 8 (c.st m) = 3 ∧
    timesDone 1 9 (c.st m) = 0 := by
  obtain ⟨c, h1, h2, h3, h4, h5, h6, h7, h8⟩ := asked_once plain (times 3 1 105 10)
  obtain ⟨m0, h⟩ := C84_count c h1 h2 h3 h4 h5 (k := 1) (n0 := 0) (N := 3) (t := times 3 1 105 10) h6 (Or.inl rfl) rfl rfl rfl rfl
    rfl (by omega) (by
      intro j _
      rw [alarm_seconds_new 3 105 10 (by omega) (by omega) (times 3 1 105 10) (Or.inr rfl) j]; simp)
    h7 h8 plain_halts plain_does
  exact ⟨c, m0, fun m hm => ⟨h m 7 hm, h m 8 hm, h m 9 hm⟩⟩

/-- And a repeating task whose bodies do what they are told meanwhile gets any number of them done. -/
example : ∃ c : BodyCourse echo env0, ∀ i, ∃ m0 recs, recs.length = i ∧ recs.Nodup ∧
    (∀ m, m0 ≤ m → recs <+: startedRecsOf 1 (c.st m).base.log) ∧
    ∀ rec ∈ recs, ∃ es, DoesAll echo (echo.start 1) es ∧ ∀ m, m0 ≤ m → effectsOf rec (c.st m).effects = es := by
  obtain ⟨c, h1, h2, h3, h4, h5, h6, h7, h8⟩ := asked_once echo (every 1 105 10)
  exact ⟨c, C84_forever c h1 h2 h3 h4 h5 (k := 1) (n0 := 0) (t := every 1 105 10) h6 (Or.inl rfl) rfl rfl rfl rfl
    rfl (by
      intro j
      rw [alarm_seconds_new 0 105 10 (by omega) (by omega) (every 1 105 10) (Or.inl rfl) j]; simp)
    h7 h8 echo_halts⟩

end DelayTimer.Ex
