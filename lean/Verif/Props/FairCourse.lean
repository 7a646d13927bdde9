import Mathlib.Data.Nat.Pairing
import Verif.Props.Fair

/-!
C70–C73 speak about fair executions. There are fair executions: every finite execution can be continued to one, with
nothing more asked of the timer, no closure panicking when it is called, and the readings of the sweeper's clock going
on. So the hypotheses of C70–C73 about the threads can always be met.
-/

namespace DelayTimer

open Spec

/-- An execution without end from state `s`. -/
structure Onwards (env : Env) (s : St) (st : Nat → St) (lab : Nat → Option Label) : Prop where
  start : st 0 = s
  next : ∀ n, match lab n with
    | some l => step env (st n) l = some (st (n + 1))
    | none => st (n + 1) = st n

/-- An execution without end continues a finite one. -/
theorem prepend {env : Env} (pre : List Label) : ∀ {s0 s : St} {st : Nat → St} {lab : Nat → Option Label},
    run env s0 pre = some s → Onwards env s st lab →
    ∃ st' lab', Onwards env s0 st' lab' ∧ (∀ k, st' (pre.length + k) = st k) ∧ (∀ k, lab' (pre.length + k) = lab k) ∧
      ∀ i, i < pre.length → lab' i = pre[i]? := by
  induction pre with
  | nil =>
    intro s0 s st lab h ho
    simp only [run, Option.some.injEq] at h
    subst h
    exact ⟨st, lab, ho, fun k => by simp, fun k => by simp, fun i hi => by simp at hi⟩
  | cons l pre ih =>
    intro s0 s st lab h ho
    simp only [run] at h
    cases hs : step env s0 l with
    | none => rw [hs] at h; cases h
    | some s1 =>
      rw [hs] at h
      obtain ⟨st', lab', h1, h2, h3, h4⟩ := ih h ho
      refine ⟨fun n => match n with | 0 => s0 | n + 1 => st' n, fun n => match n with | 0 => some l | n + 1 => lab' n, ⟨rfl, ?_⟩, ?_, ?_, ?_⟩
      · intro n
        cases n with
        | zero => simp only; rw [h1.start]; exact hs
        | succ n => exact h1.next n
      · intro k
        rw [show (l :: pre).length + k = (pre.length + k) + 1 by simp only [List.length_cons]; omega]
        exact h2 k
      · intro k
        rw [show (l :: pre).length + k = (pre.length + k) + 1 by simp only [List.length_cons]; omega]
        exact h3 k
      · intro i hi
        cases i with
        | zero => rfl
        | succ i => exact h4 i (by simpa using hi)

theorem continued {env : Env} {pre : List Label} {s : St} {st : Nat → St} {lab : Nat → Option Label}
    (h : run env (init env) pre = some s) (ho : Onwards env s st lab) :
    ∃ c : Course env, c.upTo pre.length = pre ∧ (∀ k, c.st (pre.length + k) = st k) ∧
      ∀ k, c.lab (pre.length + k) = lab k := by
  obtain ⟨st', lab', h1, h2, h3, h4⟩ := prepend pre h ho
  refine ⟨⟨st', lab', h1.start, h1.next⟩, ?_, h2, h3⟩
  have key : ∀ n, n ≤ pre.length → Course.upTo (env := env) ⟨st', lab', h1.start, h1.next⟩ n = pre.take n := by
    intro n
    induction n with
    | zero => intro _; simp [Course.upTo]
    | succ n ih =>
      intro hn
      rw [Course.upTo, ih (by omega), List.take_add_one]
      show pre.take n ++ (lab' n).toList = _
      rw [h4 n (by omega)]
  rw [key _ (Nat.le_refl _), List.take_length]

/-! ## Taking turns -/

/-- What is tried at the `k`-th odd step, if it is the turn of `j`: the event thread, the scheduler, a round of the
sweeper, the reports of the runs `0, 0, 1, -1, 2, -2, …`, and between them the actions `x 0`, `x 1`, … of callers. -/
def Tried (x : Nat → Label → Prop) (k : Nat) : Nat → Label → Prop
  | 0, l => ByEvents l = true
  | 1, l => ByScheduler l = true ∧ l ≠ .tSpawn true
  | 2, l => ByRounds l = true ∧ ∀ now, l = .sWake now → k ≤ now
  | j + 3, l => if j % 3 = 0 then Reports (j / 3 : Nat) l else if j % 3 = 1 then Reports (-(j / 3 : Nat)) l else x (j / 3) l

/-- At even steps the sweeper may take in a deadline; the odd steps go by turns. -/
def Turn (x : Nat → Label → Prop) (n : Nat) (l : Label) : Prop := if n % 2 = 0 then l = .sAdd else Tried x n (Nat.unpair (n / 2)).1 l

open Classical in
/-- One of the actions `A`, if one is possible. -/
noncomputable def pick (env : Env) (A : Label → Prop) (s : St) : Option (Label × St) :=
  if h : ∃ p : Label × St, A p.1 ∧ step env s p.1 = some p.2 then some h.choose else none

theorem pick_some {env : Env} {A : Label → Prop} {s : St} {p : Label × St} (h : pick env A s = some p) :
    A p.1 ∧ step env s p.1 = some p.2 := by
  unfold pick at h
  split at h
  · rename_i hx
    cases h
    exact hx.choose_spec
  · cases h

theorem pick_none {env : Env} {A : Label → Prop} {s : St} (h : pick env A s = none) : ¬ Enabled env A s := by
  rintro ⟨l, s', h1, h2⟩
  unfold pick at h
  rw [dif_pos ⟨(l, s'), h1, h2⟩] at h
  cases h

/-- The states when the turns are taken from `s` on. -/
noncomputable def turns (env : Env) (x : Nat → Label → Prop) (s : St) : Nat → St
  | 0 => s
  | n + 1 => match pick env (Turn x n) (turns env x s n) with
    | some p => p.2
    | none => turns env x s n

noncomputable def turnLab (env : Env) (x : Nat → Label → Prop) (s : St) (n : Nat) : Option Label :=
  (pick env (Turn x n) (turns env x s n)).map Prod.fst

theorem turns_onwards (env : Env) (x : Nat → Label → Prop) (s : St) : Onwards env s (turns env x s) (turnLab env x s) := by
  refine ⟨rfl, fun n => ?_⟩
  unfold turnLab
  cases h : pick env (Turn x n) (turns env x s n) with
  | none => simp only [Option.map_none, turns, h]
  | some p => simp only [Option.map_some, turns, h]; exact (pick_some h).2

theorem turn_taken {env : Env} {x : Nat → Label → Prop} {s : St} {n : Nat} (h : Enabled env (Turn x n) (turns env x s n)) :
    ∃ l, Turn x n l ∧ turnLab env x s n = some l := by
  unfold turnLab
  cases hp : pick env (Turn x n) (turns env x s n) with
  | none => exact absurd h (pick_none hp)
  | some p => exact ⟨p.1, (pick_some hp).1, rfl⟩

theorem turn_of_lab {env : Env} {x : Nat → Label → Prop} {s : St} {n : Nat} {l : Label} (h : turnLab env x s n = some l) : Turn x n l := by
  unfold turnLab at h
  cases hp : pick env (Turn x n) (turns env x s n) with
  | none => rw [hp] at h; cases h
  | some p => rw [hp] at h; cases h; exact (pick_some hp).1

/-- Everybody gets a turn again and again. -/
theorem turn_comes (j n : Nat) : ∃ k, n ≤ k ∧ k % 2 = 1 ∧ (Nat.unpair (k / 2)).1 = j := by
  refine ⟨2 * Nat.pair j n + 1, ?_, by omega, ?_⟩
  · have := Nat.right_le_pair j n; omega
  · rw [show (2 * Nat.pair j n + 1) / 2 = Nat.pair j n by omega, Nat.unpair_pair]

/-- What may happen when nothing more is asked of the timer. -/
def Unasked : Label → Prop
  | .tSpawn true | .rBody _ | .rPanic _ | .uSend _ | .uInsert _ | .uNext _ | .uDropChain _ | .uCancel _ _ | .uListen _
  | .uReturn _ | .uGiveUp _ => False
  | _ => True

theorem turn_unasked {x : Nat → Label → Prop} {n : Nat} {l : Label} (h : Turn x n l) : Unasked l ∨ ∃ i, x i l := by
  unfold Turn at h
  split at h
  · subst h; exact Or.inl trivial
  · revert h
    generalize (Nat.unpair (n / 2)).1 = j
    intro h
    match j, h with
    | 0, h => left; cases l <;> trivial
    | 1, ⟨h, h'⟩ =>
      left
      cases l
      case tSpawn => rename_i b _; revert h'; cases b <;> simp [Unasked]
      all_goals trivial
    | 2, ⟨h, _⟩ => left; cases l <;> trivial
    | j + 3, h =>
      simp only [Tried] at h
      split at h
      · obtain ⟨now, rfl⟩ := h; exact Or.inl trivial
      split at h
      · obtain ⟨now, rfl⟩ := h; exact Or.inl trivial
      · exact Or.inr ⟨_, h⟩

theorem tried_scheduler {env : Env} {x : Nat → Label → Prop} {s : St} (k : Nat) (h : Enabled env (ByScheduler · = true) s) : Enabled env (Tried x k 1) s := by
  obtain ⟨l, s', h1, h2⟩ := h
  by_cases hl : l = .tSpawn true
  · subst hl
    simp only [step, tSpawn] at h2
    split at h2
    · rename_i p t rec hp
      exact ⟨.tSpawn false, _, ⟨rfl, by simp⟩, by simp only [step, tSpawn, hp, Bool.false_eq_true, if_false]; rfl⟩
    · cases h2
  · exact ⟨l, s', ⟨h1, hl⟩, h2⟩

theorem tried_rounds {env : Env} {x : Nat → Label → Prop} {s : St} (k : Nat) (h : Enabled env (ByRounds · = true) s) : Enabled env (Tried x k 2) s := by
  obtain ⟨l, s', h1, h2⟩ := h
  by_cases hl : ∃ now, l = .sWake now
  · obtain ⟨now, rfl⟩ := hl
    simp only [step, sWake] at h2
    split at h2
    · rename_i w hp
      refine ⟨.sWake (max w k), { s with spc := .active (max w k) 200 }, ⟨rfl, fun now h => ?_⟩, ?_⟩
      · cases h; exact Nat.le_max_right _ _
      · simp only [step, sWake, hp, Nat.le_max_left, if_true]
    · cases h2
  · exact ⟨l, s', ⟨h1, fun now h => absurd ⟨now, h⟩ hl⟩, h2⟩

/-- The number of the turn of run `rec`. -/
def turnOf (rec : Int) : Nat := if 0 ≤ rec then 3 * rec.natAbs + 3 else 3 * rec.natAbs + 4

theorem tried_reports {x : Nat → Label → Prop} (k : Nat) (rec : Int) (l : Label) : Tried x k (turnOf rec) l ↔ Reports rec l := by
  unfold turnOf
  split
  · simp only [Tried]
    rw [if_pos (by omega), show 3 * rec.natAbs / 3 = rec.natAbs by omega, show ((rec.natAbs : Nat) : Int) = rec by omega]
  · rw [show 3 * rec.natAbs + 4 = (3 * rec.natAbs + 1) + 3 by omega]
    simp only [Tried]
    rw [if_neg (by omega), if_pos (by omega), show (3 * rec.natAbs + 1) / 3 = rec.natAbs by omega,
      show (-((rec.natAbs : Nat) : Int)) = rec by omega]

theorem tried_extra {x : Nat → Label → Prop} (k i : Nat) (l : Label) : Tried x k (3 * i + 5) l ↔ x i l := by
  rw [show 3 * i + 5 = (3 * i + 2) + 3 by omega]
  simp only [Tried]
  rw [if_neg (by omega), if_neg (by omega), show (3 * i + 2) / 3 = i by omega]

/-- Every execution can be continued fairly: nobody is held up forever, also not the callers `x 0`, `x 1`, …, the
readings of the sweeper's clock go on, and nothing else is asked of the timer. -/
theorem fair_course_with {env : Env} (x : Nat → Label → Prop) (hx : ∀ i now, ¬ x i (.sWake now)) {pre : List Label} {s : St}
    (h : run env (init env) pre = some s) :
    ∃ c : Course env, c.upTo pre.length = pre ∧ c.st pre.length = s ∧ c.Fair ∧ (∀ i, c.WeaklyFair (x i)) ∧
      (∀ r, c.SweeperGetsTo r) ∧ ∀ n l, pre.length ≤ n → c.lab n = some l → Unasked l ∨ ∃ i, x i l := by
  obtain ⟨c, h1, h2, h3⟩ := continued h (turns_onwards env x s)
  have weak : ∀ (A : Label → Prop) (j : Nat), (∀ k l, Tried x k j l → A l) →
      (∀ k s, Enabled env A s → Enabled env (Tried x k j) s) → c.WeaklyFair A := by
    intro A j ha hb n hen
    obtain ⟨k, hk1, hk2, hk3⟩ := turn_comes j n
    have he : Enabled env (Turn x k) (turns env x s k) := by
      rw [← h2 k]
      obtain ⟨l, s', h4, h5⟩ := hb k _ (hen (pre.length + k) (by omega))
      exact ⟨l, s', by rw [Turn, if_neg (by omega), hk3]; exact h4, h5⟩
    obtain ⟨l, hl, hlab⟩ := turn_taken he
    rw [Turn, if_neg (by omega), hk3] at hl
    exact ⟨pre.length + k, by omega, l, ha k l hl, by rw [h3]; exact hlab⟩
  have hrounds : c.WeaklyFair (ByRounds · = true) := weak _ 2 (fun k l h => h.1) fun k s h => tried_rounds k h
  refine ⟨c, h1, by have := h2 0; simpa [turns] using this, ⟨?_, ?_, hrounds, ?_, ?_⟩, ?_, ?_, ?_⟩
  · exact weak _ 0 (fun k l h => h) fun k s h => h
  · exact weak _ 1 (fun k l h => h.1) fun k s h => tried_scheduler k h
  · intro rec n hen
    exact weak (Reports rec) (turnOf rec) (fun k l h => (tried_reports k rec l).1 h)
      (fun k s ⟨l, s', h4, h5⟩ => ⟨l, s', (tried_reports k rec l).2 h4, h5⟩) n fun m hm => (hen m hm).1
  · -- taking in deadlines: at every other moment, and only a round of the sweeper can come between
    intro n hen
    refine Classical.byContradiction fun hno => ?_
    have hne : ∀ m, n ≤ m → ¬ c.Takes (TakesIn · = true) m := fun m hm h => hno ⟨m, hm, h⟩
    obtain ⟨m, hm, l, s', hl, hst⟩ := hen (n + pre.length)
    have hu : (c.st m).unitChan ≠ [] := by
      cases l <;> try (cases hl; done)
      simp only [step, sAdd] at hst
      split at hst
      · rename_i h; rw [h]; simp
      · cases hst
    have hstay : ∀ j, m ≤ j → (c.st j).unitChan ≠ [] := by
      refine course_keeps c (fun s => s.unitChan ≠ []) hu ?_
      intro j l hj hlab h
      rcases unit_cases (course_reach c j) (step_act (course_step c hlab)) with ⟨b, _⟩ | ⟨id, box, rest, e, hc, b, _⟩ | ⟨w, v, rest, rfl, _⟩ | ⟨w, now, _, _, _, _, b, _⟩ | ⟨v, now, n, _, _, _, _, _, b, _⟩ | ⟨now, n, w, _, _, _, _, b, _⟩
      · rw [b]; exact h
      · rw [b]; simp [h]
      · exact absurd ⟨_, rfl, hlab⟩ (hne j (by omega))
      · rw [b]; exact h
      · rw [b]; exact h
      · rw [b]; exact h
    have heven : ∀ k, m ≤ pre.length + k → k % 2 = 0 → c.lab (pre.length + k) = none ∧ ¬ ∃ w, (c.st (pre.length + k)).spc = .idle w := by
      intro k hk hk2
      constructor
      · cases hlab : c.lab (pre.length + k) with
        | none => rfl
        | some l =>
          have ht := turn_of_lab (by rw [← h3]; exact hlab)
          rw [Turn, if_pos hk2] at ht
          exact absurd ⟨_, by rw [ht]; rfl, hlab⟩ (hne _ (by omega))
      · rintro ⟨w, hw⟩
        obtain ⟨u, rest, hur⟩ := List.exists_cons_of_ne_nil (hstay _ hk)
        have he : Enabled env (Turn x k) (turns env x s k) := by
          rw [← h2 k]
          exact ⟨.sAdd, _, by rw [Turn, if_pos hk2], by simp only [step, sAdd, hw, hur]; rfl⟩
        obtain ⟨l, hl, hlab⟩ := turn_taken he
        rw [Turn, if_pos hk2] at hl
        exact hne (pre.length + k) (by omega) ⟨l, by rw [hl]; rfl, by rw [h3]; exact hlab⟩
    obtain ⟨j, hj, w, hw⟩ := round_ends c hrounds (m + 1)
    obtain ⟨k, rfl⟩ : ∃ k, j = pre.length + k := ⟨j - pre.length, by omega⟩
    rcases Nat.mod_two_eq_zero_or_one k with hk | hk
    · exact (heven k (by omega) hk).2 ⟨w, hw⟩
    · obtain ⟨i, rfl⟩ : ∃ i, k = i + 1 := ⟨k - 1, by omega⟩
      obtain ⟨h5, h6⟩ := heven i (by omega) (by omega)
      refine h6 ⟨w, ?_⟩
      rw [← course_rest c h5]
      exact hw
  · exact fun i => weak (x i) (3 * i + 5) (fun k l h => (tried_extra k i l).1 h)
      fun k s ⟨l, s', h4, h5⟩ => ⟨l, s', (tried_extra k i l).2 h4, h5⟩
  · intro r
    refine ⟨pre.length + r, fun m now hm hlab => ?_⟩
    obtain ⟨k, rfl⟩ : ∃ k, m = pre.length + k := ⟨m - pre.length, by omega⟩
    rw [h3] at hlab
    have ht := turn_of_lab hlab
    unfold Turn at ht
    split at ht
    · cases ht
    · revert ht
      generalize (Nat.unpair (k / 2)).1 = j
      intro ht
      match j, ht with
      | 0, ht => cases ht
      | 1, ⟨ht, _⟩ => cases ht
      | 2, ⟨_, ht⟩ => have := ht now rfl; omega
      | j + 3, ht =>
        simp only [Tried] at ht
        split at ht
        · obtain ⟨_, ht⟩ := ht; cases ht
        split at ht
        · obtain ⟨_, ht⟩ := ht; cases ht
        · exact (hx _ _ ht).elim
  · intro n l hn hlab
    obtain ⟨k, rfl⟩ : ∃ k, n = pre.length + k := ⟨n - pre.length, by omega⟩
    rw [h3] at hlab
    exact turn_unasked (turn_of_lab hlab)

/-- Every execution can be continued fairly with nothing more asked of the timer. -/
theorem fair_course {env : Env} {pre : List Label} {s : St} (h : run env (init env) pre = some s) :
    ∃ c : Course env, c.upTo pre.length = pre ∧ c.st pre.length = s ∧ c.Fair ∧ (∀ r, c.SweeperGetsTo r) ∧
      ∀ n l, pre.length ≤ n → c.lab n = some l → Unasked l := by
  obtain ⟨c, h1, h2, h3, _, h4, h5⟩ := fair_course_with (fun _ _ => False) (fun _ _ h => h) h
  exact ⟨c, h1, h2, h3, h4, fun n l hn hl => (h5 n l hn hl).resolve_right fun ⟨_, h⟩ => h⟩

end DelayTimer

namespace DelayTimer

open Spec

/-- What has happened by moment `n` of such a course. -/
theorem unasked_upTo {env : Env} {c : Course env} {pre : List Label} (h1 : c.upTo pre.length = pre)
    (h2 : ∀ n l, pre.length ≤ n → c.lab n = some l → Unasked l) {n : Nat} {l : Label} (hl : l ∈ c.upTo n) :
    l ∈ pre ∨ Unasked l := by
  obtain ⟨m, _, hm⟩ := (mem_upTo c n).1 hl
  by_cases h : m < pre.length
  · left; rw [← h1]; exact (mem_upTo c _).2 ⟨m, h, hm⟩
  · exact Or.inr (h2 m l (by omega) hm)

theorem unasked_handed {k : Nat} {l : Label} (h : Unasked l) : broughtBy k l = [] := by
  cases l <;> first | exact h.elim | rfl

theorem unasked_touches {k : Nat} {l : Label} (h : Unasked l) : ¬ Touches k l := by
  cases l <;> first | exact h.elim | exact id

theorem course_handed {env : Env} {c : Course env} {pre : List Label} (h1 : c.upTo pre.length = pre)
    (h2 : ∀ n l, pre.length ≤ n → c.lab n = some l → Unasked l) {k n : Nat} {t : Task} (ht : t ∈ handed k (c.upTo n)) :
    t ∈ handed k pre := by
  obtain ⟨l, hl, htl⟩ := List.mem_flatMap.1 ht
  rcases unasked_upTo h1 h2 hl with h | h
  · exact List.mem_flatMap.2 ⟨l, h, htl⟩
  · rw [unasked_handed h] at htl; cases htl

/-- Without overflow checks only a panicking closure or `stop` ends one of the two threads. -/
theorem unchecked_lives {env : Env} (ho : env.overflowChecks = false) (c : Course env) : c.Listening ∧ ∀ n, ¬ Crashed env (c.st n) :=
  ⟨C70_listening c fun _ h => absurd (ho.symm.trans h) (by simp), fun _ h => absurd (ho.symm.trans h.1) (by simp)⟩

end DelayTimer

namespace DelayTimer.Ex

open Spec

/-- A clock that stops at 1000, so that there is room for limits for all time. -/
def env1000 : Env := { env0 with clock := fun n => min (100 + n) 1000 }

/-- C70, `C70_processed`, `C70_settles`, `C70_listening`: a task is added and another one removed; neither has been
processed yet. -/
example : ∃ c : Course env0, c.WeaklyFair (ByEvents · = true) ∧ c.Listening ∧ (∀ n, Addable env0 (c.upTo n)) ∧
    queuedTags (c.st 2).log = [.add 1, .remove 7] ∧ dispatchedTags (c.st 2).log = [] ∧
    ∀ m l, 2 ≤ m → c.lab m = some l → ¬ Touches 1 l := by
  obtain ⟨c, h1, h2, h3, _, h4⟩ := fair_course (pre := [.uSend (.add (every 1 101 1)), .uSend (.remove 7)])
    (play_run (env := env0) (by rfl))
  refine ⟨c, h3.events, (unchecked_lives rfl c).1, (fun n h => by cases h), ?_, ?_, fun m l hm h => unasked_touches (h4 m l hm h)⟩
  · rw [show c.st 2 = _ from h2]; rfl
  · rw [show c.st 2 = _ from h2]; rfl

/-- C71, `C71_turns`, `C71_turning`, `C71_starts`, `C71_forever`: a task is added, with alarms at 105, 115, …, and
nothing more is asked of the timer. -/
example : ∃ c : Course env0, c.WeaklyFair (ByEvents · = true) ∧ c.WeaklyFair (ByScheduler · = true) ∧ c.Listening ∧
    c.Turning ∧ (∀ n, c.lab n ≠ some (.uSend .stop)) ∧ (∀ n, c.lab n ≠ some (.tSpawn true)) ∧
    (∀ n k, ∀ t ∈ handed k (c.upTo n), ∀ j, Safe env0 j t) ∧
    c.lab 0 = some (.uSend (.add (every 1 105 10))) ∧ HandsIn (every 1 105 10) (.uSend (.add (every 1 105 10))) ∧
    runsLeft (every 1 105 10) = none ∧ (∀ j, alarm j (every 1 105 10) ≠ none) ∧
    ∀ m l, m ≠ 0 → c.lab m = some l → ¬ Touches 1 l := by
  obtain ⟨c, h1, h2, h3, _, h4⟩ := fair_course (pre := [.uSend (.add (every 1 105 10))]) (play_run (env := env0) (by rfl))
  have h0 : c.lab 0 = some (.uSend (.add (every 1 105 10))) := by
    have := h1
    simp only [List.length_singleton, Course.upTo, List.nil_append] at this
    cases h : c.lab 0 with
    | none => rw [h] at this; cases this
    | some l => rw [h] at this; cases this; rfl
  have hstop : ∀ n, c.lab n ≠ some (.uSend .stop) := by
    intro n h
    cases n with
    | zero => rw [h0] at h; cases h
    | succ n => exact (h4 _ _ (by simp) h)
  have hpan : ∀ n, c.lab n ≠ some (.tSpawn true) := by
    intro n h
    cases n with
    | zero => rw [h0] at h; cases h
    | succ n => exact (h4 _ _ (by simp) h)
  have hsafe : ∀ n k, ∀ t ∈ handed k (c.upTo n), ∀ j, Safe env0 j t := fun n k t _ j h => by cases h
  refine ⟨c, h3.events, h3.scheduler, (unchecked_lives rfl c).1, C71_turning c hstop hpan hsafe, hstop, hpan, hsafe, h0, ?_, rfl, ?_, ?_⟩
  · exact Or.inl rfl
  · intro j
    rw [alarm_seconds_new 0 105 10 (by omega) (by omega) (every 1 105 10) (Or.inl rfl) j]
    simp
  · intro m l hm h
    exact unasked_touches (h4 m l (by simp; omega) h)

/-- C71, `C71_stops`: the timer is stopped while a task is waiting. -/
example : ∃ c : Course env0, c.WeaklyFair (ByEvents · = true) ∧ c.WeaklyFair (ByScheduler · = true) ∧ c.Listening ∧
    c.lab 1 = some (.uSend .stop) ∧ ¬ Spec.Gone env0 (c.st 2) := by
  obtain ⟨c, h1, h2, h3, _, h4⟩ := fair_course (pre := [.uSend (.add (every 1 105 10)), .uSend .stop]) (play_run (env := env0) (by rfl))
  refine ⟨c, h3.events, h3.scheduler, (unchecked_lives rfl c).1, ?_, ?_⟩
  · have := (mem_upTo c 2).1 (show (.uSend .stop) ∈ c.upTo 2 by rw [show c.upTo 2 = _ from h1]; simp)
    obtain ⟨m, hm, h⟩ := this
    have h0 : c.upTo 2 = _ := h1
    simp only [Course.upTo, List.nil_append] at h0
    cases ha : c.lab 0 with
    | none => rw [ha] at h0; cases hb : c.lab 1 with
      | none => rw [hb] at h0; cases h0
      | some l => rw [hb] at h0; cases h0
    | some l => rw [ha] at h0; cases hb : c.lab 1 with
      | none => rw [hb] at h0; cases h0
      | some l => rw [hb] at h0; cases h0; rfl
  · rw [show c.st 2 = _ from h2]
    intro h
    cases (h [] _ rfl .tLoad rfl)

/-- C73, `C73_reported`: a body has ended, and its completion has not been reported yet. -/
example : ∃ c : Course env0, c.WeaklyFair (ByEvents · = true) ∧ c.WeaklyFair (ByScheduler · = true) ∧ c.RunsReport ∧
    c.Listening ∧ (∀ n, ¬ Crashed env0 (c.st n)) ∧ ∃ n, .bodyEnded 1 0 ∈ (c.st n).log ∧ ¬ RunEnded 1 0 (c.st n).log := by
  obtain ⟨c, h1, h2, h3, _, h4⟩ := fair_course (pre := add (every 1 101 5000) ++ idle ++ idle ++ fire 1 0 ++ [.rBody 0])
    (play_run (env := env0) (by rfl))
  obtain ⟨hl, hc⟩ := unchecked_lives (env := env0) rfl c
  refine ⟨c, h3.events, h3.scheduler, h3.reports, hl, hc, _, by rw [h2]; decide +kernel, ?_⟩
  rw [(repOk (course_reach c _)).ended, h2]
  decide +kernel

/-- C72, `C72_stopped`: three runs with limits are on, and their bodies never end. -/
example : ∃ c : Course env1000, c.Fair ∧ c.Listening ∧ (∀ n, ¬ Crashed env1000 (c.st n)) ∧
    (∀ n, ∀ t ∈ handed 2 (c.upTo n), t.maximumRunningTime = some 1) ∧ (∀ n, AllLimitsFit (c.upTo n) (c.st n).log) ∧
    c.SweeperGetsTo 104 ∧ GetsPast env1000.clock 104 ∧ .started 2 2 1 3 103 ∈ (c.st limits.length).log ∧
    .stopped 2 1 ∉ (c.st limits.length).log := by
  obtain ⟨c, h1, h2, h3, h5, h4⟩ := fair_course (pre := limits) (play_run (env := env1000) (by rfl))
  obtain ⟨hl, hc⟩ := unchecked_lives (env := env1000) rfl c
  refine ⟨c, h3, hl, hc, ?_, ?_, h5 _, ⟨5, fun n hn => ?_⟩, ?_, ?_⟩
  · intro n t ht
    have : ∀ t ∈ handed 2 limits, t.maximumRunningTime = some 1 := by decide +kernel
    exact this t (course_handed h1 h4 ht)
  · intro n k t ht m hm rtn rec i ts hs
    have hts := started_clock (course_reach c n) _ _ _ _ _ hs
    have : ts ≤ 1000 := by rw [hts]; exact Nat.min_le_right _ _
    obtain ⟨l, hl, htl⟩ := List.mem_flatMap.1 (course_handed h1 h4 ht)
    have hall : limits.all (fun l => match l with
        | .uSend (.add t) => t.maximumRunningTime.any (· ≤ 5)
        | .uSend _ | .uInsert _ => false
        | _ => true) = true := by decide +kernel
    have hx := List.all_eq_true.1 hall l hl
    revert hx htl
    cases l
    case uSend op =>
      cases op
      case add t' =>
        intro htl hx
        simp only [broughtBy] at htl
        split at htl
        · rw [List.mem_singleton.1 htl] at hm
          simp only [hm, Option.any_some, decide_eq_true_eq] at hx
          omega
        · cases htl
      all_goals (intro htl hx; cases hx)
    case uInsert t' => intro htl hx; cases hx
    all_goals (intro htl; cases htl)
  · simp only [env1000]; omega
  · rw [h2]; decide +kernel
  · rw [h2]; decide +kernel

end DelayTimer.Ex
