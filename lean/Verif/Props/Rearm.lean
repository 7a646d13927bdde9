import Verif.Props.Schedule
import Verif.Proofs.Once

/-! # Later starts: C07 - C11 -/

namespace DelayTimer
open Spec

/-! ## Glue -/

theorem nextTable_eq {clock : Nat → Nat} {n a : Nat} {t : Task} (h : alarm 0 t = some a) :
    nextTable clock n t = timetable clock (rearm clock n a) (fun j => alarm j t.getNextExecTimestamp.2) := by
  funext i; simp only [nextTable, h]; rfl

/-- The time table of alarms `f`, the first of which is asked for in tick `n`. -/
def tableOf (clock : Nat → Nat) (n : Nat) (f : Nat → Option Nat) (i : Nat) : Option Nat :=
  match f 0 with
  | none => none
  | some a => timetable clock (rearm clock n a) (fun j => f (j + 1)) i

theorem nextTable_of (clock : Nat → Nat) (n : Nat) (t : Task) : nextTable clock n t = tableOf clock n (fun j => alarm j t) :=
  rfl

theorem tableOf_zero {clock : Nat → Nat} {n : Nat} {f : Nat → Option Nat} :
    tableOf clock n f 0 = (f 0).map (rearm clock n) := by
  unfold tableOf; cases f 0 <;> rfl

theorem tableOf_succ {clock : Nat → Nat} {n : Nat} {f : Nat → Option Nat} (i : Nat) :
    tableOf clock n f (i + 1) =
      match tableOf clock n f i, f (i + 1) with
      | some m, some a => some (rearm clock m a)
      | _, _ => none := by
  unfold tableOf; cases h : f 0 <;> rfl

theorem nextTable_zero {clock : Nat → Nat} {n : Nat} {t : Task} :
    nextTable clock n t 0 = (alarm 0 t).map (rearm clock n) := tableOf_zero (f := fun j => alarm j t)

theorem nextTable_succ {clock : Nat → Nat} {n : Nat} {t : Task} (i : Nat) :
    nextTable clock n t (i + 1) =
      match nextTable clock n t i, alarm (i + 1) t with
      | some m, some a => some (rearm clock m a)
      | _, _ => none := tableOf_succ (f := fun j => alarm j t) i

theorem nextTable_lt {clock : Nat → Nat} {n : Nat} {t : Task} {i m : Nat} (h : nextTable clock n t i = some m) :
    n < m := by
  revert m
  induction i with
  | zero =>
    intro m h
    rw [nextTable_zero] at h
    cases ha : alarm 0 t with
    | none => rw [ha] at h; cases h
    | some a => rw [ha] at h; cases h; exact rearm_gt _ _ _
  | succ i ih =>
    intro m h
    rw [nextTable_succ] at h
    split at h
    · rename_i m' a h1 h2
      cases h
      have := rearm_gt clock m' a
      have := ih h1
      omega
    · cases h

theorem cut_some {r : Option Nat} {T : Nat → Option Nat} {i n : Nat} (h : cut r T i = some n) :
    T i = some n := by
  cases r with
  | none => exact h
  | some r =>
    simp only [cut] at h
    split at h
    · exact h
    · cases h

/-- Attempts (and without a limit also starts) follow the time table exactly. -/
theorem Life.both {M : Prop} {clock : Nat → Nat} {k : Nat} {t0 : Task} {D0 : Nat} {s s' : St}
    (h : Life M clock k t0 D0 (attempts k s.log) (startTicks k s.log) (startRoutines k s.log) s')
    (hM : t0.maximumParallelRunnableNum = none ∨ (runsLeft t0 = none ∧ M)) (h0 : runsLeft t0 ≠ some 0)
    (hp : s'.tpc ≠ .panicked) :
    OnSchedule k (cut (runsLeft t0) (timetable clock D0 (fun j => alarm j t0))) s s' ∧
    (t0.maximumParallelRunnableNum = none →
      StartsOnSchedule k (cut (runsLeft t0) (timetable clock D0 (fun j => alarm j t0))) s s') := by
  obtain ⟨ns, ds, e1, e2, e3, e4, e5⟩ := h.complete hM h0 hp
  refine ⟨⟨ns, e1, e3, e4⟩, fun hlim => ?_⟩
  rcases e5 hlim with e | e
  · exact ⟨ds, e2, by rw [e]; exact e3, by rw [e]; exact e4⟩
  · refine ⟨ds, e2, ?_, ?_⟩
    · intro i n hi
      refine e3 i n ?_
      rw [e, List.getElem?_append_left (List.getElem?_eq_some_iff.1 hi).1]; exact hi
    · intro i n hi hn
      have := e4 i n hi hn
      rw [e, List.getElem?_append] at this
      split at this
      · exact this
      · exfalso
        have hm := List.mem_of_getElem? this
        simp at hm
        omega

/-- From a run on, attempts (and without a limit also starts) follow the time table exactly. -/
theorem Spec.JustRun.table {env : Env} {k : Nat} {t : Task} {s s' : St} {ls : List Label}
    (h : JustRun k t s) (hr : Reachable env s) (hf : NeverHeldBack t s) (h0 : runsLeft t ≠ some 0)
    (hl : ∀ l ∈ ls, ¬ Touches k l) (hrun : run env s ls = some s') (hp : s'.tpc ≠ .panicked) :
    OnSchedule k (cut (runsLeft t) (nextTable env.clock s.ticks t)) s s' ∧
    (t.maximumParallelRunnableNum = none →
      StartsOnSchedule k (cut (runsLeft t) (nextTable env.clock s.ticks t)) s s') := by
  rcases h.after (M := s.flags k ≠ none) hr (fun h => h) hl hrun with ⟨h1, h2, h3⟩ | ⟨a, h1, h2⟩ | ⟨h1, h2, h3⟩
  · have key : ∀ i n, cut (runsLeft t) (nextTable env.clock s.ticks t) i = some n → n < s'.ticks →
        ([] : List Nat)[i]? = some n := by
      intro i n hi hn
      have := nextTable_lt (cut_some hi)
      omega
    exact ⟨⟨[], by simp [h2], by simp, key⟩, fun _ => ⟨[], by simp [h3], by simp, key⟩⟩
  · have := h2.both (by
      rcases hf with hf | ⟨hf, hf'⟩
      · exact Or.inl hf
      · refine Or.inr ⟨by rw [runsLeft_ask]; exact hf, by rw [← h.id]; exact hf'⟩) (by rw [runsLeft_ask]; exact h0) hp
    rw [runsLeft_ask] at this
    rw [show nextTable env.clock s.ticks t = timetable env.clock (rearm env.clock s.ticks a)
      (fun j => alarm j t.getNextExecTimestamp.2) from nextTable_eq h1]
    exact this
  · have key : ∀ i n, cut (runsLeft t) (nextTable env.clock s.ticks t) i = some n → n < s'.ticks →
        ([] : List Nat)[i]? = some n := by
      intro i n hi hn
      exfalso
      have : nextTable env.clock s.ticks t i = none := by unfold nextTable; rw [h1]
      rw [cut_some hi] at this; cases this
    exact ⟨⟨[], by simp [h2], by simp, key⟩, fun _ => ⟨[], by simp [h3], by simp, key⟩⟩

/-- Two time tables agree up to tick `N`. -/
def AgreeTo (N : Nat) (T T' : Nat → Option Nat) : Prop := ∀ i n, n ≤ N → (T i = some n ↔ T' i = some n)

theorem OnSchedule.congr {k : Nat} {T T' : Nat → Option Nat} {s s' : St} (h : AgreeTo s'.ticks T T')
    (hs : OnSchedule k T s s') : OnSchedule k T' s s' := by
  obtain ⟨ns, h1, h2, h3⟩ := hs
  refine ⟨ns, h1, fun i n hn => ?_, fun i n hn hlt => h3 i n ((h i n (by omega)).2 hn) hlt⟩
  obtain ⟨h4, h5⟩ := h2 i n hn
  exact ⟨(h i n h5).1 h4, h5⟩

theorem StartsOnSchedule.congr {k : Nat} {T T' : Nat → Option Nat} {s s' : St} (h : AgreeTo s'.ticks T T')
    (hs : StartsOnSchedule k T s s') : StartsOnSchedule k T' s s' := by
  obtain ⟨ns, h1, h2, h3⟩ := hs
  refine ⟨ns, h1, fun i n hn => ?_, fun i n hn hlt => h3 i n ((h i n (by omega)).2 hn) hlt⟩
  obtain ⟨h4, h5⟩ := h2 i n hn
  exact ⟨(h i n h5).1 h4, h5⟩

/-- A time table depends only on the alarms asked for until then. -/
theorem timetable_agree {clock : Nat → Nat} {first N : Nat} {f g : Nat → Option Nat}
    (h : ∀ i n, timetable clock first g i = some n → n ≤ N → f i = g i) :
    AgreeTo N (timetable clock first f) (timetable clock first g) := by
  intro i
  induction i with
  | zero => intro n _; exact Iff.rfl
  | succ i ih =>
    intro n hn
    simp only [timetable]
    constructor
    · intro hx
      split at hx
      · rename_i m a h1 h2
        cases hx
        have hlt := rearm_gt clock m a
        have h3 := (ih m (by omega)).1 h1
        rw [h3, ← h i m h3 (by omega), h2]
      · cases hx
    · intro hx
      split at hx
      · rename_i m a h1 h2
        cases hx
        have hlt := rearm_gt clock m a
        rw [(ih m (by omega)).2 h1, h i m h1 (by omega), h2]
      · cases hx

theorem tableOf_agree {clock : Nat → Nat} {n N : Nat} {f g : Nat → Option Nat} (h0 : f 0 = g 0)
    (h : ∀ i m, tableOf clock n g i = some m → m ≤ N → f (i + 1) = g (i + 1)) :
    AgreeTo N (tableOf clock n f) (tableOf clock n g) := by
  unfold tableOf at h ⊢
  rw [h0]
  cases hg : g 0 with
  | none => intro i m _; exact Iff.rfl
  | some a =>
    rw [hg] at h
    exact timetable_agree h

theorem AgreeTo.trans {N : Nat} {T T' T'' : Nat → Option Nat} (h : AgreeTo N T T') (h' : ∀ i, T' i = T'' i) :
    AgreeTo N T T'' := by
  rw [← funext h']; exact h

/-! ## C07 -/

/-- C07. A task that was attempted at tick `n` and whose next alarm is `a` is attempted next at tick
`rearm clock n a`: `(a - clock n) + 1` ticks later if the alarm is not over, else two ticks later. -/
theorem C07_next_attempt {env : Env} {k a : Nat} {t : Task} {s s' : St} {ls : List Label}
    (h : JustRun k t s) (hr : Reachable env s) (ha : alarm 0 t = some a)
    (hl : ∀ l ∈ ls, ¬ Touches k l) (hrun : run env s ls = some s') :
    (∃ A, attempts k s.log = A ++ [s.ticks]) ∧ NextAttemptAt k (rearm env.clock s.ticks a) s s' := by
  refine ⟨?_, ?_⟩
  · obtain ⟨p, upd, hp⟩ := h.tpc
    exact (handOk hr).last k (by rw [hp]; simp [tpcTok, h.id])
  · rcases h.after (M := False) hr False.elim hl hrun with ⟨h1, h2, _⟩ | ⟨b, h1, h2⟩ | ⟨h1, _⟩
    · refine ⟨[], by simp [h2], Or.inl ⟨rfl, ?_⟩⟩
      have := rearm_gt env.clock s.ticks a
      omega
    · rw [ha] at h1; cases h1; exact h2.first
    · rw [ha] at h1; cases h1

/-- C07, for all later attempts of a task that no parallel limit holds back: they are exactly the
entries of its time table. -/
theorem C07_all_attempts {env : Env} {k : Nat} {t : Task} {s s' : St} {ls : List Label}
    (h : JustRun k t s) (hr : Reachable env s) (hf : NeverHeldBack t s) (h0 : runsLeft t ≠ some 0)
    (hl : ∀ l ∈ ls, ¬ Touches k l) (hrun : run env s ls = some s') (hp : s'.tpc ≠ .panicked) :
    OnSchedule k (cut (runsLeft t) (nextTable env.clock s.ticks t)) s s' :=
  (h.table hr hf h0 hl hrun hp).1

/-! ## C08 -/

theorem steady_add {clock : Nat → Nat} (h : Steady clock) (n m : Nat) : clock (n + m) = clock n + m := by
  induction m with
  | zero => rfl
  | succ m ih => rw [← Nat.add_assoc, h, ih]; omega

/-- The time table of a period, as plain numbers. -/
theorem steady_ideal {clock : Nat → Nat} (hc : Steady clock) {n a p : Nat} (hp : 0 < p) (hna : clock n ≤ a) :
    ∀ j, timetable clock (n + (a - clock n) + 1) (fun j => some (a + (j + 1) * p)) j =
      some (n + (a - clock n) + 1 + j * p) := by
  intro j
  induction j with
  | zero => simp [timetable]
  | succ j ih =>
    simp only [timetable, ih, Option.some.injEq]
    unfold rearm
    have : clock (n + (a - clock n) + 1 + j * p) = a + 1 + j * p := by
      have := steady_add hc n ((a - clock n) + 1 + j * p)
      rw [show n + (a - clock n) + 1 + j * p = n + ((a - clock n) + 1 + j * p) by omega, this]; omega
    rw [this, Nat.add_mul, if_pos (by omega)]
    omega

theorem steady_mono {clock : Nat → Nat} (hc : Steady clock) {n m : Nat} (h : n ≤ m) : clock n ≤ clock m := by
  have := steady_add hc n (m - n)
  rw [show n + (m - n) = m by omega] at this
  omega

/-- As long as everything fits, the alarms `f` of a period make the same time table. -/
theorem steady_agree {clock : Nat → Nat} (hc : Steady clock) {n a p N : Nat} (hp : 0 < p) (hna : clock n ≤ a)
    {f : Nat → Option Nat} (hal : ∀ j, a + (j + 1) * p + 1 < 2 ^ 64 → f j = some (a + (j + 1) * p))
    (hfit : a + p < 2 ^ 63) (hclk : clock N < 2 ^ 63) :
    AgreeTo N (timetable clock (n + (a - clock n) + 1) f) (fun j => some (n + (a - clock n) + 1 + j * p)) := by
  refine AgreeTo.trans (timetable_agree (g := fun j => some (a + (j + 1) * p)) ?_) (steady_ideal hc hp hna)
  intro i m hi hm
  rw [steady_ideal hc hp hna] at hi
  cases hi
  refine hal i ?_
  have h1 := steady_mono hc hm
  have h2 := steady_add hc n ((a - clock n) + 1 + i * p)
  rw [show n + ((a - clock n) + 1 + i * p) = n + (a - clock n) + 1 + i * p by omega] at h2
  rw [Nat.add_mul]
  omega

theorem steady_table {clock : Nat → Nat} (hc : Steady clock) {n a p N : Nat} {t : Task} (hp : 0 < p)
    (hal : EveryFrom a p t) (hna : clock n ≤ a) (hfit : a + p < 2 ^ 63) (hclk : clock N < 2 ^ 63) :
    AgreeTo N (nextTable clock n t) (fun j => some (n + (a - clock n) + 1 + j * p)) := by
  have h0 : alarm 0 t = some a := by have := hal 0 (by omega); simpa using this
  rw [nextTable_eq h0, show rearm clock n a = n + (a - clock n) + 1 by simp [rearm, hna]]
  exact steady_agree hc hp hna (fun j hj => hal (j + 1) hj) hfit hclk

/-- C08. Under a steady clock a repeating task of period `p` that has just run and whose next alarm is
not over yet is started every `p` ticks from the next start on, exactly and as long as the clock is below 2^63. If its last start
was on time too (the clock one past the alarm), this includes the distance to that start.

What is missing to the full C08 is the distance between the first start and the second, which is `p - 1`
if the task was added between two iterations of the scheduler (`C08_violated`). -/
theorem C08_partial {env : Env} {k a p : Nat} {t : Task} {s s' : St} {ls : List Label}
    (hc : Steady env.clock) (hp : 0 < p) (h : JustRun k t s) (hr : Reachable env s)
    (hrep : runsLeft t = none) (hlim : t.maximumParallelRunnableNum = none)
    (hal : EveryFrom a p t) (hna : env.clock s.ticks ≤ a)
    (hfit : a + p < 2 ^ 63) (hclk : env.clock s'.ticks < 2 ^ 63)
    (hl : ∀ l ∈ ls, ¬ Touches k l) (hrun : run env s ls = some s') (hpan : s'.tpc ≠ .panicked) :
    StartsOnSchedule k (fun j => some (s.ticks + (a - env.clock s.ticks) + 1 + j * p)) s s' ∧
    (env.clock s.ticks + p = a + 1 →
      StartsOnSchedule k (fun j => some (s.ticks + (j + 1) * p)) s s') := by
  have := (h.table hr (Or.inl hlim) (by rw [hrep]; simp) hl hrun hpan).2 hlim
  rw [hrep] at this
  have h1 := StartsOnSchedule.congr (steady_table hc hp hal hna hfit hclk) this
  refine ⟨h1, fun he => ?_⟩
  have : (fun j => some (s.ticks + (a - env.clock s.ticks) + 1 + j * p)) = fun j => some (s.ticks + (j + 1) * p) := by
    funext i
    rw [Nat.add_mul]
    congr 1
    omega
  rw [← this]
  exact h1

/-- C08 from the first start on, for a task that is added while the time stored by the scheduler is the
current one (that is, within an iteration) and whose slot number does not wrap around. -/
theorem C08_from_first_partial {env : Env} {k exec p : Nat} {t : Task} {s s1 s2 : St} {ls : List Label}
    (hc : Steady env.clock) (hp : 0 < p) (h : AboutToInsert k t s.secondHand exec (env.clock s.ticks) s)
    (hle : env.clock s.ticks ≤ exec) (hnw : (exec - env.clock s.ticks) % 3600 + s.secondHand + 1 < 3600)
    (hr : Reachable env s) (hrep : runsLeft t = none) (hlim : t.maximumParallelRunnableNum = none)
    (hal : EveryFrom (exec + p) p t) (hfit : exec + p < 2 ^ 63) (hclk : env.clock s2.ticks < 2 ^ 63)
    (hs : step env s .eNext = some s1)
    (hl : ∀ l ∈ ls, ¬ Touches k l) (hrun : run env s1 ls = some s2) (hpan : s2.tpc ≠ .panicked) :
    StartsOnSchedule k (fun j => some (s.ticks + (exec - env.clock s.ticks) + 1 + j * p)) s s2 := by
  have hD : nextVisit (base s) (((checkedSub exec (env.clock s.ticks)).getD (k % 3600) + s.secondHand + 1) % 3600) +
      3600 * (((checkedSub exec (env.clock s.ticks)).getD (k % 3600) + s.secondHand + 1) / 3600) =
      s.ticks + (exec - env.clock s.ticks) + 1 := by
    unfold checkedSub
    rw [if_pos hle]
    have hh := (wheelOk hr).hand
    rw [base_eq]
    unfold nextVisit
    simp only [Option.getD_some]
    generalize exec - env.clock s.ticks = d at *
    rw [hh] at hnw ⊢
    split <;> omega
  have := ((h.after hr hs hl hrun).both (Or.inl hlim) (by rw [hrep]; simp) hpan).2 hlim
  rw [hrep, hD] at this
  refine StartsOnSchedule.congr ?_ this
  show AgreeTo _ (timetable env.clock _ (fun j => alarm j t)) _
  refine steady_agree hc hp hle (fun j hj => ?_) hfit hclk
  rw [show exec + (j + 1) * p = exec + p + j * p by rw [Nat.add_mul]; omega] at hj ⊢
  exact hal j hj

/-- The whole of C08: measured from the first start, for any add. -/
def C08_statement : Prop :=
  ∀ (env : Env) (k a p : Nat) (t : Task) (ls1 ls2 : List Label) (l : Label) (s : St),
    Steady env.clock → 0 < p → HandsIn t l → t.taskId = k → t.valid = true → runsLeft t = none →
    t.maximumParallelRunnableNum = none → EveryFrom a p t →
    a + p < 2 ^ 63 → env.clock s.ticks < 2 ^ 63 →
    (∀ l ∈ ls1, ¬ Touches k l) → (∀ l ∈ ls2, ¬ Touches k l) →
    run env (init env) (ls1 ++ l :: ls2) = some s → s.tpc ≠ .panicked →
    ∀ j n m, (startTicks k s.log)[0]? = some n → (startTicks k s.log)[j]? = some m → m = n + j * p

theorem alarm_every (id first p : Nat) (hp : 0 < p) : EveryFrom first p (Ex.every id first p) := by
  intro j hj
  have hle : first ≤ first + j * p := Nat.le_add_right _ _
  rw [alarm_seconds_new 0 first p hp (by omega) (Ex.every id first p) (Or.inl rfl) j, Nat.mod_eq_of_lt (by omega)]

namespace Ex

/-- An add that is processed between two iterations: `global_time` is that of the tick before. -/
def earlyAdd : List Label := idle ++ add (every 1 105 5) ++ idles 6 ++ fire 1 0 ++ idles 3 ++ fire 1 1

theorem earlyAdd_starts : startTicks 1 (play env0 earlyAdd).log = [7, 11] := by decide +kernel

end Ex

/-- C08 is violated: with a steady clock and a period of 5, the second start comes 4 ticks after the
first when the task was added between two iterations of the scheduler. -/
theorem C08_violated : ¬ C08_statement := by
  intro h
  have := h Ex.env0 1 105 5 (Ex.every 1 105 5) Ex.idle
    ([.eRecv, .eNext, .eNext, .eNext] ++ Ex.idles 6 ++ Ex.fire 1 0 ++ Ex.idles 3 ++ Ex.fire 1 1)
    (.uSend (.add (Ex.every 1 105 5))) (Ex.play Ex.env0 Ex.earlyAdd) (fun n => rfl) (by decide) (Or.inl rfl) rfl rfl
    rfl rfl (alarm_every 1 105 5 (by decide)) (by decide) (by decide) (by decide) (by decide)
    (Ex.play_run (ls := Ex.earlyAdd) (by decide +kernel))
    (by rw [show (Ex.play Ex.env0 Ex.earlyAdd).tpc = .head from rfl]; simp) 1 7 11
    (by rw [Ex.earlyAdd_starts]; rfl) (by rw [Ex.earlyAdd_starts]; rfl)
  omega

/-! ## C09 -/

theorem early_step {clock : Nat → Nat} (hc : Paced clock) (n a : Nat) : a ≤ clock (rearm clock n a) := by
  unfold rearm
  split
  · have := hc n ((a - clock n) + 1)
    rw [show n + (a - clock n) + 1 = n + ((a - clock n) + 1) by omega]
    omega
  · have := hc n 2
    omega

/-- C09, re-armed starts: if the wheel does not tick faster than the clock, then no start attempt is
made before its alarm. Attempt `i` after the state `s` is the one for alarm `i`. -/
theorem C09_rearmed {env : Env} {k : Nat} {t : Task} {s s' : St} {ls : List Label}
    (hc : Paced env.clock) (h : JustRun k t s) (hr : Reachable env s)
    (hl : ∀ l ∈ ls, ¬ Touches k l) (hrun : run env s ls = some s') :
    ∃ ns, attempts k s'.log = attempts k s.log ++ ns ∧
      ∀ i n, ns[i]? = some n → ∃ a, alarm i t = some a ∧ a ≤ env.clock n := by
  rcases h.after (M := False) hr False.elim hl hrun with ⟨_, h2, _⟩ | ⟨b, h1, h2⟩ | ⟨_, h2, _⟩
  · exact ⟨[], by simp [h2], by simp⟩
  · obtain ⟨⟨ns, ds, hA, _, _, hT, _⟩, _⟩ := h2
    refine ⟨ns, hA, fun i n hi => ?_⟩
    have := hT i n hi
    cases i with
    | zero => simp only [timetable] at this; cases this; exact ⟨b, h1, early_step hc _ _⟩
    | succ i =>
      obtain ⟨n', a, _, h4, rfl⟩ := timetable_prev this
      exact ⟨a, h4, early_step hc _ _⟩
  · exact ⟨[], by simp [h2], by simp⟩

/-- C09, first starts, provided no tick passes while `add_task` works on it (the hand position read is
still the current one). What is missing is the other case, in which C09 is false
(`C09_violated`). -/
theorem C09_first_partial {env : Env} {k : Nat} {t : Task} {exec ts : Nat} {s s1 s2 : St} {ls : List Label}
    (hc : Paced env.clock) (hts : ts ≤ env.clock s.ticks)
    (h : AboutToInsert k t s.secondHand exec ts s) (hr : Reachable env s)
    (hs : step env s .eNext = some s1) (hl : ∀ l ∈ ls, ¬ Touches k l) (hrun : run env s1 ls = some s2) :
    ∃ ns, attempts k s2.log = attempts k s.log ++ ns ∧ ∀ n, ns.head? = some n → exec ≤ env.clock n := by
  obtain ⟨seed, visit, h1, h2, h3, h4, ns, h5, h6⟩ := C05_any_gap h hr hs hl hrun
  refine ⟨ns, h5, fun n hn => ?_⟩
  have hD : n = visit + 3600 * (seed / 3600) := by
    rcases h6 with ⟨h6, _⟩ | ⟨h6, _⟩
    · rw [h6] at hn; cases hn
    · rw [hn] at h6; cases h6; rfl
  have hb : s.ticks ≤ visit := by split at h2 <;> omega
  by_cases hle : ts ≤ exec
  · rw [if_pos hle, (wheelOk hr).hand] at h1
    have hge : s.ticks + (exec - ts) + 1 ≤ n := by omega
    have := hc s.ticks ((exec - ts) + 1)
    have := Paced.mono hc hge
    rw [Nat.add_assoc] at this
    omega
  · have := Paced.mono hc (show s.ticks ≤ n by omega)
    omega

/-- The time that `add_task` reads is never ahead of the clock of the current tick. -/
theorem C09_time_read {env : Env} {s : St} (hc : Paced env.clock) (hb : env.boot ≤ env.clock 0)
    (hr : Reachable env s) : s.globalTime ≤ env.clock s.ticks := by
  rcases timeOk hr with ⟨h1, h2⟩ | ⟨n, h1, _, h2⟩
  · rw [h1, h2]; exact hb
  · rw [h2]; exact Paced.mono hc h1

/-- The whole of C09 for first starts. -/
def C09_first_statement : Prop :=
  ∀ (env : Env) (k a : Nat) (t : Task) (ls1 ls2 : List Label) (l : Label) (s : St),
    Paced env.clock → env.boot ≤ env.clock 0 → HandsIn t l → t.taskId = k → t.valid = true →
    alarm 0 t = some a → (∀ l ∈ ls1, ¬ Touches k l) → (∀ l ∈ ls2, ¬ Touches k l) →
    run env (init env) (ls1 ++ l :: ls2) = some s →
    ∀ n, (attempts k s.log).head? = some n → a ≤ env.clock n

namespace Ex

/-- The event thread reads the hand, then sleeps for five ticks before it reads `global_time`. -/
def slowAdd : List Label :=
  [.uSend (.add (every 1 110 5)), .eRecv] ++ idles 5 ++ [.tLoad, .tStore, .tArrive, .tLapse] ++ [.eNext, .eNext] ++
    fire 1 0

theorem slowAdd_attempts : attempts 1 (play env0 slowAdd).log = [6] := by decide +kernel

end Ex

/-- C09 is violated for a first start: alarm 110, started when the clock shows 106. -/
theorem C09_violated : ¬ C09_first_statement := by
  intro h
  have := h Ex.env0 1 110 (Ex.every 1 110 5) [] (Ex.slowAdd.drop 1)
    (.uSend (.add (Ex.every 1 110 5))) (Ex.play Ex.env0 Ex.slowAdd)
    (fun n m => by show 100 + n + m ≤ 100 + (n + m) + 1; omega) (by decide) (Or.inl rfl) rfl rfl
    rfl (by decide) (by decide) (Ex.play_run (ls := Ex.slowAdd) (by decide +kernel)) 6
    (by rw [Ex.slowAdd_attempts]; rfl)
  exact absurd this (by decide)

/-! ## C10 -/

theorem overdue_ideal {clock : Nat → Nat} {n m : Nat} {f : Nat → Option Nat}
    (hover : ∀ j, j < m → ∃ a, f j = some a ∧ a < clock (n + 2 * j)) :
    ∀ j, j < m → tableOf clock n f j = some (n + 2 * (j + 1)) := by
  intro j
  induction j with
  | zero =>
    intro hm
    obtain ⟨a, h1, h2⟩ := hover 0 hm
    rw [tableOf_zero, h1]
    simp only [Option.map_some, Option.some.injEq]
    unfold rearm
    rw [if_neg (by simpa using h2)]
  | succ j ih =>
    intro hm
    obtain ⟨a, h1, h2⟩ := hover (j + 1) hm
    rw [tableOf_succ, ih (by omega), h1]
    simp only [Option.some.injEq]
    unfold rearm
    rw [if_neg (by omega)]
    omega

theorem overdue_table {clock : Nat → Nat} {n m : Nat} {t : Task}
    (hover : ∀ j, j < m → ∃ a, alarm j t = some a ∧ a < clock (n + 2 * j)) :
    ∀ j, j < m → nextTable clock n t j = some (n + 2 * (j + 1)) := overdue_ideal hover

/-- C10. As long as its alarms are over, a task gets an attempt for every one of them, one every two
ticks. -/
theorem C10_catch_up {env : Env} {k m : Nat} {t : Task} {s s' : St} {ls : List Label}
    (h : JustRun k t s) (hr : Reachable env s) (hf : NeverHeldBack t s) (hrep : runsLeft t = none)
    (hover : ∀ j, j < m → ∃ a, alarm j t = some a ∧ a < env.clock (s.ticks + 2 * j))
    (hl : ∀ l ∈ ls, ¬ Touches k l) (hrun : run env s ls = some s') (hp : s'.tpc ≠ .panicked) :
    ∃ ns, attempts k s'.log = attempts k s.log ++ ns ∧
      ∀ j, j < m → (∀ n, ns[j]? = some n → n = s.ticks + 2 * (j + 1)) ∧
        (s.ticks + 2 * (j + 1) < s'.ticks → ns[j]? = some (s.ticks + 2 * (j + 1))) := by
  obtain ⟨ns, h1, h2, h3⟩ := (h.table hr hf (by rw [hrep]; simp) hl hrun hp).1
  rw [hrep] at h2 h3
  refine ⟨ns, h1, fun j hj => ⟨fun n hn => ?_, fun hn => ?_⟩⟩
  · have := (h2 j n hn).1
    rw [show cut none (nextTable env.clock s.ticks t) = nextTable env.clock s.ticks t from rfl,
      overdue_table hover j hj] at this
    cases this; rfl
  · exact h3 j _ (overdue_table hover j hj) hn

theorem caught_up (p c : Nat) (hp : 3 ≤ p) : ∀ (L a : Nat), c = a + L →
    ∃ m, m ≤ L ∧ c + 2 * m ≤ a + m * p ∧ ∀ j, j < m → a + j * p < c + 2 * j := by
  intro L
  induction L using Nat.strongRecOn generalizing c with
  | _ L ih =>
    intro a hc
    by_cases hL : L = 0
    · exact ⟨0, by omega, by omega, by omega⟩
    · by_cases hlt : L ≤ p - 2
      · refine ⟨1, by omega, by omega, ?_⟩
        intro j hj
        have : j = 0 := by omega
        subst this; omega
      · obtain ⟨m, h1, h2, h3⟩ := ih (L - (p - 2)) (by omega) (c + 2) (a + p) (by omega)
        refine ⟨m + 1, by omega, by rw [Nat.add_mul]; omega, ?_⟩
        intro j hj
        cases j with
        | zero => omega
        | succ j => have := h3 j (by omega); rw [Nat.add_mul]; omega

/-- C10, the end of it: under a steady clock a task of period `p ≥ 3` whose next alarm `a` is `L` seconds
over catches up after at most `L` attempts at two ticks each, and is on time forever after. -/
theorem C10_caught_up {env : Env} {k a p : Nat} {t : Task} {s s' : St} {ls : List Label}
    (hc : Steady env.clock) (hp : 3 ≤ p) (h : JustRun k t s) (hr : Reachable env s) (hf : NeverHeldBack t s)
    (hrep : runsLeft t = none) (hal : EveryFrom a p t) (hover : a < env.clock s.ticks)
    (hfit : a + p < 2 ^ 63) (hclk : env.clock s'.ticks < 2 ^ 63)
    (hl : ∀ l ∈ ls, ¬ Touches k l) (hrun : run env s ls = some s') (hpan : s'.tpc ≠ .panicked) :
    ∃ m, m ≤ env.clock s.ticks - a ∧
      OnSchedule k (fun j =>
        if j < m then some (s.ticks + 2 * (j + 1))
        else some (s.ticks + 2 * m + (a + m * p - (env.clock s.ticks + 2 * m)) + 1 + (j - m) * p)) s s' := by
  obtain ⟨m, h1, h2, h3⟩ := caught_up p (env.clock s.ticks) hp (env.clock s.ticks - a) a (by omega)
  have hadd := fun x => steady_add hc s.ticks x
  let g : Nat → Option Nat := fun j => some (a + j * p)
  have htab := overdue_ideal (clock := env.clock) (n := s.ticks) (m := m) (f := g) (fun j hj =>
    ⟨_, rfl, by have := h3 j hj; rw [hadd]; omega⟩)
  have hclkd : ∀ d, env.clock (s.ticks + 2 * m + (a + m * p - (env.clock s.ticks + 2 * m)) + 1 + d * p) =
      a + m * p + 1 + d * p := by
    intro d
    rw [show s.ticks + 2 * m + (a + m * p - (env.clock s.ticks + 2 * m)) + 1 + d * p =
      s.ticks + (2 * m + (a + m * p - (env.clock s.ticks + 2 * m)) + 1 + d * p) by omega, hadd]
    omega
  have key : ∀ d, tableOf env.clock s.ticks g (m + d) =
      some (s.ticks + 2 * m + (a + m * p - (env.clock s.ticks + 2 * m)) + 1 + d * p) := by
    intro d
    induction d with
    | zero =>
      cases m with
      | zero => omega
      | succ m =>
        rw [Nat.add_zero, tableOf_succ, htab m (by omega)]
        simp only [g, Option.some.injEq]
        unfold rearm
        rw [hadd, if_pos (by omega)]
        omega
    | succ d ih =>
      rw [← Nat.add_assoc, tableOf_succ, ih]
      simp only [g, Option.some.injEq]
      unfold rearm
      have hd : (m + d + 1) * p = m * p + d * p + p := by rw [Nat.add_mul, Nat.add_mul]; omega
      have hd2 : (d + 1) * p = d * p + p := by rw [Nat.add_mul]; omega
      rw [hclkd, hd, hd2, if_pos (by omega)]
      omega
  have hall : ∀ i, tableOf env.clock s.ticks g i =
      if i < m then some (s.ticks + 2 * (i + 1))
      else some (s.ticks + 2 * m + (a + m * p - (env.clock s.ticks + 2 * m)) + 1 + (i - m) * p) := by
    intro i
    by_cases hi : i < m
    · rw [if_pos hi, htab i hi]
    · rw [if_neg hi]
      have := key (i - m)
      rw [show m + (i - m) = i by omega] at this
      exact this
  have := (h.table hr hf (by rw [hrep]; simp) hl hrun hpan).1
  rw [hrep] at this
  refine ⟨m, h1, OnSchedule.congr (AgreeTo.trans (tableOf_agree (f := fun j => alarm j t) (g := g) ?_ ?_) hall) this⟩
  · exact hal 0 (by omega)
  · intro i n hi hn
    refine hal (i + 1) ?_
    have hle := steady_mono hc hn
    have : a + i * p ≤ env.clock n := by
      rw [hall] at hi
      split at hi
      · rename_i hlt
        cases hi
        have := h3 i hlt
        rw [hadd]; omega
      · rename_i hlt
        cases hi
        rw [hclkd]
        have : i * p = m * p + (i - m) * p := by rw [← Nat.add_mul]; congr 1; omega
        omega
    rw [Nat.add_mul]
    omega

/-- C10, the limit of it: with a period of one or two seconds a task that is once late stays late and
runs every two ticks forever. -/
theorem C10_never_caught_up {env : Env} {k a p : Nat} {t : Task} {s s' : St} {ls : List Label}
    (hc : Steady env.clock) (hp : p ≤ 2) (h : JustRun k t s) (hr : Reachable env s) (hf : NeverHeldBack t s)
    (hrep : runsLeft t = none) (hal : EveryFrom a p t) (hover : a < env.clock s.ticks)
    (hfit : a + p < 2 ^ 63) (hclk : env.clock s'.ticks < 2 ^ 63)
    (hl : ∀ l ∈ ls, ¬ Touches k l) (hrun : run env s ls = some s') (hpan : s'.tpc ≠ .panicked) :
    OnSchedule k (fun j => some (s.ticks + 2 * (j + 1))) s s' := by
  have := (h.table hr hf (by rw [hrep]; simp) hl hrun hpan).1
  rw [hrep] at this
  have hall : ∀ i, tableOf env.clock s.ticks (fun j => some (a + j * p)) i = some (s.ticks + 2 * (i + 1)) := by
    intro i
    refine overdue_ideal (m := i + 1) (fun j hj => ⟨_, rfl, ?_⟩) i (by omega)
    rw [steady_add hc]
    have : j * p ≤ j * 2 := Nat.mul_le_mul_left j hp
    omega
  refine OnSchedule.congr
    (AgreeTo.trans (tableOf_agree (f := fun j => alarm j t) (g := fun j => some (a + j * p)) ?_ ?_) hall) this
  · exact hal 0 (by omega)
  · intro i n hi hn
    refine hal (i + 1) ?_
    rw [hall] at hi
    cases hi
    have hle := steady_mono hc hn
    rw [steady_add hc] at hle
    have : i * p ≤ i * 2 := Nat.mul_le_mul_left i hp
    rw [Nat.add_mul]
    omega

/-! ## C11 -/

theorem OnSchedule.agree {k : Nat} {T : Nat → Option Nat} {s s' u u' : St}
    (h1 : OnSchedule k T s s') (h2 : OnSchedule k T u u') :
    ∃ ns ms, attempts k s'.log = attempts k s.log ++ ns ∧ attempts k u'.log = attempts k u.log ++ ms ∧
      ∀ n, n < s'.ticks → n < u'.ticks → (n ∈ ns ↔ n ∈ ms) := by
  obtain ⟨ns, a1, a2, a3⟩ := h1
  obtain ⟨ms, b1, b2, b3⟩ := h2
  refine ⟨ns, ms, a1, b1, fun n hn hm => ⟨fun h => ?_, fun h => ?_⟩⟩
  · obtain ⟨i, hi⟩ := List.mem_iff_getElem?.1 h
    exact List.mem_of_getElem? (b3 i n (a2 i n hi).1 hm)
  · obtain ⟨i, hi⟩ := List.mem_iff_getElem?.1 h
    exact List.mem_of_getElem? (a3 i n (b2 i n hi).1 hn)

/-- C11. Take two executions of timers with the same clock, in which `k` has just run at the same tick and
is the same task. Whatever other tasks there are and whatever is done with them in the one and in the
other, and in whatever state everything else is: `k` is attempted at the same ticks.

What is missing to the full C11 is the case that the scheduler thread dies from a panic of another task's
closure (`C11_violated`). -/
theorem C11_partial {env env' : Env} {k : Nat} {t : Task} {s s' u u' : St} {ls ms : List Label}
    (hclk : env.clock = env'.clock) (htick : s.ticks = u.ticks)
    (h : JustRun k t s) (hr : Reachable env s) (hf : NeverHeldBack t s)
    (hl : ∀ l ∈ ls, ¬ Touches k l) (hrun : run env s ls = some s') (hp : s'.tpc ≠ .panicked)
    (h' : JustRun k t u) (hr' : Reachable env' u) (hf' : NeverHeldBack t u)
    (hl' : ∀ l ∈ ms, ¬ Touches k l) (hrun' : run env' u ms = some u') (hp' : u'.tpc ≠ .panicked)
    (h0 : runsLeft t ≠ some 0) :
    ∃ ns ms, attempts k s'.log = attempts k s.log ++ ns ∧ attempts k u'.log = attempts k u.log ++ ms ∧
      ∀ n, n < s'.ticks → n < u'.ticks → (n ∈ ns ↔ n ∈ ms) := by
  have h1 := (h.table hr hf h0 hl hrun hp).1
  have h2 := (h'.table hr' hf' h0 hl' hrun' hp').1
  rw [← hclk, ← htick] at h2
  exact OnSchedule.agree h1 h2

/-- C11 for a task that is just being added. -/
theorem C11_added_partial {env env' : Env} {k hand exec ts : Nat} {t : Task} {s s1 s' u u1 u' : St}
    {ls ms : List Label} (hclk : env.clock = env'.clock) (htick : s.ticks = u.ticks)
    (hlook : BeforeLook s.tpc ↔ BeforeLook u.tpc) (hlim : t.maximumParallelRunnableNum = none)
    (h0 : runsLeft t ≠ some 0)
    (h : AboutToInsert k t hand exec ts s) (hr : Reachable env s) (hs : step env s .eNext = some s1)
    (hl : ∀ l ∈ ls, ¬ Touches k l) (hrun : run env s1 ls = some s') (hp : s'.tpc ≠ .panicked)
    (h' : AboutToInsert k t hand exec ts u) (hr' : Reachable env' u) (hs' : step env' u .eNext = some u1)
    (hl' : ∀ l ∈ ms, ¬ Touches k l) (hrun' : run env' u1 ms = some u') (hp' : u'.tpc ≠ .panicked) :
    ∃ ns ms, attempts k s'.log = attempts k s.log ++ ns ∧ attempts k u'.log = attempts k u.log ++ ms ∧
      ∀ n, n < s'.ticks → n < u'.ticks → (n ∈ ns ↔ n ∈ ms) := by
  obtain ⟨ns, ds, a1, _, a2, a3, _⟩ := (h.after hr hs hl hrun).complete (Or.inl hlim) h0 hp
  obtain ⟨ms, es, b1, _, b2, b3, _⟩ := (h'.after hr' hs' hl' hrun').complete (Or.inl hlim) h0 hp'
  have hb : base s = base u := by
    rw [base_eq, base_eq, htick]
    by_cases hx : BeforeLook u.tpc
    · rw [if_pos hx, if_pos (hlook.2 hx)]
    · rw [if_neg hx, if_neg (fun h => hx (hlook.1 h))]
  rw [← hclk, ← hb] at b2 b3
  exact OnSchedule.agree ⟨ns, a1, a2, a3⟩ ⟨ms, b1, b2, b3⟩

theorem panicked_step {env : Env} {s : St} {l : Label} {s' : St} (hp : s.tpc = .panicked) (h : Act env s l s') :
    s'.tpc = .panicked ∧ s'.ticks = s.ticks ∧ ∀ k, attempts k s'.log = attempts k s.log ∧
      startTicks k s'.log = startTicks k s.log := by
  have hT : s'.tpc = .panicked ∧ s'.ticks = s.ticks := by
    cases h
    all_goals try (exact ⟨hp, rfl⟩)
    all_goals try (have hx := hp.symm.trans ‹s.tpc = _›; cases hx; done)
    all_goals (refine ⟨?_, ?_⟩ <;> simp [hp])
  refine ⟨hT.1, hT.2, fun k => ⟨?_, ?_⟩⟩
  · rcases attempts_step k h with h | ⟨_, p, t, h, _⟩
    · exact h
    · rw [hT.1] at h; cases h
  · rcases starts_step k h with h | ⟨_, p, t, r, b, h, _⟩
    · exact h.1
    · rw [hp] at h; cases h

/-- Once the scheduler thread has panicked nothing is ever attempted again. -/
theorem panicked_forever {env : Env} : ∀ (ls : List Label) {s s' : St}, s.tpc = .panicked →
    run env s ls = some s' → s'.tpc = .panicked ∧ s'.ticks = s.ticks ∧ ∀ k,
      attempts k s'.log = attempts k s.log ∧ startTicks k s'.log = startTicks k s.log := by
  intro ls
  induction ls with
  | nil => intro s s' h hr; cases hr; exact ⟨h, rfl, fun _ => ⟨rfl, rfl⟩⟩
  | cons l ls ih =>
    intro s s' h hr
    simp only [run] at hr
    cases hs : step env s l with
    | none => rw [hs] at hr; cases hr
    | some s1 =>
      rw [hs] at hr
      obtain ⟨h1, h2, h3⟩ := panicked_step h (step_act hs)
      obtain ⟨h4, h5, h6⟩ := ih h1 hr
      exact ⟨h4, h5.trans h2, fun k => ⟨(h6 k).1.trans (h3 k).1, (h6 k).2.trans (h3 k).2⟩⟩

theorem crashed_step {env : Env} {s : St} {l : Label} {s' : St} (hc : Crashed env s) (hs : step env s l = some s') :
    Crashed env s' ∧ s'.ticks = s.ticks ∧ ∀ k, attempts k s'.log = attempts k s.log ∧
      startTicks k s'.log = startTicks k s.log := by
  have h := step_act hs
  have hT : s'.tpc = s.tpc ∧ s'.ticks = s.ticks := by
    obtain ⟨h1, ⟨p, t, box, m, hp, h2, h3⟩ | ⟨p, t, upd, hp, h2⟩⟩ := hc
    · cases h
      case append =>
        have hx : step env s .tAppend = none := by
          have : 18446744073709551616 ≤ m + box.startTime := by omega
          simp [step, tAppend, hp, h1, Task.limitOverflows, h2, this]
        rw [hx] at hs; cases hs
      all_goals try (exact ⟨rfl, rfl⟩)
      all_goals try (have hx := hp.symm.trans ‹s.tpc = _›; cases hx; done)
      all_goals (refine ⟨?_, ?_⟩ <;> simp [hp])
    · have hx : step env s .tSlot = none := by
        have : t.alarmOverflows = true := by
          cases ho : t.alarmOverflows with
          | true => rfl
          | false => exact absurd (alarmOverflows_iff.1 ho) h2
        simp [step, tSlot, hp, h1, this]
      cases h
      case slot_none => rw [hx] at hs; cases hs
      case slot_missing => rw [hx] at hs; cases hs
      case slot_ok => rw [hx] at hs; cases hs
      all_goals try (exact ⟨rfl, rfl⟩)
      all_goals try (have hx := hp.symm.trans ‹s.tpc = _›; cases hx; done)
      all_goals (refine ⟨?_, ?_⟩ <;> simp [hp])
  have hno : (∀ p t, s.tpc ≠ .check p t) ∧ ∀ p t r, s.tpc ≠ .spawn p t r := by
    obtain ⟨_, ⟨p, t, box, m, hp, _⟩ | ⟨p, t, upd, hp, _⟩⟩ := hc <;> rw [hp] <;> simp
  refine ⟨⟨hc.1, by rw [hT.1]; exact hc.2⟩, hT.2, fun k => ⟨?_, ?_⟩⟩
  · rcases attempts_step k h with h | ⟨_, p, t, h, _⟩
    · exact h
    · rw [hT.1] at h; exact absurd h (hno.1 p t)
  · rcases starts_step k h with h | ⟨_, p, t, r, b, h, _⟩
    · exact h.1
    · exact absurd h (hno.2 _ _ _)

/-- Once the scheduler thread has panicked on a deadline or an alarm nothing is ever attempted again. -/
theorem crashed_forever {env : Env} : ∀ (ls : List Label) {s s' : St}, Crashed env s →
    run env s ls = some s' → Crashed env s' ∧ s'.ticks = s.ticks ∧ ∀ k,
      attempts k s'.log = attempts k s.log ∧ startTicks k s'.log = startTicks k s.log := by
  intro ls
  induction ls with
  | nil => intro s s' h hr; cases hr; exact ⟨h, rfl, fun _ => ⟨rfl, rfl⟩⟩
  | cons l ls ih =>
    intro s s' h hr
    simp only [run] at hr
    cases hs : step env s l with
    | none => rw [hs] at hr; cases hr
    | some s1 =>
      rw [hs] at hr
      obtain ⟨h1, h2, h3⟩ := crashed_step h hs
      obtain ⟨h4, h5, h6⟩ := ih h1 hr
      exact ⟨h4, h5.trans h2, fun k => ⟨(h6 k).1.trans (h3 k).1, (h6 k).2.trans (h3 k).2⟩⟩

namespace Ex

/-- Tasks 1 and 2 wait; 2 comes first and its closure is about to be called. -/
def twoLs : List Label := add (every 1 105 5) ++ add (every 2 102 5) ++ idles 3 ++
  [.tLoad, .tStore, .tArrive, .tPop 2, .tCheck 0]

def twoS : St := play env0 twoLs

end Ex

/-- C11 is violated: in the same state, whether or not the closure of task 2 panics decides whether task 1
is started at tick 6 or never. The closure of an async task is called by the scheduler thread itself. -/
theorem C11_violated : Reachable Ex.env0 Ex.twoS ∧
    (∃ s1 ls s2, step Ex.env0 Ex.twoS (.tSpawn false) = some s1 ∧ run Ex.env0 s1 ls = some s2 ∧
      startTicks 1 s2.log = [6]) ∧
    (∃ s1, step Ex.env0 Ex.twoS (.tSpawn true) = some s1 ∧
      ∀ ls s2, run Ex.env0 s1 ls = some s2 → startTicks 1 s2.log = []) := by
  refine ⟨Ex.play_reachable (by decide +kernel), ⟨_, [.tAppend, .tGate, .tSlot, .tMark, .tLapse] ++ Ex.idles 2 ++
    Ex.fire 1 1, _, rfl, rfl, by decide +kernel⟩, _, rfl, fun ls s2 h => ?_⟩
  rw [((panicked_forever ls rfl h).2.2 1).2]
  decide +kernel

namespace Ex

/-- A build with overflow checks. -/
def envChecked : Env := { env0 with overflowChecks := true }

/-- Tasks 1 and 2 wait; 2, which may run for `m` seconds, comes first and is started. -/
def limitLs (m : Nat) : List Label :=
  add (every 1 105 5) ++ add { every 2 102 5 with maximumRunningTime := some m } ++ idles 3 ++
  [.tLoad, .tStore, .tArrive, .tPop 2, .tCheck 0, .tSpawn false]

end Ex

/-- C11 is violated as well, in builds with overflow checks, by a running time limit of another task that
overflows when added to the clock: the scheduler thread panics when task 2 is started, and task 1 is never
started. With an ordinary limit for task 2 it is started at tick 6. -/
theorem C11_fails_limit :
    (∃ s ls s', run Ex.envChecked (init Ex.envChecked) (Ex.limitLs 9) = some s ∧ run Ex.envChecked s ls = some s' ∧
      startTicks 1 s'.log = [6]) ∧
    (∃ s, run Ex.envChecked (init Ex.envChecked) (Ex.limitLs U64_MAX) = some s ∧
      ∀ ls s', run Ex.envChecked s ls = some s' → startTicks 1 s'.log = []) := by
  refine ⟨⟨_, [.tAppend, .tGate, .tSlot, .tMark, .tLapse] ++ Ex.idles 2 ++ Ex.fire 1 1, _, rfl, rfl, by decide +kernel⟩,
    _, rfl, fun ls s' h => ?_⟩
  rw [((crashed_forever ls ⟨rfl, Or.inl ⟨_, _, _, _, rfl, rfl, by decide +kernel⟩⟩ h).2.2 1).2]
  decide +kernel

namespace Ex

/-- Tasks 1 and 2 wait; 2 has a period of `p` seconds, is advanced and has just run. -/
def hugeLs (p : Nat) : List Label := add (every 1 105 5) ++ add (every 2 (100 + p) p) ++
  [.uSend (.advance 2), .eRecv, .eNext, .eNext] ++ idle ++ [.tLoad, .tStore, .tArrive, .tPop 2, .tCheck 0, .tSpawn false, .tAppend, .tGate]

end Ex

/-- C11 is violated as well, in builds with overflow checks, by the period of another task if its second alarm does not
fit 64 bits: when that task is advanced and has run, the scheduler thread panics, and task 1 is never started. With an
ordinary period of task 2 it is started at tick 6. -/
theorem C11_fails_alarm :
    (∃ s ls s', run Ex.envChecked (init Ex.envChecked) (Ex.hugeLs 50) = some s ∧ run Ex.envChecked s ls = some s' ∧
      startTicks 1 s'.log = [6]) ∧
    (∃ s, run Ex.envChecked (init Ex.envChecked) (Ex.hugeLs (2 ^ 63)) = some s ∧
      ∀ ls s', run Ex.envChecked s ls = some s' → startTicks 1 s'.log = []) := by
  refine ⟨⟨_, [.tSlot, .tMark, .tLapse] ++ Ex.idles 4 ++ Ex.fire 1 1, _, rfl, rfl, by decide +kernel⟩,
    _, rfl, fun ls s' h => ?_⟩
  rw [((crashed_forever ls ⟨rfl, Or.inr ⟨_, _, _, rfl, ?_⟩⟩ h).2.2 1).2]
  · decide +kernel
  · exact fun hf => absurd (hf 0 (by decide) _ rfl) (by decide +kernel)

/-! ## Examples

Task 1 (first alarm 103, period 5) is added in the middle of tick 0 and has just run in tick 4; task 2 is
there as well and does not matter. -/
namespace Ex

def runPre : List Label := [.tLoad, .tStore]

def runPost : List Label := [.eRecv, .eNext, .eNext, .eNext] ++ add (every 2 200 7) ++ [.tArrive, .tLapse] ++ idles 3 ++
  pop 1 0

def runLs : List Label := runPre ++ .uSend (.add (every 1 103 5)) :: runPost

theorem runLs_run : (run env0 (init env0) runLs).isSome := by decide +kernel

def runS : St := play env0 runLs

/-- The task as it is re-armed. -/
def runT : Task := { every 1 103 5 with frequency := .secondsRepeated ⟨104, 4, false⟩ }

theorem runS_justRun : JustRun 1 runT runS :=
  justRun_once (t := every 1 103 5) (ls1 := runPre) (ls2 := runPost) (p := []) (upd := true) (Or.inl rfl) (by decide)
    (by decide) (play_run runLs_run) rfl rfl rfl

theorem runS_reachable : Reachable env0 runS := play_reachable runLs_run

theorem runT_alarm : EveryFrom 108 5 runT := by
  intro j hj
  have := alarm_every 1 103 5 (by decide) (j + 1) (by omega)
  rw [show alarm (j + 1) (every 1 103 5) = alarm j runT from rfl] at this
  rw [this]; congr 1; omega

/-- What happens next: two more runs, while task 2 is advanced, cancelled and removed. -/
def runRest : List Label := [.tSlot, .tMark, .tLapse] ++ idles 2 ++ [.uSend (.cancel 2 5), .eRecv, .eRecv] ++ idles 2 ++
  fire 1 1 ++ [.uSend (.remove 2), .eRecv, .eRecv, .eNext] ++ idles 4 ++ fire 1 2

def runS2 : St := (run env0 runS runRest).getD runS

/-- C07, C08, C09 (re-armed starts), C11: the hypotheses are met; the attempts are at 9 and 14. -/
example : JustRun 1 runT runS ∧ Reachable env0 runS ∧ NeverHeldBack runT runS ∧ runsLeft runT ≠ some 0 ∧
    (∀ l ∈ runRest, ¬ Touches 1 l) ∧ run env0 runS runRest = some runS2 ∧ runS2.tpc ≠ .panicked ∧
    Steady env0.clock ∧ Paced env0.clock ∧ env0.clock runS.ticks + 5 = 108 + 1 ∧ EveryFrom 108 5 runT ∧
    env0.clock runS2.ticks < 2 ^ 63 ∧
    attempts 1 runS.log = [4] ∧ attempts 1 runS2.log = [4, 9, 14] ∧ startTicks 1 runS2.log = [4, 9, 14] := by
  refine ⟨runS_justRun, runS_reachable, Or.inl rfl, by decide, by decide, rfl, ?_, fun _ => rfl, ?_, rfl, runT_alarm, by decide +kernel,
    by decide +kernel, by decide +kernel, by decide +kernel⟩
  · rw [show runS2.tpc = .head from rfl]; simp
  · intro n m; show 100 + n + m ≤ 100 + (n + m) + 1; omega

/-- Two different continuations of that state, for C11. -/
example : (∀ l ∈ runRest.take 11, ¬ Touches 1 l) ∧ (∀ l ∈ [Label.tSlot, .tMark, .tLapse] ++ idles 3, ¬ Touches 1 l) ∧
    (run env0 runS (runRest.take 11)).isSome ∧ (run env0 runS ([.tSlot, .tMark, .tLapse] ++ idles 3)).isSome :=
  ⟨by decide, by decide, by decide +kernel, by decide +kernel⟩

/-- A clock that jumps by 20 seconds at tick 4, for C10. -/
def envJump : Env := { env0 with clock := fun n => if n < 4 then 100 + n else 120 + n }

def jumpS : St := play envJump runLs

theorem jumpLs_run : (run envJump (init envJump) runLs).isSome := by decide +kernel

/-- C10: when task 1 has run at tick 4 the clock shows 124, its alarms 108, 113, 118, 123 and 128 are or get
overdue; the attempts come at ticks 6, 8, 10, 12, 14 until the sixth alarm (133) is on time. -/
example : JustRun 1 runT jumpS ∧ Reachable envJump jumpS ∧ NeverHeldBack runT jumpS ∧ runsLeft runT = none ∧
    (∀ j, j < 5 → ∃ a, alarm j runT = some a ∧ a < envJump.clock (jumpS.ticks + 2 * j)) ∧
    ∃ s', run envJump jumpS ([.tSlot, .tMark, .tLapse] ++ idle ++ fire 1 1 ++ idle ++ fire 1 2 ++ idle ++ fire 1 3) = some s' ∧
      attempts 1 s'.log = [4, 6, 8, 10] := by
  refine ⟨justRun_once (t := every 1 103 5) (ls1 := runPre) (ls2 := runPost) (p := []) (upd := true) (Or.inl rfl)
    (by decide) (by decide) (play_run jumpLs_run) rfl rfl rfl, play_reachable jumpLs_run, Or.inl rfl, rfl, ?_,
    _, rfl, by decide +kernel⟩
  intro j hj
  refine ⟨_, runT_alarm j (by omega), ?_⟩
  rw [show jumpS.ticks = 4 from rfl]
  show _ < if 4 + 2 * j < 4 then 100 + (4 + 2 * j) else 120 + (4 + 2 * j)
  rw [if_neg (by omega)]
  omega

/-- A steady clock with a task whose alarms are long over, for `C10_caught_up` and `C10_never_caught_up`:
built at 100 with a clock of 140 at tick 0. -/
def envLate : Env := { env0 with clock := fun n => 140 + n, boot := 140 }

def lateLs (p : Nat) : List Label := [.uSend (.add (every 1 103 p)), .eRecv, .eNext, .eNext, .eNext] ++ idles 2 ++ pop 1 0

def lateT (p : Nat) : Task := { every 1 103 p with frequency := .secondsRepeated ⟨104, p - 1, false⟩ }

theorem lateT_alarm {p : Nat} (hp : 0 < p) : EveryFrom (103 + p) p (lateT p) := by
  intro j hj
  have := alarm_every 1 103 p hp (j + 1) (by rw [Nat.add_mul]; omega)
  rw [show alarm (j + 1) (every 1 103 p) = alarm j (lateT p) from rfl] at this
  rw [this, Nat.add_mul]; congr 1; omega

theorem late_justRun (p : Nat) (h : (run envLate (init envLate) (lateLs p)).isSome)
    (h2 : (play envLate (lateLs p)).tpc = .rearm [] (lateT p) true) : JustRun 1 (lateT p) (play envLate (lateLs p)) :=
  justRun_once (t := every 1 103 p) (ls1 := []) (ls2 := (lateLs p).drop 1) (p := []) (upd := true) (Or.inl rfl) (by decide)
    (by rintro l hl; simp only [lateLs, idles, idle, pop, List.drop, List.nil_append,
          List.cons_append] at hl
        simp only [List.mem_cons, List.not_mem_nil, or_false] at hl
        rcases hl with rfl | rfl | rfl | rfl | rfl | rfl | rfl | rfl | rfl | rfl | rfl | rfl | rfl | rfl | rfl | rfl |
          rfl | rfl | rfl | rfl <;> exact id)
    (play_run h) h2 rfl rfl

example : Steady envLate.clock ∧ JustRun 1 (lateT 10) (play envLate (lateLs 10)) ∧
    EveryFrom 113 10 (lateT 10) ∧ 113 < envLate.clock (play envLate (lateLs 10)).ticks ∧
    JustRun 1 (lateT 2) (play envLate (lateLs 2)) ∧
    EveryFrom 105 2 (lateT 2) ∧ 105 < envLate.clock (play envLate (lateLs 2)).ticks :=
  ⟨fun _ => rfl, late_justRun 10 (by decide +kernel) rfl, lateT_alarm (p := 10) (by decide), by decide +kernel,
    late_justRun 2 (by decide +kernel) rfl, lateT_alarm (p := 2) (by decide), by decide +kernel⟩

end Ex

end DelayTimer
