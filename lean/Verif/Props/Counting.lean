import Verif.Spec.Counting
import Verif.Props.Cron

/-!
# C80: a task object counts its runs and its revolutions exactly

The crate tests this on a few numbers (src/timer/task.rs:1130-1378); here for all of them.
-/

namespace DelayTimer
open Spec

/-- A task that has `n + 1` runs left says "go on" `n` times and "that was the last one" then. -/
theorem count_answers (oc : Bool) : ∀ (n : Nat) (t : Task), runsLeft t = some (n + 1) →
    countAnswers oc (n + 1) t = some (List.replicate n true ++ [false])
  | 0, t, h => by
    cases hf : t.frequency <;> simp only [runsLeft, hf, reduceCtorEq, Option.some.injEq] at h
    all_goals
      subst h
      simp [countAnswers, Task.downCountAndSetValid, hf, FrequencyInner.downCount, decU64, FrequencyInner.isDownOver]
  | n + 1, t, h => by
    have hstep : ∃ t', t.downCountAndSetValid oc = some (true, t') ∧ runsLeft t' = some (n + 1) := by
      cases hf : t.frequency <;> simp only [runsLeft, hf, reduceCtorEq, Option.some.injEq] at h
      all_goals
        subst h
        exact ⟨_, by simp [Task.downCountAndSetValid, hf, FrequencyInner.downCount, decU64, FrequencyInner.isDownOver]; rfl,
          by simp [runsLeft]⟩
    obtain ⟨t', h1, h2⟩ := hstep
    rw [countAnswers, h1]
    simp only [count_answers oc n t' h2, Option.map_some, List.replicate_succ, List.cons_append]

/-- A repeating task always says "go on". -/
theorem repeat_answers (oc : Bool) : ∀ (n : Nat) (t : Task), runsLeft t = none →
    countAnswers oc n t = some (List.replicate n true)
  | 0, _, _ => rfl
  | n + 1, t, h => by
    have hstep : ∃ t', t.downCountAndSetValid oc = some (true, t') ∧ runsLeft t' = none := by
      cases hf : t.frequency <;> simp only [runsLeft, hf, reduceCtorEq] at h
      all_goals
        exact ⟨_, by simp [Task.downCountAndSetValid, hf, FrequencyInner.downCount, FrequencyInner.isDownOver]; rfl,
          by simp [runsLeft]⟩
    obtain ⟨t', h1, h2⟩ := hstep
    rw [countAnswers, h1]
    simp only [repeat_answers oc n t' h2, Option.map_some, List.replicate_succ]

/-- C80, runs. A task built for `n + 1` runs answers `true` to the first `n` count-downs and `false` to the next one;
one built for repetition answers `true` for ever. The period is any number of seconds, minutes, hours or days, or a cron
expression. -/
theorem C80_runs (oc : Bool) {t : Task} {b : TaskBuilder} {routine : Nat} {kind : Kind}
    (h : shape t = expectedShape b routine kind) :
    (∀ n, kind.runs = some (n + 1) → countAnswers oc (n + 1) t = some (List.replicate n true ++ [false])) ∧
    (kind.runs = none → ∀ n, countAnswers oc n t = some (List.replicate n true)) := by
  have hr : runsLeft t = kind.runs := congrArg Shape.runs h
  exact ⟨fun n hn => count_answers oc n t (hr.trans hn), fun hn n => repeat_answers oc n t (hr.trans hn)⟩

/-- `test_task_valid`, `test_count_down` with any period and any count: by seconds. -/
theorem C80_count_down_seconds (oc : Bool) (analyze : TimeZone → String → Option CronIter) (b : TaskBuilder)
    (routine now s n : Nat) (hs : 0 < s) (hfit : now + s < 2 ^ 64) :
    ∃ t, (b.countDownBySeconds s (n + 1)).spawn oc now analyze routine = .ok t ∧
      countAnswers oc (n + 1) t = some (List.replicate n true ++ [false]) := by
  obtain ⟨t, h1, h2, _⟩ := C01_seconds_progression_partial oc analyze b (.countDown (n + 1)) routine now s hs hfit
  exact ⟨t, h1, (C80_runs oc h2).1 n rfl⟩

/-- By minutes, hours and days. -/
theorem C80_count_down_units (oc : Bool) (analyze : TimeZone → String → Option CronIter) (u : Unit') (b : TaskBuilder)
    (routine now k n : Nat) (hk : 0 < k) (hfit : now + u.seconds * k < 2 ^ 64) :
    ∃ b' t, setUnits oc b k u (.countDown (n + 1)) = .ok b' ∧ b'.spawn oc now analyze routine = .ok t ∧
      countAnswers oc (n + 1) t = some (List.replicate n true ++ [false]) := by
  have hu : 0 < u.seconds := by cases u <;> decide
  obtain ⟨t, h1, h2⟩ := C80_count_down_seconds oc analyze b routine now (u.seconds * k) n (Nat.mul_pos hu hk) hfit
  exact ⟨_, t, C02_units oc u _ b k (by omega), h1, h2⟩

/-- By a cron expression, whatever was built before in the thread. -/
theorem C80_count_down_cron (oc : Bool) (parse : CronParser) (eval : CronEval) (hist : List CronCall) (b : TaskBuilder)
    (routine now n : Nat) (s : String) (p : CronSpec) (m : Int → Prop) (hp : parse (trimBlanks s) = some p)
    (hm : Iterates (eval p b.timeZone) m) (hfit : ∀ x, m x → x < 2 ^ 63) :
    ∃ t, (b.countDownByCronStr s (n + 1)).spawn oc now (analyzeIn parse eval now hist) routine = .ok t ∧
      countAnswers oc (n + 1) t = some (List.replicate n true ++ [false]) := by
  obtain ⟨t, h1, h2, _⟩ := C53_cron_alarms oc parse eval hist b (.countDown (n + 1)) routine now s p m hp hm hfit
  exact ⟨t, h1, (C80_runs oc h2).1 n rfl⟩

/-- The limit of it: a count of zero. With overflow checks the first count-down panics; without them the task answers
`true` and has 2^64 - 1 runs left. -/
theorem C80_zero (t : Task) (h : runsLeft t = some 0) :
    countAnswers true 1 t = none ∧
    ∃ t', t.downCountAndSetValid false = some (true, t') ∧ runsLeft t' = some (2 ^ 64 - 1) := by
  cases hf : t.frequency <;> simp only [runsLeft, hf, reduceCtorEq, Option.some.injEq] at h
  all_goals
    subst h
    refine ⟨by simp [countAnswers, Task.downCountAndSetValid, hf, FrequencyInner.downCount, decU64], ?_⟩
    simp [Task.downCountAndSetValid, hf, FrequencyInner.downCount, decU64, FrequencyInner.isDownOver, U64_MAX, runsLeft]

/-- C80, revolutions. A task with `c` revolutions to go answers `false` to the next `c` visits of the second hand. It is
ready after exactly `c` of them: not before, and from then on at every visit. -/
theorem C80_revolutions : ∀ (c : Nat) (t : Task), t.valid = true → t.cylinderLine = c →
    visitAnswers c t = List.replicate c false ∧
    (∀ j, j < c → (visited j t).isCanRunning = false ∧ (visited j t).isAlready = false) ∧
    (∀ j, (visited (c + j) t).isCanRunning = true ∧ (visited (c + j) t).isAlready = true ∧
      (visited (c + j) t).checkArrived.1 = true)
  | 0, t, hv, hc => by
    have hone : t.checkArrived = (true, t) := by
      simp [Task.checkArrived, hc, Task.isCanRunning, hv, Task.isAlready]
    have hstay : ∀ j, visited j t = t := by
      intro j
      induction j with
      | zero => rfl
      | succ j ih => rw [visited, hone]; exact ih
    refine ⟨rfl, fun j h => absurd h (by omega), fun j => ?_⟩
    rw [Nat.zero_add, hstay j, hone]
    simp [Task.isCanRunning, Task.isAlready, hv, hc]
  | c + 1, t, hv, hc => by
    have hone : t.checkArrived = (false, { t with cylinderLine := c }) := by
      simp [Task.checkArrived, hc]
    obtain ⟨h1, h2, h3⟩ := C80_revolutions c { t with cylinderLine := c } hv rfl
    refine ⟨?_, ?_, ?_⟩
    · rw [visitAnswers, hone, List.replicate_succ]; exact congrArg _ h1
    · intro j hj
      cases j with
      | zero => simp [visited, Task.isCanRunning, Task.isAlready, hc]
      | succ j => rw [visited, hone]; exact h2 j (by omega)
    · intro j
      rw [show c + 1 + j = (c + j) + 1 by omega, visited, hone]
      exact h3 j

/-- A task whose runs are used up is never ready, however often the second hand comes by. -/
theorem C80_over (n : Nat) (t : Task) (hv : t.valid = false) :
    (visited n t).isCanRunning = false ∧ visitAnswers n t = List.replicate n false := by
  induction n generalizing t with
  | zero => simp [visited, visitAnswers, Task.isCanRunning, hv]
  | succ n ih =>
    have hone : t.checkArrived.1 = false ∧ t.checkArrived.2.valid = false := by
      unfold Task.checkArrived
      split <;> simp [Task.isCanRunning, hv]
    obtain ⟨h1, h2⟩ := ih _ hone.2
    exact ⟨by rw [visited]; exact h1, by rw [visitAnswers, hone.1, h2, List.replicate_succ]⟩

/-- C80, cron expressions (`test_analyze_cron_expression`): the same expression analysed at two times, whatever was
analysed before and in between. The two iterations begin with the same instant if and only if no matching instant lies
after the first analysis and not after the second. -/
theorem C80_analysed_twice (parse : CronParser) (eval : CronEval) (h1 h2 : List CronCall) (z : TimeZone) (s : String)
    (p : CronSpec) (m : Int → Prop) (hp : parse (trimBlanks s) = some p) (hm : Iterates (eval p z) m)
    {now1 now2 : Nat} (hle : now1 ≤ now2) :
    ∃ a b, analyzeIn parse eval now1 h1 z s = some a ∧ analyzeIn parse eval now2 h2 z s = some b ∧
      (a.next.1 = b.next.1 ↔ ¬ ∃ x : Int, (now1 : Int) < x ∧ x ≤ now2 ∧ m x) := by
  have ha : ∀ (now : Nat) hist, analyzeIn parse eval now hist z s = some ⟨eval p z, now⟩ := by
    intro now hist
    unfold analyzeIn
    rw [C35_cache_transparent]
    simp [freshIterator, hp, CronOwned.iter]
  refine ⟨_, _, ha _ _, ha _ _, ?_⟩
  have hn : ∀ now : Nat, (CronIter.next ⟨eval p z, now⟩).1 = (eval p z).nextAfter now := by
    intro now
    unfold CronIter.next
    cases h : (eval p z).nextAfter now <;> simp
  rw [hn, hn]
  obtain ⟨s1, n1⟩ := hm now1
  obtain ⟨s2, n2⟩ := hm now2
  constructor
  · rintro heq ⟨x, hx1, hx2, hx⟩
    cases h : (eval p z).nextAfter now1 with
    | none => exact n1 h x hx1 hx
    | some a =>
      obtain ⟨_, _, hmin⟩ := s1 a h
      obtain ⟨hlt, _, _⟩ := s2 a (heq ▸ h)
      have := hmin x hx1 hx
      omega
  · intro hno
    cases h : (eval p z).nextAfter now1 with
    | none =>
      cases h' : (eval p z).nextAfter now2 with
      | none => rfl
      | some b =>
        obtain ⟨hb1, hb2, _⟩ := s2 b h'
        exact absurd hb2 (n1 h b (by omega))
    | some a =>
      obtain ⟨ha1, ha2, ha3⟩ := s1 a h
      have hgt : (now2 : Int) < a := by
        apply Classical.byContradiction; intro hc
        exact hno ⟨a, ha1, by omega, ha2⟩
      cases h' : (eval p z).nextAfter now2 with
      | none => exact absurd ha2 (n2 h' a hgt)
      | some b =>
        obtain ⟨hb1, hb2, hb3⟩ := s2 b h'
        have g1 := hb3 a hgt ha2
        have g2 := ha3 b (by omega) hb2
        rw [show a = b by omega]

namespace Ex

/-- The numbers of `test_count_down`: every second three times, and every ten hours ten times. -/
example : ∃ t, (TaskBuilder.default.countDownBySeconds 1 3).spawn true 1000 (fun _ _ => none) 0 = .ok t ∧
    countAnswers true 3 t = some [true, true, false] :=
  C80_count_down_seconds true _ _ 0 1000 1 2 (by decide) (by decide)

example : ∃ b' t, setUnits true .default 10 .hours (.countDown 10) = .ok b' ∧
    b'.spawn true 1000 (fun _ _ => none) 0 = .ok t ∧
    countAnswers true 10 t = some (List.replicate 9 true ++ [false]) :=
  C80_count_down_units true _ .hours .default 0 1000 10 9 (by decide) (by decide)

/-- Three revolutions to go. -/
example : visitAnswers 3 { taskId := 1, routine := 0, frequency := .secondsRepeated (.new 1 1), maximumRunningTime := none, cylinderLine := 3, valid := true, maximumParallelRunnableNum := none } =
    [false, false, false] := (C80_revolutions 3 _ rfl rfl).1

/-- Every minute, analysed at 100 and again at 110 and at 130: the minute 120 tells the third apart from the first. -/
example : ∃ a b c, analyzeIn (fun _ => some 1) (fun _ _ => minutely) 100 [] .utc " x" = some a ∧
    analyzeIn (fun _ => some 1) (fun _ _ => minutely) 110 [⟨100, .utc, "x"⟩] .utc "x" = some b ∧
    analyzeIn (fun _ => some 1) (fun _ _ => minutely) 130 [⟨100, .utc, "x"⟩] .utc "x" = some c ∧
    a.next.1 = b.next.1 ∧ a.next.1 ≠ c.next.1 := by
  obtain ⟨a, b, ha, hb, hab⟩ := C80_analysed_twice (fun _ => some 1) (fun _ _ => minutely) [] [⟨100, .utc, "x"⟩] .utc "x" _ _ rfl
    minutely_iterates (now1 := 100) (now2 := 110) (by decide)
  obtain ⟨a', c, ha', hc, hac⟩ := C80_analysed_twice (fun _ => some 1) (fun _ _ => minutely) [] [⟨100, .utc, "x"⟩] .utc "x" _ _ rfl
    minutely_iterates (now1 := 100) (now2 := 130) (by decide)
  rw [ha] at ha'
  cases ha'
  refine ⟨a, b, c, ?_, hb, hc, hab.2 ?_, fun h => hac.1 h ⟨120, by decide, by decide, by decide⟩⟩
  · rw [← ha]; rfl
  · rintro ⟨x, h1, h2, h3, _⟩; omega

end Ex
end DelayTimer
