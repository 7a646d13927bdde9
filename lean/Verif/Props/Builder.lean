import Verif.Proofs.Frequency

/-! # Properties of task building: C01, C02, C03, C48 -/

namespace DelayTimer
open Spec

/-- The public setter `set_frequency_{once,repeated,count_down}_by_seconds` of a kind. -/
def setSeconds (b : TaskBuilder) (secs : Nat) : Kind → TaskBuilder
  | .once => b.onceBySeconds secs
  | .repeated => b.repeatedBySeconds secs
  | .countDown n => b.countDownBySeconds secs n

/-- The public setter `set_frequency_*_by_{minutes,hours,days}` of a kind and unit. -/
def setUnits (oc : Bool) (b : TaskBuilder) (k : Nat) : Unit' → Kind → Outcome TaskBuilder
  | .minutes, .once => b.onceByMinutes oc k
  | .minutes, .repeated => b.repeatedByMinutes oc k
  | .minutes, .countDown n => b.countDownByMinutes oc k n
  | .hours, .once => b.onceByHours oc k
  | .hours, .repeated => b.repeatedByHours oc k
  | .hours, .countDown n => b.countDownByHours oc k n
  | .days, .once => b.onceByDays oc k
  | .days, .repeated => b.repeatedByDays oc k
  | .days, .countDown n => b.countDownByDays oc k n

/-- The shape a task must have when built from `b` with a schedule of the given kind. -/
def expectedShape (b : TaskBuilder) (routine : Nat) (kind : Kind) : Shape where
  id := b.taskId
  routine := routine
  runs := kind.runs
  timeLimit := b.maximumRunningTime
  parallelLimit := b.maximumParallelRunnableNum

variable (oc : Bool) (analyze : TimeZone → String → Option CronIter)

/-- C01, partial: alarms beyond 64 bits wrap around (`C01_fails`). Building with `s > 0` seconds succeeds; the k-th alarm
is `now + (k+1)*s`, taken in 64 bits, whatever count-downs happen in between; everything else is as requested. -/
theorem C01_seconds_progression_partial (b : TaskBuilder) (kind : Kind) (routine now s : Nat)
    (hs : 0 < s) (hfit : now + s < 2 ^ 64) :
    ∃ t, (setSeconds b s kind).spawn oc now analyze routine = .ok t ∧
      shape t = expectedShape b routine kind ∧
      (∀ k, alarm k t = some ((now + (k + 1) * s) % 2 ^ 64)) ∧
      (∀ c t', downs oc c t = some t' → ∀ k, alarm k t' = some ((now + (k + 1) * s) % 2 ^ 64)) := by
  have hadd : addU64 oc now s = .ok (now + s) := by
    unfold addU64 U64_SIZE; rw [if_pos (by omega)]
  have hss : secondsState oc now s = .ok (SecondsState.new (now + s) s) := by
    unfold secondsState; rw [if_neg (by omega), hadd]; rfl
  have key : ∀ n (t : Task), (t.frequency = .secondsRepeated (.new (now + s) s) ∨
      t.frequency = .secondsCountDown n (.new (now + s) s)) →
      (∀ k, alarm k t = some ((now + (k + 1) * s) % 2 ^ 64)) ∧
      (∀ c t', downs oc c t = some t' → ∀ k, alarm k t' = some ((now + (k + 1) * s) % 2 ^ 64)) := by
    intro n t ht
    have h1 : ∀ k, alarm k t = some ((now + (k + 1) * s) % 2 ^ 64) := by
      intro k
      rw [alarm_seconds_new n (now + s) s hs hfit t ht k]
      congr 1
      rw [Nat.add_mul, Nat.one_mul, Nat.add_assoc, Nat.add_comm s]
    exact ⟨h1, fun c t' h k => by rw [alarm_downs oc k c t t' h]; exact h1 k⟩
  cases kind with
  | once =>
    refine ⟨_, by
      simp [setSeconds, TaskBuilder.spawn, TaskBuilder.onceBySeconds, buildFrequency, hss,
        Outcome.bind]; rfl, ?_, key 1 _ (.inr rfl)⟩
    simp [shape, expectedShape, runsLeft, Kind.runs]
  | repeated =>
    refine ⟨_, by
      simp [setSeconds, TaskBuilder.spawn, TaskBuilder.repeatedBySeconds, buildFrequency, hss,
        Outcome.bind]; rfl, ?_, key 1 _ (.inl rfl)⟩
    simp [shape, expectedShape, runsLeft, Kind.runs]
  | countDown n =>
    refine ⟨_, by
      simp [setSeconds, TaskBuilder.spawn, TaskBuilder.countDownBySeconds, buildFrequency, hss,
        Outcome.bind]; rfl, ?_, key n _ (.inr rfl)⟩
    simp [shape, expectedShape, runsLeft, Kind.runs]

/-- C01, the rejected case. -/
theorem C01_zero_rejected (b : TaskBuilder) (kind : Kind) (routine now : Nat) :
    (setSeconds b 0 kind).spawn oc now analyze routine = .error := by
  cases kind <;> rfl

theorem addU64_fits {a b : Nat} (h : a + b < 2 ^ 64) : addU64 oc a b = .ok (a + b) := by
  unfold addU64 U64_SIZE; rw [if_pos (by omega)]

theorem addU64_panics {a b : Nat} (h : ¬ a + b < 2 ^ 64) : addU64 true a b = .panic := by
  unfold addU64 U64_SIZE; rw [if_neg (by omega)]; rfl

theorem addU64_wraps (a b : Nat) : addU64 false a b = .ok ((a + b) % 2 ^ 64) := by
  unfold addU64 U64_SIZE
  split
  · rw [Nat.mod_eq_of_lt (by omega)]
  · rfl

theorem nthU64_off : ∀ (k : Nat) (st : SecondsState) (t : Task), t.frequency = .secondsRepeated st →
    st.nthU64 false k = match alarm k t with | some a => .ok a | none => .panic := by
  intro k
  induction k with
  | zero =>
    intro st t h
    simp [SecondsState.nthU64, SecondsState.nextU64, Outcome.bind, alarm, Task.getNextExecTimestamp, h,
      FrequencyInner.nextAlarm]
  | succ k ih =>
    intro st t h
    simp only [SecondsState.nthU64, SecondsState.nextU64, Bool.false_and, Bool.false_eq_true, if_false, Outcome.bind, alarm]
    exact ih _ _ (by simp [Task.getNextExecTimestamp, h, FrequencyInner.nextAlarm])

theorem nthU64_on : ∀ (k : Nat) (st : SecondsState) (t : Task) (a : Nat), t.frequency = .secondsRepeated st →
    plainAlarm k t = some a →
    (a + 1 < 2 ^ 64 → st.nthU64 true k = .ok a) ∧ (¬ a + 1 < 2 ^ 64 → st.nthU64 true k = .panic) := by
  intro k
  induction k with
  | zero =>
    intro st t a h ha
    have ho : t.alarmOverflows = st.overflows := by simp [Task.alarmOverflows, h]
    constructor
    · intro h1
      have hf : AlarmsFit 1 t := by
        intro j hj b hb
        have : j = 0 := by omega
        subst this
        rw [ha] at hb; cases hb; exact h1
      have h2 := alarm_plain 0 t a hf ha
      rw [← alarmOverflows_iff, ho] at hf
      simp only [alarm, Task.getNextExecTimestamp, h, FrequencyInner.nextAlarm, Option.some.injEq] at h2
      simp [SecondsState.nthU64, SecondsState.nextU64, hf, Outcome.bind, h2]
    · intro h1
      have : st.overflows = true := by
        cases hx : st.overflows with
        | true => rfl
        | false =>
          rw [← ho, alarmOverflows_iff] at hx
          exact absurd (hx 0 (by omega) a ha) h1
      simp [SecondsState.nthU64, SecondsState.nextU64, this, Outcome.bind]
  | succ k ih =>
    intro st t a h ha
    have ho : t.alarmOverflows = st.overflows := by simp [Task.alarmOverflows, h]
    cases hx : st.overflows with
    | false =>
      have hf : AlarmsFit 1 t := by rw [← alarmOverflows_iff, ho]; exact hx
      simp only [SecondsState.nthU64, SecondsState.nextU64, hx, Bool.and_false, Bool.false_eq_true, if_false, Outcome.bind]
      exact ih _ t.getNextExecTimestamp.2 a (by simp [Task.getNextExecTimestamp, h, FrequencyInner.nextAlarm])
        (by rw [plain_ask hf]; exact ha)
    | true =>
      have h1 : ¬ a + 1 < 2 ^ 64 := by
        intro h1
        have : AlarmsFit 1 t := by
          intro j hj b hb
          have : j = 0 := by omega
          subst this
          simp only [plainAlarm, h, Option.some.injEq] at ha hb
          rw [Nat.add_mul] at ha
          omega
        rw [← alarmOverflows_iff, ho, hx] at this
        cases this
      refine ⟨fun h2 => absurd h2 h1, fun _ => ?_⟩
      simp [SecondsState.nthU64, SecondsState.nextU64, hx, Outcome.bind]

/-- C01 in 64 bits. The iterator of a task built at `now` with period `s` answers `now + (k+1)*s` to the `k`-th
question as long as this is less than `u64::MAX`; after that it panics if overflow checks are on and wraps around
otherwise. -/
theorem C01_u64 (now s k : Nat) (hs : 0 < s) (hfit : now + s < 2 ^ 64) :
    (SecondsState.new (now + s) s).nthU64 oc k =
      if now + (k + 1) * s + 1 < 2 ^ 64 then .ok (now + (k + 1) * s)
      else if oc then .panic else .ok ((now + (k + 1) * s) % 2 ^ 64) := by
  let t : Task := { taskId := 0, routine := 0, frequency := .secondsRepeated (.new (now + s) s), maximumRunningTime := none, cylinderLine := 0, valid := true, maximumParallelRunnableNum := none }
  have hsum : now + s + k * s = now + (k + 1) * s := by rw [Nat.add_mul, Nat.one_mul]; omega
  cases oc with
  | false =>
    rw [nthU64_off k _ t rfl, alarm_seconds_new 0 (now + s) s hs hfit t (.inl rfl) k, hsum]
    simp only [Bool.false_eq_true, if_false]
    split
    · rw [Nat.mod_eq_of_lt (by omega)]
    · rfl
  | true =>
    have hp : plainAlarm k t = some (now + (k + 1) * s) := by
      simp only [plainAlarm, t, SecondsState.new, if_true, Option.some.injEq]
      rw [show s - 1 + 1 = s by omega]; exact hsum
    obtain ⟨h1, h2⟩ := nthU64_on k _ t _ rfl hp
    split
    · exact h1 ‹_›
    · exact h2 ‹_›

/-- C01 fails for enormous periods: with a period of `2^63` seconds the second alarm is the time of the build. -/
theorem C01_fails (now : Nat) (h : now < 2 ^ 63) :
    (SecondsState.new (now + 2 ^ 63) (2 ^ 63)).nthU64 false 1 = .ok now := by
  rw [C01_u64 false now (2 ^ 63) 1 (by decide) (by omega), if_neg (by omega)]
  rw [if_neg (by simp), show (now + (1 + 1) * 2 ^ 63) % 2 ^ 64 = now by omega]

/-- A period of 2^63 seconds: the second alarm is the time of the build again, or a panic. -/
example : (SecondsState.new (400000 + 2 ^ 63) (2 ^ 63)).nthU64 false 1 = .ok 400000 ∧
    (SecondsState.new (400000 + 2 ^ 63) (2 ^ 63)).nthU64 true 1 = .panic := ⟨by rfl, by rfl⟩

/-- A concrete case: every 5 seconds from 1000 the third alarm is 1015. -/
example : ∃ t, (setSeconds (TaskBuilder.default.setTaskId 7) 5 .repeated).spawn true 1000
    (fun _ _ => none) 0 = .ok t ∧ alarm 2 t = some 1015 ∧ (shape t).id = 7 :=
  ⟨_, rfl, by decide, rfl⟩

theorem setUnits_eq (u : Unit') (kind : Kind) (b : TaskBuilder) (k : Nat) :
    setUnits oc b k u kind =
      (mulU64 oc u.seconds k).bind fun x => .ok (setSeconds b x kind) := by
  cases u <;> cases kind <;> rfl

/-- C02. `n` units are `n * length` seconds whenever that fits in a `u64`. -/
theorem C02_units (u : Unit') (kind : Kind) (b : TaskBuilder) (n : Nat)
    (hfit : u.seconds * n < 2 ^ 64) :
    setUnits oc b n u kind = .ok (setSeconds b (u.seconds * n) kind) := by
  rw [setUnits_eq]
  have : mulU64 oc u.seconds n = .ok (u.seconds * n) := by
    unfold mulU64 U64_SIZE; rw [if_pos (by omega)]
  rw [this]; rfl

/-- C02, zero is rejected at build time. -/
theorem C02_zero_rejected (u : Unit') (kind : Kind) (b : TaskBuilder) (routine now : Nat) :
    ∃ b', setUnits oc b 0 u kind = .ok b' ∧ b'.spawn oc now analyze routine = .error := by
  refine ⟨_, C02_units oc u kind b 0 (by simp), ?_⟩
  rw [Nat.mul_zero]; exact C01_zero_rejected oc analyze b kind routine now

/-- C02, outside the range: with overflow checks the setter panics; without, the builder silently
holds the wrapped number of seconds. -/
theorem C02_overflow (u : Unit') (kind : Kind) (b : TaskBuilder) (n : Nat)
    (hbig : 2 ^ 64 ≤ u.seconds * n) :
    setUnits true b n u kind = .panic ∧
    setUnits false b n u kind = .ok (setSeconds b (u.seconds * n % 2 ^ 64) kind) := by
  have h : ¬ u.seconds * n < U64_SIZE := by unfold U64_SIZE; omega
  constructor
  · rw [setUnits_eq]; simp [mulU64, h, Outcome.bind]
  · rw [setUnits_eq]; simp [mulU64, h, Outcome.bind]; rfl

/-- Units compose with C01: two hours is 7200 seconds. -/
example : setUnits true .default 2 .hours .repeated = .ok (setSeconds .default 7200 .repeated) :=
  C02_units true .hours .repeated .default 2 (by decide)

/-- The overflow hypothesis is met by a `u64` argument. -/
example : (213503982334602 : Nat) < 2 ^ 64 ∧ 2 ^ 64 ≤ (Unit'.seconds .days) * 213503982334602 := by
  decide

/-- C03, exact law with the two clock readings apart (setter at `now₁`, build at `now₂`). -/
theorem C03_timestamp_law (b : TaskBuilder) (routine now₁ now₂ x : Nat)
    (hx : x ≠ now₁) (hfit : now₂ + x < 2 ^ 63) :
    ∃ t, (b.onceByTimestampSeconds now₁ x).spawn oc now₂ analyze routine = .ok t ∧
      shape t = expectedShape b routine .once ∧
      alarm 0 t = some (if now₁ < x then now₂ + (x - now₁) else now₂ + 1) := by
  by_cases h : now₁ < x
  · have he : b.onceByTimestampSeconds now₁ x = setSeconds b (x - now₁) .once := by
      simp [TaskBuilder.onceByTimestampSeconds, setSeconds, TaskBuilder.onceBySeconds, checkedSub,
        Nat.le_of_lt h]
    obtain ⟨t, h1, h2, h3, _⟩ := C01_seconds_progression_partial oc analyze b .once routine now₂ (x - now₁)
      (by omega) (by omega)
    exact ⟨t, by rw [he]; exact h1, h2, by rw [h3 0, if_pos h, Nat.mod_eq_of_lt (by omega)]; simp⟩
  · have he : b.onceByTimestampSeconds now₁ x = setSeconds b 1 .once := by
      have hn : ¬ now₁ ≤ x := by omega
      simp [TaskBuilder.onceByTimestampSeconds, setSeconds, TaskBuilder.onceBySeconds, checkedSub,
        hn, ONE_SECOND]
    obtain ⟨t, h1, h2, h3, _⟩ := C01_seconds_progression_partial oc analyze b .once routine now₂ 1
      (by omega) (by omega)
    exact ⟨t, by rw [he]; exact h1, h2, by rw [h3 0, if_neg h, Nat.mod_eq_of_lt (by omega)]⟩

/-- C03 as far as it holds: when setter and build read the same clock value, a future timestamp is
met exactly and a past one becomes "in one second". Missing from the full claim: `x = now`
(`C03_now_rejected`) and a clock tick between the two calls (`C03_late_build`). -/
theorem C03_timestamp_partial (b : TaskBuilder) (routine now x : Nat)
    (hx : x ≠ now) (hfit : now + x < 2 ^ 63) :
    ∃ t, (b.onceByTimestampSeconds now x).spawn oc now analyze routine = .ok t ∧
      shape t = expectedShape b routine .once ∧
      alarm 0 t = some (if now < x then x else now + 1) := by
  obtain ⟨t, h1, h2, h3⟩ := C03_timestamp_law oc analyze b routine now now x hx hfit
  refine ⟨t, h1, h2, ?_⟩
  rw [h3]
  split <;> congr 1; omega

/-- The full claim of C03 is false: the current second is rejected, for every builder and time. -/
theorem C03_now_rejected (b : TaskBuilder) (routine now : Nat) :
    (b.onceByTimestampSeconds now now).spawn oc now analyze routine = .error := by
  simp [TaskBuilder.onceByTimestampSeconds, checkedSub, TaskBuilder.spawn, buildFrequency,
    secondsState, Outcome.bind]

/-- The full claim of C03 is false in a second way: if the clock advances between the setter and
the build, the alarm is late by that much. -/
theorem C03_late_build (b : TaskBuilder) (routine now d x : Nat) (hx : now < x) (hd : 0 < d) (hfit : now + d + x < 2 ^ 63) :
    ∃ t, (b.onceByTimestampSeconds now x).spawn oc (now + d) analyze routine = .ok t ∧
      alarm 0 t = some (x + d) ∧ alarm 0 t ≠ some x := by
  obtain ⟨t, h1, _, h3⟩ := C03_timestamp_law oc analyze b routine now (now + d) x (by omega) hfit
  rw [if_pos hx] at h3
  refine ⟨t, h1, by rw [h3]; congr 1; omega, ?_⟩
  rw [h3]
  simp only [ne_eq, Option.some.injEq]
  omega

example : ∃ t, (TaskBuilder.default.onceByTimestampSeconds 1000 1010).spawn true (1000 + 3)
    (fun _ _ => none) 0 = .ok t ∧ alarm 0 t = some 1013 :=
  ⟨_, rfl, by decide⟩

example : ∃ t, (TaskBuilder.default.onceByTimestampSeconds 1000 1010).spawn true 1000
    (fun _ _ => none) 0 = .ok t ∧ alarm 0 t = some 1010 :=
  ⟨_, rfl, by decide⟩

/-- C48. A candy frequency builds the same task (or the same failure) as the cron-string setter
with the candy's expression. -/
theorem C48_candy (b : TaskBuilder) (routine now n : Nat) (s : String) :
    (b.byCandy (.once s)).spawn oc now analyze routine
      = (b.onceByCronStr s).spawn oc now analyze routine ∧
    (b.byCandy (.repeated s)).spawn oc now analyze routine
      = (b.repeatedByCronStr s).spawn oc now analyze routine ∧
    (b.byCandy (.countDown n s)).spawn oc now analyze routine
      = (b.countDownByCronStr s n).spawn oc now analyze routine :=
  ⟨rfl, rfl, rfl⟩

/-- C48, what the three setters build: the number of runs is the requested one and the iterator is
that of the expression in the builder's time zone; a rejected expression rejects the build. -/
theorem C48_cron_runs (b : TaskBuilder) (routine now n : Nat) (s : String) :
    (∀ c, analyze b.timeZone s = some c →
      (b.byCandy (.once s)).spawn oc now analyze routine = .ok
        { taskId := b.taskId, routine := routine, frequency := .cronCountDown 1 c,
          maximumRunningTime := b.maximumRunningTime, cylinderLine := 0, valid := true,
          maximumParallelRunnableNum := b.maximumParallelRunnableNum } ∧
      (b.byCandy (.repeated s)).spawn oc now analyze routine = .ok
        { taskId := b.taskId, routine := routine, frequency := .cronRepeated c,
          maximumRunningTime := b.maximumRunningTime, cylinderLine := 0, valid := true,
          maximumParallelRunnableNum := b.maximumParallelRunnableNum } ∧
      (b.byCandy (.countDown n s)).spawn oc now analyze routine = .ok
        { taskId := b.taskId, routine := routine, frequency := .cronCountDown n c,
          maximumRunningTime := b.maximumRunningTime, cylinderLine := 0, valid := true,
          maximumParallelRunnableNum := b.maximumParallelRunnableNum }) ∧
    (analyze b.timeZone s = none →
      (b.byCandy (.once s)).spawn oc now analyze routine = .error ∧
      (b.byCandy (.repeated s)).spawn oc now analyze routine = .error ∧
      (b.byCandy (.countDown n s)).spawn oc now analyze routine = .error) := by
  constructor
  · intro c hc
    simp [TaskBuilder.byCandy, TaskBuilder.spawn, buildFrequency, hc, Outcome.bind]
  · intro hc
    simp [TaskBuilder.byCandy, TaskBuilder.spawn, buildFrequency, hc, Outcome.bind]

/-- C48, the seven built-in candies are distinct expressions. -/
theorem C48_candies_distinct (c d : CandyCron) (h : c.str = d.str) : c = d := by
  cases c <;> cases d <;> first | rfl | exact absurd h (by decide)

example : (CandyCron.daily).str = "@daily" := rfl

end DelayTimer
