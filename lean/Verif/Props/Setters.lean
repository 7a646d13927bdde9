import Verif.Spec.Setters
import Verif.Props.Cron

/-! Property C58: chains of setters of a task builder. -/

namespace DelayTimer
open Spec

/-- A call on the builder. -/
def callSetter (oc : Bool) (b : TaskBuilder) : TaskCall → Outcome TaskBuilder
  | .id n => .ok (b.setTaskId n)
  | .timeLimit n => .ok (b.setMaximumRunningTime n)
  | .parallelLimit n => .ok (b.setMaximumParallelRunnableNum n)
  | .zone z => .ok (b.setTimeZone z)
  | .seconds secs kind => .ok (setSeconds b secs kind)
  | .units n u kind => setUnits oc b n u kind
  | .timestamp now x => .ok (b.onceByTimestampSeconds now x)
  | .cron s kind => .ok (setCron b s kind)
  | .candy s kind => .ok (setCandy b s kind)

/-- A chain of calls on a builder. -/
def callSetters (oc : Bool) : TaskBuilder → List TaskCall → Outcome TaskBuilder
  | b, [] => .ok b
  | b, c :: cs => (callSetter oc b c).bind fun b => callSetters oc b cs

theorem callSetters_append (oc : Bool) : ∀ (cs ds : List TaskCall) (b : TaskBuilder),
    callSetters oc b (cs ++ ds) = (callSetters oc b cs).bind fun b => callSetters oc b ds := by
  intro cs
  induction cs with
  | nil => intro ds b; rfl
  | cons c cs ih =>
    intro ds b
    simp only [List.cons_append, callSetters]
    cases callSetter oc b c <;> simp [Outcome.bind, ih]

theorem lastAsked_snoc {α : Type} (f : TaskCall → Option α) (d : α) (cs : List TaskCall) (c : TaskCall) :
    lastAsked f d (cs ++ [c]) = (f c).getD (lastAsked f d cs) := by
  simp only [lastAsked, List.reverse_append, List.reverse_cons, List.reverse_nil, List.nil_append, List.singleton_append,
    List.findSome?_cons]
  cases f c <;> rfl

/-- The builder's frequency is the plan. -/
def Holds (f : FrequencyUnify) : Plan → Prop
  | .seconds secs kind => f = (setSeconds .default secs kind).frequency
  | .cron s kind => f = (setCron .default s kind).frequency

theorem callSetters_state (oc : Bool) (cs : List TaskCall) (hfit : ∀ c ∈ cs, c.Fits) :
    ∃ b, callSetters oc .default cs = .ok b ∧ b.taskId = lastAsked TaskCall.theId 0 cs ∧
      b.maximumRunningTime = lastAsked TaskCall.theTimeLimit none cs ∧
      b.maximumParallelRunnableNum = lastAsked TaskCall.theParallelLimit none cs ∧
      b.timeZone = lastAsked TaskCall.theZone .local cs ∧ Holds b.frequency (planOf cs) := by
  have h : ∀ l : List TaskCall, (∀ c ∈ l, c.Fits) →
      ∃ b, callSetters oc .default l.reverse = .ok b ∧ b.taskId = lastAsked TaskCall.theId 0 l.reverse ∧
      b.maximumRunningTime = lastAsked TaskCall.theTimeLimit none l.reverse ∧
      b.maximumParallelRunnableNum = lastAsked TaskCall.theParallelLimit none l.reverse ∧
      b.timeZone = lastAsked TaskCall.theZone .local l.reverse ∧ Holds b.frequency (planOf l.reverse) := by
    intro l
    induction l with
    | nil => intro _; exact ⟨_, rfl, rfl, rfl, rfl, rfl, rfl⟩
    | cons c l ih =>
      intro hl
      obtain ⟨b, h1, h2, h3, h4, h5, h6⟩ := ih (fun c hc => hl c (List.mem_cons_of_mem _ hc))
      have hc := hl c List.mem_cons_self
      rw [List.reverse_cons, callSetters_append, h1]
      simp only [planOf, lastAsked_snoc] at h6 ⊢
      cases c with
      | units n u kind =>
        have : callSetter oc b (.units n u kind) = .ok (setSeconds b (u.seconds * n) kind) := C02_units oc u kind b n hc
        simp only [Outcome.bind, callSetters, this]
        refine ⟨_, rfl, ?_⟩
        cases kind <;> simp_all [setSeconds, TaskBuilder.onceBySeconds, TaskBuilder.repeatedBySeconds,
          TaskBuilder.countDownBySeconds, TaskCall.theId, TaskCall.theTimeLimit, TaskCall.theParallelLimit, TaskCall.theZone,
          TaskCall.plan, Holds]
      | timestamp now x =>
        refine ⟨_, rfl, ?_⟩
        have hx : (if now ≤ x then some (x - now) else none).getD 1 = if now ≤ x then x - now else 1 := by split <;> rfl
        simp_all [setSeconds, TaskBuilder.onceBySeconds, TaskBuilder.onceByTimestampSeconds, checkedSub, ONE_SECOND,
          TaskCall.theId, TaskCall.theTimeLimit, TaskCall.theParallelLimit, TaskCall.theZone, TaskCall.plan, Holds]
      | seconds secs kind =>
        refine ⟨_, rfl, ?_⟩
        cases kind <;> simp_all [setSeconds, TaskBuilder.onceBySeconds, TaskBuilder.repeatedBySeconds,
          TaskBuilder.countDownBySeconds, TaskCall.theId, TaskCall.theTimeLimit, TaskCall.theParallelLimit, TaskCall.theZone,
          TaskCall.plan, Holds]
      | cron s kind =>
        refine ⟨_, rfl, ?_⟩
        cases kind <;> simp_all [setCron, TaskBuilder.onceByCronStr, TaskBuilder.repeatedByCronStr,
          TaskBuilder.countDownByCronStr, TaskCall.theId, TaskCall.theTimeLimit, TaskCall.theParallelLimit, TaskCall.theZone,
          TaskCall.plan, Holds]
      | candy s kind =>
        refine ⟨_, rfl, ?_⟩
        cases kind <;> simp_all [setCandy, setCron, TaskBuilder.byCandy, TaskBuilder.onceByCronStr, TaskBuilder.repeatedByCronStr,
          TaskBuilder.countDownByCronStr, TaskCall.theId, TaskCall.theTimeLimit, TaskCall.theParallelLimit, TaskCall.theZone,
          TaskCall.plan, Holds]
      | _ =>
        refine ⟨_, rfl, ?_⟩
        simp_all [TaskBuilder.setTaskId, TaskBuilder.setMaximumRunningTime, TaskBuilder.setMaximumParallelRunnableNum,
          TaskBuilder.setTimeZone, TaskCall.theId, TaskCall.theTimeLimit, TaskCall.theParallelLimit, TaskCall.theZone,
          TaskCall.plan]
  have := h cs.reverse (fun c hc => hfit c (List.mem_reverse.1 hc))
  rwa [List.reverse_reverse] at this

theorem spawn_same {b b' : TaskBuilder} (h1 : b.frequency = b'.frequency) (h2 : b.taskId = b'.taskId)
    (h3 : b.maximumRunningTime = b'.maximumRunningTime) (h4 : b.maximumParallelRunnableNum = b'.maximumParallelRunnableNum)
    (h5 : b.timeZone = b'.timeZone) (oc : Bool) (now : Nat) (analyze : TimeZone → String → Option CronIter) (routine : Nat) :
    b.spawn oc now analyze routine = b'.spawn oc now analyze routine := by
  simp [TaskBuilder.spawn, h1, h2, h3, h4, h5]

/-- **C58**: after any chain of setter calls, in any order, the task that is built has the id, the limits and
the schedule of the last call of each sort, and the defaults (id 0, no limits, local time zone, once in a
minute) where there was none; calls of one sort do not disturb the others. -/
theorem C58_setters (oc : Bool) (parse : CronParser) (eval : CronEval) (hist : List CronCall) (cs : List TaskCall)
    (hfit : ∀ c ∈ cs, c.Fits) (routine now : Nat) :
    ∃ b, callSetters oc .default cs = .ok b ∧
    match planOf cs with
    | .seconds secs kind =>
      (secs = 0 → b.spawn oc now (analyzeIn parse eval now hist) routine = .error) ∧
      (0 < secs → now + secs < 2 ^ 64 → ∃ t, b.spawn oc now (analyzeIn parse eval now hist) routine = .ok t ∧
        shape t = shapeOf cs routine kind ∧ ∀ k, alarm k t = some ((now + (k + 1) * secs) % 2 ^ 64))
    | .cron s kind =>
      (parse (trimBlanks s) = none → b.spawn oc now (analyzeIn parse eval now hist) routine = .error) ∧
      (∀ p m, parse (trimBlanks s) = some p → Iterates (eval p (lastAsked TaskCall.theZone .local cs)) m →
        (∀ x, m x → x < 2 ^ 63) → ∃ t, b.spawn oc now (analyzeIn parse eval now hist) routine = .ok t ∧
        shape t = shapeOf cs routine kind ∧ CronAlarms m now t) := by
  obtain ⟨b, h1, h2, h3, h4, h5, h6⟩ := callSetters_state oc cs hfit
  refine ⟨b, h1, ?_⟩
  cases hp : planOf cs with
  | seconds secs kind =>
    rw [hp] at h6
    have hs : b.spawn oc now (analyzeIn parse eval now hist) routine =
        (setSeconds b secs kind).spawn oc now (analyzeIn parse eval now hist) routine := by
      refine spawn_same ?_ ?_ ?_ ?_ ?_ _ _ _ _
      · rw [h6]; cases kind <;> rfl
      all_goals cases kind <;> rfl
    constructor
    · rintro rfl; rw [hs]; exact C01_zero_rejected oc _ b kind routine now
    · intro g1 g2
      obtain ⟨t, i1, i2, i3, _⟩ := C01_seconds_progression_partial oc (analyzeIn parse eval now hist) b kind routine now secs g1 g2
      exact ⟨t, by rw [hs]; exact i1, by rw [i2]; simp [expectedShape, shapeOf, h2, h3, h4], i3⟩
  | cron s kind =>
    rw [hp] at h6
    have hs : b.spawn oc now (analyzeIn parse eval now hist) routine =
        (setCron b s kind).spawn oc now (analyzeIn parse eval now hist) routine := by
      refine spawn_same ?_ ?_ ?_ ?_ ?_ _ _ _ _
      · rw [h6]; cases kind <;> rfl
      all_goals cases kind <;> rfl
    constructor
    · intro g; rw [hs]; exact C53_bad_rejected oc parse eval hist b kind routine now s g
    · intro p m g1 g2 g3
      obtain ⟨t, i1, i2, i3, _⟩ := C53_cron_alarms oc parse eval hist b kind routine now s p m g1 (by rw [h5]; exact g2) g3
      exact ⟨t, by rw [hs]; exact i1, by rw [i2]; simp [expectedShape, shapeOf, h2, h3, h4], i3⟩

/-- **C58, outside the range**: with overflow checks a chain panics iff some call in it asks for more seconds than a
`u64` holds. -/
theorem C58_panics (b : TaskBuilder) (cs : List TaskCall) :
    callSetters true b cs = .panic ↔ ∃ c ∈ cs, ¬ c.Fits := by
  induction cs generalizing b with
  | nil => simp [callSetters]
  | cons c cs ih =>
    have hok : c.Fits → ∃ b', callSetter true b c = .ok b' := by
      intro hf
      cases c with
      | units n u kind => exact ⟨_, C02_units true u kind b n hf⟩
      | _ => exact ⟨_, rfl⟩
    by_cases hf : c.Fits
    · obtain ⟨b', hb⟩ := hok hf
      simp only [callSetters, hb, Outcome.bind, ih, List.mem_cons]
      constructor
      · rintro ⟨d, hd, hn⟩; exact ⟨d, .inr hd, hn⟩
      · rintro ⟨d, rfl | hd, hn⟩
        · exact absurd hf hn
        · exact ⟨d, hd, hn⟩
    · have : callSetter true b c = .panic := by
        cases c with
        | units n u kind => exact (C02_overflow u kind b n (by simpa [TaskCall.Fits] using hf)).1
        | _ => exact absurd trivial hf
      simp only [callSetters, this, Outcome.bind, true_iff]
      exact ⟨c, List.mem_cons_self, hf⟩

/-- Two hours three times, after several changes of mind. -/
example :
    let cs : List TaskCall := [.cron "@hourly" .once, .id 3, .seconds 0 .repeated, .parallelLimit 2, .id 4, .units 2 .hours (.countDown 3)]
    (∀ c ∈ cs, c.Fits) ∧ planOf cs = .seconds 7200 (.countDown 3) ∧ shapeOf cs 9 (.countDown 3) = ⟨4, 9, some 3, none, some 2⟩ := by
  refine ⟨?_, rfl, rfl⟩
  intro c hc
  simp only [List.mem_cons, List.not_mem_nil, or_false] at hc
  rcases hc with rfl | rfl | rfl | rfl | rfl | rfl <;> simp [TaskCall.Fits, Unit'.seconds]

end DelayTimer
