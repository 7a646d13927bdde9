import Verif.Model.Cron
import Verif.Spec.Cron
import Verif.Props.Builder
import Verif.Props.CronCache

/-! # C53, C48: the alarms of cron tasks -/

namespace DelayTimer
open Spec

/-- `a` is what the iterator yields after `k` earlier values. -/
def CronIter.nth : Nat → CronIter → Option Int
  | 0, c => c.next.1
  | k + 1, c => CronIter.nth k c.next.2

theorem nth_spec {m : Int → Prop} {s : CronSchedule} (h : Iterates s m) : ∀ (k : Nat) (t : Int),
    (∀ a, CronIter.nth k ⟨s, t⟩ = some a → NthAfter m t k a) ∧
    (CronIter.nth k ⟨s, t⟩ = none → AtMost m t k) := by
  intro k
  induction k with
  | zero =>
    intro t
    unfold CronIter.nth CronIter.next
    obtain ⟨h1, h2⟩ := h t
    cases hn : s.nextAfter t with
    | none =>
      refine ⟨by simp, fun _ => ⟨[], by simp, fun x hx hm => absurd hm (h2 hn x hx)⟩⟩
    | some b =>
      refine ⟨?_, by simp⟩
      intro a ha
      simp only [Option.some.injEq] at ha
      subst ha
      obtain ⟨h3, h4, h5⟩ := h1 _ hn
      refine ⟨h3, h4, [], ⟨by simp, ?_⟩, rfl⟩
      intro x
      simp only [List.not_mem_nil, false_iff]
      intro ⟨hx1, hx2, hx3⟩
      have := h5 x hx1 hx3
      omega
  | succ k ih =>
    intro t
    obtain ⟨h1, h2⟩ := h t
    unfold CronIter.nth CronIter.next
    cases hn : s.nextAfter t with
    | none =>
      have hnone := h2 hn
      have key : ∀ k, CronIter.nth k ⟨s, t⟩ = none := by
        intro k
        induction k with
        | zero => simp [CronIter.nth, CronIter.next, hn]
        | succ k ih => simp [CronIter.nth, CronIter.next, hn, ih]
      refine ⟨by simp [key], fun _ => ⟨[], by simp, fun x hx hm => absurd hm (hnone x hx)⟩⟩
    | some b =>
      obtain ⟨h3, h4, h5⟩ := h1 _ hn
      obtain ⟨i1, i2⟩ := ih b
      simp only
      refine ⟨?_, ?_⟩
      · intro a ha
        obtain ⟨g1, g2, l, ⟨g3, g4⟩, g5⟩ := i1 a ha
        refine ⟨by omega, g2, b :: l, ⟨?_, ?_⟩, by simp [g5]⟩
        · refine List.pairwise_cons.2 ⟨fun x hx => ((g4 x).1 hx).1, g3⟩
        · intro x
          simp only [List.mem_cons, g4]
          constructor
          · rintro (rfl | ⟨hx1, hx2, hx3⟩)
            · exact ⟨h3, g1, h4⟩
            · exact ⟨by omega, hx2, hx3⟩
          · intro ⟨hx1, hx2, hx3⟩
            have := h5 x hx1 hx3
            rcases Int.lt_or_eq_of_le this with hlt | heq
            · exact .inr ⟨hlt, hx2, hx3⟩
            · exact .inl heq.symm
      · intro ha
        obtain ⟨l, g1, g2⟩ := i2 ha
        refine ⟨b :: l, by simp; omega, ?_⟩
        intro x hx hm
        rcases Int.lt_or_eq_of_le (h5 x hx hm) with hlt | heq
        · exact List.mem_cons_of_mem _ (g2 x hlt hm)
        · exact heq ▸ List.mem_cons_self

theorem alarm_cron (n : Nat) : ∀ (k : Nat) (t : Task) (c : CronIter),
    (t.frequency = .cronRepeated c ∨ t.frequency = .cronCountDown n c) →
    alarm k t = (c.nth k).map asU64 := by
  intro k
  induction k with
  | zero =>
    intro t c h
    rcases h with h | h <;> simp [alarm, Task.getNextExecTimestamp, FrequencyInner.nextAlarm, h, CronIter.nth]
  | succ k ih =>
    intro t c h
    simp only [alarm, CronIter.nth]
    apply ih
    rcases h with h | h <;> simp [Task.getNextExecTimestamp, FrequencyInner.nextAlarm, h]

/-- The public setter `set_frequency_{once,repeated,count_down}_by_cron_str` of a kind. -/
def setCron (b : TaskBuilder) (s : String) : Kind → TaskBuilder
  | .once => b.onceByCronStr s
  | .repeated => b.repeatedByCronStr s
  | .countDown n => b.countDownByCronStr s n

/-- `set_frequency_by_candy` of a kind. -/
def setCandy (b : TaskBuilder) (s : String) : Kind → TaskBuilder
  | .once => b.byCandy (.once s)
  | .repeated => b.byCandy (.repeated s)
  | .countDown n => b.byCandy (.countDown n s)

/-- What a caller may expect of a task built from a cron expression that matches the instants `m`: the `k`-th alarm is
the `k`-th matching instant after the time of the build; there is none exactly when the matching instants are used up. -/
def Spec.CronAlarms (m : Int → Prop) (now : Nat) (t : Task) : Prop :=
  ∀ k, (∀ a, alarm k t = some a → NthAfter m now k (a : Int)) ∧ (alarm k t = none → AtMost m now k)

theorem cronAlarms_of {m : Int → Prop} {s : CronSchedule} (h : Iterates s m) (hfit : ∀ x, m x → x < 2 ^ 63) (now : Nat)
    (t : Task) (n : Nat)
    (ht : t.frequency = .cronRepeated ⟨s, now⟩ ∨ t.frequency = .cronCountDown n ⟨s, now⟩) : CronAlarms m now t := by
  intro k
  obtain ⟨h1, h2⟩ := nth_spec h k now
  rw [alarm_cron n k t _ ht]
  constructor
  · intro a ha
    cases hc : CronIter.nth k ⟨s, now⟩ with
    | none => simp [hc] at ha
    | some i =>
      obtain ⟨g1, g2, g3⟩ := h1 i hc
      have hi := hfit i g2
      have hai : (a : Int) = i := by
        simp [hc] at ha
        subst ha
        unfold asU64
        have h0 : (0 : Int) ≤ now := Int.natCast_nonneg _
        rw [Int.emod_eq_of_lt (by omega) (by omega)]
        exact Int.toNat_of_nonneg (by omega)
      rw [hai]; exact ⟨g1, g2, g3⟩
  · intro ha
    apply h2
    simpa using ha

/-- C53. A task built at time `now` from a cron expression fires, whatever was built before in the thread, exactly at
the instants after `now` that the expression matches in the builder's time zone, in order, none skipped and none
repeated; everything else is as requested. The expression is read without the blanks around it. Needed of the cron
library: it iterates the matching instants `m` of the parsed expression in the zone. -/
theorem C53_cron_alarms (oc : Bool) (parse : CronParser) (eval : CronEval) (hist : List CronCall) (b : TaskBuilder)
    (kind : Kind) (routine now : Nat) (s : String) (p : CronSpec) (m : Int → Prop)
    (hp : parse (trimBlanks s) = some p) (hm : Iterates (eval p b.timeZone) m) (hfit : ∀ x, m x → x < 2 ^ 63) :
    ∃ t, (setCron b s kind).spawn oc now (analyzeIn parse eval now hist) routine = .ok t ∧
      shape t = expectedShape b routine kind ∧ CronAlarms m now t ∧
      (∀ c t', downs oc c t = some t' → CronAlarms m now t') := by
  have ha : analyzeIn parse eval now hist b.timeZone s = some ⟨eval p b.timeZone, now⟩ := by
    unfold analyzeIn
    rw [C35_cache_transparent]
    simp [freshIterator, hp, CronOwned.iter]
  have key : ∀ n (t : Task), (t.frequency = .cronRepeated ⟨eval p b.timeZone, now⟩ ∨
      t.frequency = .cronCountDown n ⟨eval p b.timeZone, now⟩) →
      CronAlarms m now t ∧ (∀ c t', downs oc c t = some t' → CronAlarms m now t') := by
    intro n t ht
    have h1 := cronAlarms_of hm hfit now t n ht
    refine ⟨h1, fun c t' h k => ?_⟩
    rw [alarm_downs oc k c t t' h]
    exact h1 k
  cases kind with
  | once =>
    refine ⟨_, by
      simp [setCron, TaskBuilder.spawn, TaskBuilder.onceByCronStr, buildFrequency, ha, Outcome.bind]; rfl,
      ?_, key 1 _ (.inr rfl)⟩
    simp [shape, expectedShape, runsLeft, Kind.runs]
  | repeated =>
    refine ⟨_, by
      simp [setCron, TaskBuilder.spawn, TaskBuilder.repeatedByCronStr, buildFrequency, ha, Outcome.bind]; rfl,
      ?_, key 1 _ (.inl rfl)⟩
    simp [shape, expectedShape, runsLeft, Kind.runs]
  | countDown n =>
    refine ⟨_, by
      simp [setCron, TaskBuilder.spawn, TaskBuilder.countDownByCronStr, buildFrequency, ha, Outcome.bind]; rfl,
      ?_, key n _ (.inr rfl)⟩
    simp [shape, expectedShape, runsLeft, Kind.runs]

/-- C53, the other case: an expression that does not parse rejects the build, whatever was built before. -/
theorem C53_bad_rejected (oc : Bool) (parse : CronParser) (eval : CronEval) (hist : List CronCall) (b : TaskBuilder)
    (kind : Kind) (routine now : Nat) (s : String) (hp : parse (trimBlanks s) = none) :
    (setCron b s kind).spawn oc now (analyzeIn parse eval now hist) routine = .error := by
  have ha : analyzeIn parse eval now hist b.timeZone s = none := by
    unfold analyzeIn
    rw [C36_failed_parse parse hist now b.timeZone s hp]
    rfl
  cases kind <;>
    simp [setCron, TaskBuilder.spawn, TaskBuilder.onceByCronStr, TaskBuilder.repeatedByCronStr,
      TaskBuilder.countDownByCronStr, buildFrequency, ha, Outcome.bind]

/-- C48, by what the tasks do: a task built with a candy has the alarms of the candy's expression after the time of
the build, as many runs as asked for, and the builder's limits. -/
theorem C48_alarms (oc : Bool) (parse : CronParser) (eval : CronEval) (hist : List CronCall) (b : TaskBuilder)
    (kind : Kind) (routine now : Nat) (s : String) (p : CronSpec) (m : Int → Prop)
    (hp : parse (trimBlanks s) = some p) (hm : Iterates (eval p b.timeZone) m) (hfit : ∀ x, m x → x < 2 ^ 63) :
    ∃ t, (setCandy b s kind).spawn oc now (analyzeIn parse eval now hist) routine = .ok t ∧
      shape t = expectedShape b routine kind ∧ CronAlarms m now t := by
  obtain ⟨t, h1, h2, h3, _⟩ := C53_cron_alarms oc parse eval hist b kind routine now s p m hp hm hfit
  refine ⟨t, ?_, h2, h3⟩
  rw [← h1]
  cases kind <;> rfl

namespace Ex

/-- A schedule firing on every multiple of sixty before 1000. -/
def minutely : CronSchedule where
  nextAfter t := if (t / 60 + 1) * 60 < 1000 then some ((t / 60 + 1) * 60) else none

theorem minutely_iterates : Iterates minutely (fun x => x % 60 = 0 ∧ x < 1000) := by
  intro t
  constructor
  · intro a ha
    simp only [minutely] at ha
    split at ha
    · cases ha
      refine ⟨by omega, ⟨by omega, by assumption⟩, ?_⟩
      intro b hb ⟨hm, _⟩
      omega
    · cases ha
  · intro hn b hb ⟨hm, hl⟩
    simp only [minutely] at hn
    split at hn
    · cases hn
    · omega

/-- The hypotheses of `C53_cron_alarms` are met, by a build after another one of the same expression; the second alarm
after 130 is 240 and there is no sixteenth one. -/
example :
    let hist : List CronCall := [{ now := 100, zone := .utc, expr := "0 * * * * * *" }]
    let b := TaskBuilder.default.setTimeZone .utc
    exampleParser (trimBlanks " 0 * * * * * *") = some 1 ∧
    Iterates ((fun _ _ => minutely : CronEval) 1 b.timeZone) (fun x => x % 60 = 0 ∧ x < 1000) ∧
    ∃ t, (setCron b " 0 * * * * * *" .repeated).spawn true 130
      (analyzeIn exampleParser (fun _ _ => minutely) 130 hist) 0 = .ok t ∧ alarm 1 t = some 240 ∧
      alarm 15 t = none :=
  ⟨by decide, minutely_iterates, _, rfl, by decide, by decide⟩

end Ex

end DelayTimer
