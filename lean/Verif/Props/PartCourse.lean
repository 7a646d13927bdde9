import Verif.Proofs.PartCourse
import Verif.Props.FairCourse
import Verif.Props.Part

/-!
# C90: tasks do not hold each other up

C89 for executions without end: a fair execution of a timer with other tasks is, for some ids, a fair execution of a timer
without them.
-/

namespace DelayTimer

open Spec

/-- **C90** Take out of an unending execution everything that has to do with the ids outside of `K`. If nobody was held up
forever, what remains is an unending execution of a timer that only knows the ids in `K`, and again nobody is held up forever:
neither the event thread nor the scheduler nor the sweeper nor a run of one of these tasks. At every moment the calls for `K`
are the same, and so is all that can be seen of these ids. The conditions are those of C89, and that the two threads do not end. -/
theorem C90_alone {env : Env} {K : Nat → Bool} {a : Bool} (c : Course env) (hf : c.Fair) (hl : c.Listening) (ht : c.Turning)
    (hi : ∀ n t, c.lab n = some (.uInsert t) → K t.taskId = a)
    (hc : ∀ n w i, c.lab n = some (.uCancel w i) → K i.taskId = a)
    (hm : (∀ n k, K k = true → ∀ t ∈ handed k (c.upTo n), t.maximumRunningTime = none) ∨
      ∀ n k, K k = false → ∀ t ∈ handed k (c.upTo n), t.maximumRunningTime = none) :
    ∃ c' : Course env, c'.Fair ∧ c'.Listening ∧ c'.Turning ∧ (∀ n l, c'.lab n = some l → ¬ ForOthers K l) ∧
      (∀ n l, (calledId l).any K = true → (c'.lab n = some l ↔ c.lab n = some l)) ∧
      ∀ n, (c'.st n).log = (c.st n).log.filter (seen K a) ∧ (c'.st n).reports = (c.st n).reports.filter (seenReport K) ∧
        (c'.st n).ticks = (c.st n).ticks ∧ (a = true → (c'.st n).chainQueue = (c.st n).chainQueue ∧
          (c'.st n).chainState = (c.st n).chainState ∧ (c'.st n).hdrState = (c.st n).hdrState ∧
          (c'.st n).waiters = (c.st n).waiters) := by
  obtain ⟨own, hA⟩ : ∃ own, Asks c K own a := by
    rcases hm with hm | hm
    · exact ⟨false, hi, hc, hm⟩
    · exact ⟨true, hi, hc, hm⟩
  obtain ⟨c', hL, hF⟩ := part_course hA
  refine ⟨c', ⟨part_events_fair hL hf.events hl, part_scheduler_fair hL hf.scheduler ht, part_rounds_fair hL hF hf.rounds,
    part_reports_fair hL hF hf.reports, part_takes_fair hA hL hF hf.takesIn⟩, part_listening hL hl, part_turning hL ht,
    fun n => (hF n).none, fun n => (hF n).calls, fun n => ?_⟩
  obtain ⟨b, _, ho, r, x, hp, _⟩ := hL n
  rw [hp, ← ho]
  exact ⟨rfl, rfl, rfl, fun ho => by simp [part, ho]⟩

/-- **C90** So whatever comes to pass, or holds for all time, on every timer that only knows the ids in `K` and where nobody is
held up forever, also does so for these ids on a timer that is used for others as well. -/
theorem C90_reduction {env : Env} {K : Nat → Bool} {a : Bool} {P : (Nat → List Obs) → Prop}
    (hP : ∀ c : Course env, c.Fair → c.Listening → c.Turning → (∀ n l, c.lab n = some l → ¬ ForOthers K l) →
      P fun n => (c.st n).log) (c : Course env) (hf : c.Fair) (hl : c.Listening) (ht : c.Turning)
    (hi : ∀ n t, c.lab n = some (.uInsert t) → K t.taskId = a)
    (hc : ∀ n w i, c.lab n = some (.uCancel w i) → K i.taskId = a)
    (hm : (∀ n k, K k = true → ∀ t ∈ handed k (c.upTo n), t.maximumRunningTime = none) ∨
      ∀ n k, K k = false → ∀ t ∈ handed k (c.upTo n), t.maximumRunningTime = none) :
    P fun n => (c.st n).log.filter (seen K a) := by
  obtain ⟨c', h1, h2, h3, h4, _, h5⟩ := C90_alone c hf hl ht hi hc hm
  have := hP c' h1 h2 h3 h4
  rwa [show (fun n => (c'.st n).log) = fun n => (c.st n).log.filter (seen K a) from funext fun n => (h5 n).1] at this

/-- **C90** One task: there is an unending execution of a timer for this task alone, with the same calls for it at the same
moments, where nobody is held up and the starts are the same at every moment. -/
theorem C90_one {env : Env} {k : Nat} (c : Course env) (hf : c.Fair) (hl : c.Listening) (ht : c.Turning)
    (hi : ((∀ n t, c.lab n = some (.uInsert t) → t.taskId = k) ∧ ∀ n w i, c.lab n = some (.uCancel w i) → i.taskId = k) ∨
      (∀ n t, c.lab n = some (.uInsert t) → t.taskId ≠ k) ∧ ∀ n w i, c.lab n = some (.uCancel w i) → i.taskId ≠ k)
    (hm : ∀ n j, j ≠ k → ∀ t ∈ handed j (c.upTo n), t.maximumRunningTime = none) :
    ∃ c' : Course env, c'.Fair ∧ c'.Listening ∧ c'.Turning ∧ (∀ n l id, c'.lab n = some l → calledId l = some id → id = k) ∧
      (∀ n l, calledId l = some k → (c'.lab n = some l ↔ c.lab n = some l)) ∧
      ∀ n, startTicks k (c'.st n).log = startTicks k (c.st n).log ∧
        startRoutines k (c'.st n).log = startRoutines k (c.st n).log := by
  obtain ⟨a, hi, hc⟩ : ∃ a, (∀ n t, c.lab n = some (.uInsert t) → (t.taskId == k) = a) ∧
      ∀ n w i, c.lab n = some (.uCancel w i) → (i.taskId == k) = a := by
    rcases hi with ⟨h1, h2⟩ | ⟨h1, h2⟩
    · exact ⟨true, fun n t ht => by simpa using h1 n t ht, fun n w i hx => by simpa using h2 n w i hx⟩
    · exact ⟨false, fun n t ht => by simpa using h1 n t ht, fun n w i hx => by simpa using h2 n w i hx⟩
  obtain ⟨c', h1, h2, h3, h4, h5, h6⟩ := C90_alone (K := (· == k)) (a := a) c hf hl ht hi hc
    (Or.inr fun n j hj => hm n j (by simpa using hj))
  refine ⟨c', h1, h2, h3, ?_, fun n l h => h5 n l (by rw [h]; simp), fun n => ?_⟩
  · intro n l id hl hid
    by_cases hk : id = k
    · exact hk
    · exact absurd ⟨id, hid, by simpa using hk⟩ (h4 n l hl)
  · rw [(h6 n).1]
    exact ⟨startTicks_seen k a _, startRoutines_seen k a _⟩

end DelayTimer

namespace DelayTimer.Ex

open Spec

/-- C90: an unending execution that begins with two tasks that are run in the same iteration. -/
example : ∃ c : Course env0, c.Fair ∧ c.Listening ∧ c.Turning ∧ (∀ n t, c.lab n = some (.uInsert t) → t.taskId = 1) ∧
    (∀ n w i, c.lab n = some (.uCancel w i) → i.taskId = 1) ∧
    (∀ n j, j ≠ 1 → ∀ t ∈ handed j (c.upTo n), t.maximumRunningTime = none) ∧
    startTicks 1 (c.st shared.length).log = [2] ∧ startTicks 2 (c.st shared.length).log = [2] := by
  obtain ⟨c, h1, h2, h3, _, h4⟩ := fair_course (pre := shared) (play_run (env := env0) (by decide +kernel))
  have hlab : ∀ n l, c.lab n = some l → l ∈ shared ∨ Unasked l := fun n l h =>
    unasked_upTo h1 h4 ((mem_upTo c (n + 1)).2 ⟨n, by omega, h⟩)
  refine ⟨c, h3, (unchecked_lives rfl c).1, C71_turning c ?_ ?_ (fun n k t _ j h => by cases h), ?_, ?_, ?_, ?_, ?_⟩
  · intro n h
    rcases hlab n _ h with h | h
    · simp [shared, add, idles, idle, pop] at h
    · exact h
  · intro n h
    rcases hlab n _ h with h | h
    · simp [shared, add, idles, idle, pop] at h
    · exact h
  · intro n t h
    rcases hlab n _ h with h | h
    · simp [shared, add, idles, idle, pop] at h
    · exact h.elim
  · intro n w i h
    rcases hlab n _ h with h | h
    · simp [shared, add, idles, idle, pop] at h
    · exact h.elim
  · intro n j hj t ht
    have ht := course_handed h1 h4 ht
    simp [shared, handed, broughtBy, add, idles, idle, pop] at ht
    rcases ht with ⟨_, rfl⟩ | ⟨_, rfl⟩ <;> rfl
  · rw [h2]; decide +kernel
  · rw [h2]; decide +kernel

end DelayTimer.Ex
