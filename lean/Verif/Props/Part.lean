import Verif.Proofs.PartRuns
import Verif.Examples

/-!
# C89: tasks do not get in each other's way
-/

namespace DelayTimer

open Spec

/-- **C89** Take out of an execution everything that has to do with the ids outside of `K`: what remains is an execution of a
timer that only knows the ids in `K`. It has the same calls for these in the same order and no call for others, and all that can
be seen of these ids is the same, in the same order: starts (with their records, routines, iterations and clock readings),
skips, ends, results of the calls, deliveries to the chains, states of the instances, time-outs, and public events. Two
conditions: the ids in `K` and the others are not both inserted (`a` says which; so that the chains and their instances are
numbered alike; chains and instances that are the others' are not seen), and they do not both have running time limits (they
share the sweeper, which handles 200 per round). -/
theorem C89_alone {env : Env} {K : Nat → Bool} {a : Bool} {ls : List Label} {s : St} (h : run env (init env) ls = some s)
    (hi : ∀ t, .uInsert t ∈ ls → K t.taskId = a) (hc : ∀ w i, .uCancel w i ∈ ls → K i.taskId = a)
    (hm : (∀ k, K k = true → ∀ t ∈ handed k ls, t.maximumRunningTime = none) ∨
      ∀ k, K k = false → ∀ t ∈ handed k ls, t.maximumRunningTime = none) :
    ∃ ls' p, run env (init env) ls' = some p ∧ ls'.Sublist ls ∧ callsOf K ls' = callsOf K ls ∧ (∀ l ∈ ls', ¬ ForOthers K l) ∧
      p.log = s.log.filter (seen K a) ∧ p.reports = s.reports.filter (seenReport K) ∧ p.ticks = s.ticks ∧
      (a = true → p.chainQueue = s.chainQueue ∧ p.chainState = s.chainState ∧ p.hdrState = s.hdrState ∧ p.waiters = s.waiters) := by
  obtain ⟨b, rfl, hb0, hb⟩ : ∃ b : Side, b.chains = a ∧ (∀ w, b.sweeper = some w → w = .idle 0) ∧
      ∀ k, K k = b.sweeper.isSome → ∀ t ∈ handed k ls, t.maximumRunningTime = none := by
    rcases hm with hm | hm
    · exact ⟨⟨a, some (.idle 0)⟩, rfl, fun w hw => (by cases hw; rfl), hm⟩
    · exact ⟨⟨a, none⟩, rfl, fun w hw => (by cases hw), hm⟩
  obtain ⟨ls', p, h1, ⟨r, x, h2, _, _⟩, h3, h4, h5⟩ := part_run h hi hc hb0 hb
  subst h2
  exact ⟨ls', _, h1, h3, h4, h5, rfl, rfl, rfl, fun ho => by simp [part, ho]⟩

/-- **C89** So whatever is true of every history of a timer that only knows the ids in `K` is true of what is seen of these ids
in every history of a timer that is used for others as well. -/
theorem C89_reduction {env : Env} {K : Nat → Bool} {a : Bool} {P : List Obs → Prop}
    (hP : ∀ ls s, run env (init env) ls = some s → (∀ l ∈ ls, ¬ ForOthers K l) → P s.log) {ls : List Label} {s : St}
    (h : run env (init env) ls = some s) (hi : ∀ t, .uInsert t ∈ ls → K t.taskId = a)
    (hc : ∀ w i, .uCancel w i ∈ ls → K i.taskId = a)
    (hm : (∀ k, K k = true → ∀ t ∈ handed k ls, t.maximumRunningTime = none) ∨
      ∀ k, K k = false → ∀ t ∈ handed k ls, t.maximumRunningTime = none) : P (s.log.filter (seen K a)) := by
  obtain ⟨ls', p, h1, _, _, h2, h3, _⟩ := C89_alone h hi hc hm
  rw [← h3]
  exact hP ls' p h1 h2

theorem startTicks_seen (k : Nat) (a : Bool) (log : List Obs) : startTicks k (log.filter (seen (· == k) a)) = startTicks k log := by
  induction log with
  | nil => rfl
  | cons o log ih =>
    rw [List.filter_cons]
    split
    · cases o <;> simp only [startTicks, ih]
    · rename_i hk
      rw [ih]
      cases o <;> first | rfl | skip
      simp only [seen, beq_iff_eq] at hk
      simp only [startTicks, if_neg hk]

theorem startRoutines_seen (k : Nat) (a : Bool) (log : List Obs) : startRoutines k (log.filter (seen (· == k) a)) = startRoutines k log := by
  induction log with
  | nil => rfl
  | cons o log ih =>
    rw [List.filter_cons]
    split
    · cases o <;> simp only [startRoutines, ih]
    · rename_i hk
      rw [ih]
      cases o <;> first | rfl | skip
      simp only [seen, beq_iff_eq] at hk
      simp only [startRoutines, if_neg hk]

/-- **C89** The calls of a timer for one id alone and its history: with any other tasks around, of which none has a running time
limit, and either this one is the only one that is inserted or it is not inserted, the timer does for this id
what it could do if it were used for this id only. -/
theorem C89_one {env : Env} {k : Nat} {ls : List Label} {s : St} (h : run env (init env) ls = some s)
    (hi : ((∀ t, .uInsert t ∈ ls → t.taskId = k) ∧ ∀ w i, .uCancel w i ∈ ls → i.taskId = k) ∨
      (∀ t, .uInsert t ∈ ls → t.taskId ≠ k) ∧ ∀ w i, .uCancel w i ∈ ls → i.taskId ≠ k)
    (hm : ∀ j, j ≠ k → ∀ t ∈ handed j ls, t.maximumRunningTime = none) :
    ∃ ls' p, run env (init env) ls' = some p ∧ (∀ l ∈ ls', ∀ id, calledId l = some id → id = k) ∧
      callsOf (· == k) ls' = callsOf (· == k) ls ∧ startTicks k p.log = startTicks k s.log ∧
      startRoutines k p.log = startRoutines k s.log := by
  obtain ⟨a, hi, hc⟩ : ∃ a, (∀ t, .uInsert t ∈ ls → (t.taskId == k) = a) ∧ ∀ w i, .uCancel w i ∈ ls → (i.taskId == k) = a := by
    rcases hi with ⟨h1, h2⟩ | ⟨h1, h2⟩
    · exact ⟨true, fun t ht => by simpa using h1 t ht, fun w i hx => by simpa using h2 w i hx⟩
    · exact ⟨false, fun t ht => by simpa using h1 t ht, fun w i hx => by simpa using h2 w i hx⟩
  obtain ⟨ls', p, h1, _, h2, h3, h4, _⟩ := C89_alone (K := (· == k)) (a := a) h hi hc (Or.inr fun j hj => hm j (by simpa using hj))
  refine ⟨ls', p, h1, ?_, h2, ?_, ?_⟩
  · intro l hl id hid
    by_cases hk : id = k
    · exact hk
    · exact absurd ⟨id, hid, by simpa using hk⟩ (h3 l hl)
  · rw [h4, startTicks_seen]
  · rw [h4, startRoutines_seen]

end DelayTimer

namespace DelayTimer.Ex

open Spec

/-- Two tasks that are due in the same iteration; the second is run first. -/
def shared : List Label := add (every 1 101 3) ++ add (every 2 101 3) ++ idles 2 ++ pop 2 0 ++
  [.tSlot, .tMark, .tPop 1, .tCheck 1, .tSpawn false, .tAppend, .tGate, .tSlot, .tMark, .tLapse, .eRecv, .eRecv]

example : run env0 (init env0) shared = some (play env0 shared) ∧ (∀ t, .uInsert t ∈ shared → t.taskId = 1) ∧
    (∀ w i, .uCancel w i ∈ shared → i.taskId = 1) ∧ (∀ j, j ≠ 1 → ∀ t ∈ handed j shared, t.maximumRunningTime = none) ∧
    startTicks 1 (play env0 shared).log = [2] ∧ startTicks 2 (play env0 shared).log = [2] := by
  refine ⟨play_run (by decide +kernel), ?_, ?_, ?_, by decide +kernel, by decide +kernel⟩
  · intro t ht; simp [shared, add, idles, idle, pop] at ht
  · intro w i ht; simp [shared, add, idles, idle, pop] at ht
  · intro j hj t ht
    simp [shared, handed, broughtBy, add, idles, idle, pop] at ht
    rcases ht with ⟨_, rfl⟩ | ⟨_, rfl⟩ <;> rfl

/-- The same when the second is inserted, and its chain delivers an instance. -/
def sharedIns : List Label := add (every 1 101 3) ++ ins (every 2 101 3) ++ idles 2 ++ pop 2 0 ++
  [.tSlot, .tMark, .tPop 1, .tCheck 1, .tSpawn false, .tAppend, .tGate, .tSlot, .tMark, .tLapse, .eRecv, .eRecv, .uNext 0]

example : run env0 (init env0) sharedIns = some (play env0 sharedIns) ∧ (∀ t, .uInsert t ∈ sharedIns → t.taskId ≠ 1) ∧
    (∀ w i, .uCancel w i ∈ sharedIns → i.taskId ≠ 1) ∧ (∀ j, j ≠ 1 → ∀ t ∈ handed j sharedIns, t.maximumRunningTime = none) ∧
    startTicks 1 (play env0 sharedIns).log = [2] ∧ (play env0 sharedIns).log.filter (seen (· == 1) true) ≠
      (play env0 sharedIns).log.filter (seen (· == 1) false) := by
  refine ⟨play_run (by decide +kernel), ?_, ?_, ?_, by decide +kernel, by decide +kernel⟩
  · intro t ht
    simp [sharedIns, add, ins, idles, idle, pop] at ht
    rw [ht]; decide
  · intro w i ht; simp [sharedIns, add, ins, idles, idle, pop] at ht
  · intro j hj t ht
    simp [sharedIns, handed, broughtBy, add, ins, idles, idle, pop] at ht
    rcases ht with ⟨_, rfl⟩ | ⟨_, rfl⟩ <;> rfl

end DelayTimer.Ex
