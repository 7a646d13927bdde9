import Verif.Proofs.Alive
import Verif.Props.OnTime

/-!
# C59: due runs come

A task that was handed in is started as often as it was asked to be.
-/

namespace DelayTimer
open Spec

/-! ## Every start is an attempt -/

/-- The attempt the scheduler is at, as long as it has not been decided. -/
def undecided (k : Nat) (s : St) : List Nat :=
  match s.tpc with
  | .check _ t => if t.taskId = k then [s.ticks] else []
  | .spawn _ t _ => if t.taskId = k then [s.ticks] else []
  | _ => []

theorem undecided_step {env : Env} {s : St} {l : Label} {s' : St} (k : Nat) (h : Act env s l s') :
    undecided k s' = undecided k s ∨ undecided k s' = [] ∨
    l = .tPop k ∧ attempts k s'.log ≠ attempts k s.log ∧ s'.ticks = s.ticks := by
  cases h
  all_goals try (left; simp [undecided]; done)
  all_goals try (left; simp_all [undecided]; done)
  all_goals try (right; left; simp [undecided]; done)
  case pop_hit pending id sl u h hmem hw hr =>
    have := (removeTask_some hr).2
    by_cases hk : id = k
    · subst hk; right; right; exact ⟨rfl, by simp [attempts], rfl⟩
    · left; simp [undecided, h, this, hk]

theorem starts_attempts_inv {env : Env} {s : St} (hr : Reachable env s) (k : Nat) :
    ∃ pre, attempts k s.log = pre ++ undecided k s ∧ (startTicks k s.log).Sublist pre := by
  refine hr.induct (fun s => ∃ pre, attempts k s.log = pre ++ undecided k s ∧ (startTicks k s.log).Sublist pre)
    ⟨[], rfl, List.Sublist.refl _⟩ ?_
  intro s l s' _ ⟨pre, h1, h2⟩ h
  rcases starts_step k h with ⟨e, _⟩ | ⟨_, p, t, rec, box, e1, e2, e3, e4⟩
  · rw [e]
    rcases attempts_step k h with e' | ⟨rfl, p, t, e1, e2, e3⟩
    · rw [e', h1]
      rcases undecided_step k h with e | e | ⟨_, e⟩
      · exact ⟨pre, by rw [e], h2⟩
      · exact ⟨pre ++ undecided k s, by rw [e]; simp, h2.trans (List.sublist_append_left ..)⟩
      · exact absurd e' e.1
    · rw [e3]
      refine ⟨attempts k s.log, ?_, ?_⟩
      · have : s'.ticks = s.ticks := by cases h <;> rfl
        simp [attempts, undecided, e1, e2, this]
      · rw [h1]; exact h2.trans (List.sublist_append_left ..)
  · refine ⟨pre ++ [s.ticks], ?_, ?_⟩
    · rw [e4]; simp only [attempts]; rw [h1]; simp [undecided, e1, e2, e3]
    · rw [e4]; simp only [startTicks, if_pos]; exact List.Sublist.append h2 (List.Sublist.refl _)

/-- Every start is made in an attempt of its own, in the same tick. -/
theorem starts_attempts {env : Env} {s : St} (hr : Reachable env s) (k : Nat) :
    (startTicks k s.log).Sublist (attempts k s.log) := by
  obtain ⟨pre, h1, h2⟩ := starts_attempts_inv hr k
  rw [h1]; exact h2.trans (List.sublist_append_left ..)

/-! ## The moment of insertion -/

/-- A task on its way to the wheel gets there (or has no alarm): somewhere in the execution the event thread
puts it in. -/
theorem coming_inserted {env : Env} {k a : Nat} {t : Task} {c : Option Nat} (hk : t.taskId = k)
    (ha : alarm 0 t = some a) : ∀ (ls : List Label) {s s' : St}, Coming k t c s →
    (∀ l ∈ ls, ¬ Touches k l) → run env s ls = some s' → Quiet k s' →
    ∃ ls1 ls2 s1 s2 hand ts, ls = ls1 ++ .eNext :: ls2 ∧ run env s ls1 = some s1 ∧
      step env s1 .eNext = some s2 ∧ run env s2 ls2 = some s' ∧
      s1.epc = .add2 t.getNextExecTimestamp.2 c hand a ts := by
  intro ls
  induction ls with
  | nil =>
    intro s s' h _ hr hq
    cases hr
    exfalso
    cases h with
    | queued hb A B e he hc hA hB hbusy =>
      refine hq.chan e (by rw [hc]; simp) ?_
      cases c <;> (simp only [BringsIn] at he; subst he; exact hk)
    | reading hb hc hand he => exact hq.epc (by rw [he]; exact hk)
    | inserting hb hc hand exec ts he ha => exact hq.epc (by rw [he]; exact hk)
  | cons l ls ih =>
    intro s s' h ht hr hq
    obtain ⟨s1, h1, h2⟩ := run_cons hr
    rcases coming_step_at h (ht l List.mem_cons_self) (step_act h1) with h3 | ⟨_, rfl, h3 | h3⟩
    · obtain ⟨ls1, ls2, x, y, hand, ts, e1, e2, e3, e4, e5⟩ :=
        ih h3 (fun l hl => ht l (List.mem_cons_of_mem _ hl)) h2 hq
      exact ⟨l :: ls1, ls2, x, y, hand, ts, by rw [e1]; rfl, by simp only [run, h1]; exact e2, e3, e4, e5⟩
    · rw [ha] at h3; cases h3
    · obtain ⟨hand, exec, ts, h4, h5⟩ := h3
      rw [ha] at h5; cases h5
      exact ⟨[], ls, s, s1, hand, ts, rfl, rfl, h1, h2, h4⟩

/-- A task was handed in once, its id concerns nothing else, and the request has been processed: then it was
inserted somewhere on the way, and there had been no attempt or start before. -/
theorem handed_inserted {env : Env} {k a : Nat} {t : Task} {ls1 ls2 : List Label} {l : Label} {s0 : St}
    (hl : HandsIn t l) (hk : t.taskId = k) (hv : t.valid = true) (ha : alarm 0 t = some a)
    (h1 : ∀ l ∈ ls1, ¬ Touches k l) (h2 : ∀ l ∈ ls2, ¬ Touches k l)
    (hr : run env (init env) (ls1 ++ l :: ls2) = some s0) (hq : Quiet k s0) :
    ∃ m s1 s2 hand ts, Reachable env s1 ∧ AboutToInsert k t.getNextExecTimestamp.2 hand a ts s1 ∧
      step env s1 .eNext = some s2 ∧ run env s2 m = some s0 ∧ (∀ l ∈ m, ¬ Touches k l) ∧
      attempts k s1.log = [] ∧ startTicks k s1.log = [] := by
  obtain ⟨x, hx, hy⟩ := run_app hr
  obtain ⟨y, hy1, hy2⟩ := run_cons hy
  have hin : run env (init env) (ls1 ++ l :: []) = some y := by
    rw [run_append, hx]; simp [run, hy1]
  rcases brought_log hl h1 (ls2 := []) (by simp) hin with ⟨c, h3, _⟩ | h3
  · obtain ⟨m1, m2, s1, s2, hand, ts, e1, e2, e3, e4, e5⟩ := coming_inserted hk ha ls2 h3 h2 hy2 hq
    have hm1 : ∀ l ∈ m1, ¬ Touches k l := fun l hl => h2 l (by rw [e1]; simp [hl])
    have hm2 : ∀ l ∈ m2, ¬ Touches k l := fun l hl => h2 l (by rw [e1]; simp [hl])
    have hs1 : run env (init env) (ls1 ++ l :: m1) = some s1 := by
      rw [run_append, hx]; simp [run, hy1, e2]
    have hid : t.getNextExecTimestamp.2.taskId = k := hk
    obtain ⟨_, _, h4, h5⟩ := brought hl h1 hm1 hs1 e5 hid
    rcases brought_log hl h1 hm1 hs1 with ⟨_, _, h6⟩ | h6
    · refine ⟨m2, s1, s2, hand, ts, ⟨_, hs1⟩, ⟨⟨c, e5⟩, hid, hv, h4, h5⟩, e3, e4, hm2, h6, ?_⟩
      have := starts_attempts ⟨_, hs1⟩ k
      rw [h6] at this
      exact List.sublist_nil.1 this
    · exact absurd hid (by have := h6.epc; rw [e5] at this; exact this)
  · exfalso
    have h4 := step_act hy1
    rcases hl with rfl | rfl
    · cases h4; exact h3.chan (.addTask t) (List.mem_append_right _ List.mem_cons_self) hk
    · cases h4; exact h3.chan (.insertTask t x.nextChain) (List.mem_append_right _ List.mem_cons_self) hk

/-! ## C59 -/

theorem timetable_some {clock : Nat → Nat} {D : Nat} {alarms : Nat → Option Nat} : ∀ i,
    (∀ j, j < i → alarms j ≠ none) → ∃ n, timetable clock D alarms i = some n := by
  intro i
  induction i with
  | zero => intro _; exact ⟨D, rfl⟩
  | succ i ih =>
    intro h
    obtain ⟨n, hn⟩ := ih (fun j hj => h j (by omega))
    cases ha : alarms i with
    | none => exact absurd ha (h i (by omega))
    | some a => exact ⟨rearm clock n a, by simp [timetable, hn, ha]⟩

/-- From the call on, all starts follow one time table. -/
theorem handed_schedule {env : Env} {k a : Nat} {t : Task} {ls1 ls2 : List Label} {l : Label} {s0 : St}
    (hl : HandsIn t l) (hk : t.taskId = k) (hv : t.valid = true) (hlim : t.maximumParallelRunnableNum = none)
    (h0 : runsLeft t ≠ some 0) (ha : alarm 0 t = some a)
    (h1 : ∀ l ∈ ls1, ¬ Touches k l) (h2 : ∀ l ∈ ls2, ¬ Touches k l)
    (hr : run env (init env) (ls1 ++ l :: ls2) = some s0) (hq : Quiet k s0) :
    ∃ D, ∀ ls s, (∀ l ∈ ls, ¬ Touches k l) → run env s0 ls = some s → s.tpc ≠ .panicked →
      StartsOnSchedule k (cut (runsLeft t) (timetable env.clock D (fun j => alarm (j + 1) t))) (init env) s := by
  obtain ⟨m, s1, s2, hand, ts, e1, e2, e3, e4, e5, _, e7⟩ := handed_inserted hl hk hv ha h1 h2 hr hq
  refine ⟨nextVisit (base s1) (((checkedSub a ts).getD (k % 3600) + hand + 1) % 3600) +
        3600 * (((checkedSub a ts).getD (k % 3600) + hand + 1) / 3600), fun ls s hls hrun hp => ?_⟩
  have hrun' : run env s2 (m ++ ls) = some s := by rw [run_append, e4]; exact hrun
  have hall : ∀ l ∈ m ++ ls, ¬ Touches k l := by
    intro l hl; rcases List.mem_append.1 hl with h | h
    · exact e5 l h
    · exact hls l h
  obtain ⟨ns, f1, f2⟩ := ((e2.after e1 e3 hall hrun').both (Or.inl hlim)
    (by rw [runsLeft_ask]; exact h0) hp).2 hlim
  rw [runsLeft_ask] at f2
  exact ⟨ns, by rw [f1, e7]; rfl, f2⟩

/-- **C59**, run by run. A task without parallel limit is handed in once, with an id that nothing else concerns,
and the request has been processed. For every `i` below its count (any `i` for a repeating task) for which it has
alarms, there is a tick by which it has been started more than `i` times in every execution that gets that far,
whatever the other tasks and threads do; unless the scheduler thread was killed by a panic. -/
theorem C59_keeps_running {env : Env} {k : Nat} {t : Task} {ls1 ls2 : List Label} {l : Label} {s0 : St}
    (hl : HandsIn t l) (hk : t.taskId = k) (hv : t.valid = true) (hlim : t.maximumParallelRunnableNum = none)
    (h1 : ∀ l ∈ ls1, ¬ Touches k l) (h2 : ∀ l ∈ ls2, ¬ Touches k l)
    (hr : run env (init env) (ls1 ++ l :: ls2) = some s0) (hq : Quiet k s0)
    (i : Nat) (hi : ∀ n, runsLeft t = some n → i < n) (hal : ∀ j, j ≤ i → alarm j t ≠ none) :
    ∃ B, ∀ ls s, (∀ l ∈ ls, ¬ Touches k l) → run env s0 ls = some s → s.tpc ≠ .panicked → B < s.ticks →
      i < (startTicks k s.log).length := by
  cases ha : alarm 0 t with
  | none => exact absurd ha (hal 0 (by omega))
  | some a =>
    obtain ⟨D, hD⟩ := handed_schedule hl hk hv hlim (fun h => absurd (hi 0 h) (by omega)) ha h1 h2 hr hq
    obtain ⟨B, hB⟩ := timetable_some (clock := env.clock) (D := D) (alarms := fun j => alarm (j + 1) t) i
      (fun j hj => hal (j + 1) (by omega))
    refine ⟨B, fun ls s hls hrun hp hlt => ?_⟩
    obtain ⟨ns, f1, _, f3⟩ := hD ls s hls hrun hp
    have := f3 i B (by
      cases hn : runsLeft t with
      | none => exact hB
      | some n => simp only [cut]; rw [if_pos (hi n hn)]; exact hB) hlt
    rw [f1]
    simpa [init, startTicks] using (List.getElem?_eq_some_iff.1 this).1

/-- **C59** for count-downs: with enough ticks a count-down task of at least one run is started exactly as often as
its count says. -/
theorem C59_exactly {env : Env} {k n : Nat} {t : Task} {ls1 ls2 : List Label} {l : Label} {s0 : St}
    (hl : HandsIn t l) (hk : t.taskId = k) (hv : t.valid = true) (hlim : t.maximumParallelRunnableNum = none)
    (hn : runsLeft t = some (n + 1)) (hal : ∀ j, j ≤ n → alarm j t ≠ none)
    (h1 : ∀ l ∈ ls1, ¬ Touches k l) (h2 : ∀ l ∈ ls2, ¬ Touches k l)
    (hr : run env (init env) (ls1 ++ l :: ls2) = some s0) (hq : Quiet k s0) :
    ∃ B, ∀ ls s, (∀ l ∈ ls, ¬ Touches k l) → run env s0 ls = some s → s.tpc ≠ .panicked → B < s.ticks →
      (startTicks k s.log).length = n + 1 := by
  obtain ⟨B, hB⟩ := C59_keeps_running hl hk hv hlim h1 h2 hr hq n (by
    intro m hm; rw [hn] at hm; cases hm; omega) hal
  refine ⟨B, fun ls s hls hrun hp hlt => ?_⟩
  have h3 := hB ls s hls hrun hp hlt
  cases ha : alarm 0 t with
  | none => exact absurd ha (hal 0 (by omega))
  | some a =>
    obtain ⟨D, hD⟩ := handed_schedule hl hk hv hlim (by rw [hn]; simp) ha h1 h2 hr hq
    obtain ⟨ns, f1, f2, _⟩ := hD ls s hls hrun hp
    rw [f1] at h3 ⊢
    simp only [init, startTicks, List.nil_append] at h3 ⊢
    by_cases h4 : n + 1 < ns.length
    · have := (f2 (n + 1) _ (List.getElem?_eq_getElem h4)).1
      rw [hn] at this
      simp [cut] at this
    · omega

/-- **C59**: such executions exist. However the timer was used before, as long as it was not stopped and the
scheduler was not killed by a panic, and no task around can make it panic within the time that takes, the scheduler
alone can bring the task to its last run. -/
theorem C59_reached {env : Env} {k n : Nat} {t : Task} {ls1 ls2 : List Label} {l : Label} {s0 : St}
    (hl : HandsIn t l) (hk : t.taskId = k) (hv : t.valid = true) (hlim : t.maximumParallelRunnableNum = none)
    (hn : runsLeft t = some (n + 1)) (hal : ∀ j, j ≤ n → alarm j t ≠ none)
    (h1 : ∀ l ∈ ls1, ¬ Touches k l) (h2 : ∀ l ∈ ls2, ¬ Touches k l)
    (hr : run env (init env) (ls1 ++ l :: ls2) = some s0) (hq : Quiet k s0)
    (hm : s0.motivation = true) (hh : s0.tpc ≠ .halted) (hp : s0.tpc ≠ .panicked) :
    ∃ N, (∀ k, ∀ t ∈ handed k (ls1 ++ l :: ls2), Safe env N t) →
      ∃ ls s, (∀ l ∈ ls, ¬ Touches k l) ∧ run env s0 ls = some s ∧ (startTicks k s.log).length = n + 1 := by
  obtain ⟨B, hB⟩ := C59_exactly hl hk hv hlim hn hal h1 h2 hr hq
  refine ⟨s0.log.length + B + 3, fun hsafe => ?_⟩
  have hle : ∀ k, (attempts k s0.log).length ≤ s0.log.length := fun k => attempts_length k _
  obtain ⟨s, ⟨ls, h3, h4, _⟩, h5, h6⟩ := finish_ticks B 
    (sound_of_handed hr (fun k t ht => safe_mono (hsafe k t ht) (by have := hle k; omega))) hm hh hp
  have ht : ∀ l ∈ ls, ¬ Touches k l := fun l hl => (h4 l hl).touches k
  exact ⟨ls, s, ht, h3, hB ls s ht h3 (by rw [h5]; simp) (by omega)⟩

namespace Ex

/-- Task 1 with two runs is added; what follows: task 2 is added too, and task 1 is run at ticks 2 and 5. -/
def keepsRest : List Label :=
  add (every 2 150 4) ++ idle ++ idle ++ fire 1 0 ++ idle ++ idle ++ pop 1 1 ++ [.tLapse] ++ idles 20

example : ∃ s0, run env0 (init env0) ([] ++ .uSend (.add (times 2 1 101 3)) :: [.eRecv, .eNext, .eNext, .eNext]) =
      some s0 ∧ Quiet 1 s0 ∧ runsLeft (times 2 1 101 3) = some (1 + 1) ∧
      (∀ j, j ≤ 1 → alarm j (times 2 1 101 3) ≠ none) ∧
      ∃ s, run env0 s0 keepsRest = some s ∧ (∀ l ∈ keepsRest, ¬ Touches 1 l) ∧ startTicks 1 s.log = [2, 5] := by
  refine ⟨_, rfl, ⟨(fun e he => by cases he), id⟩, rfl, ?_, _, rfl, by decide, by decide +kernel⟩
  intro j hj
  have : j = 0 ∨ j = 1 := by omega
  rcases this with rfl | rfl <;> decide

end Ex

end DelayTimer
