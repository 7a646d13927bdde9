import Verif.Proofs.Hand
import Verif.Examples

/-! # When tasks are started: C05 - C11 -/

namespace DelayTimer
open Spec

/-! ## Glue -/

theorem Spec.JustRun.fly {env : Env} {k : Nat} {t : Task} {s : St} (hr : Reachable env s) (h : JustRun k t s) :
    Fly k t s := by
  obtain ⟨p, upd, hp⟩ := h.tpc
  refine fly_of_rearm hp h.id h.valid ?_ h.alone
  have := (handOk hr).notPending k (by rw [hp]; simp [tpcTok, h.id])
  rw [hp] at this; exact this

theorem Spec.JustRun.after {env : Env} {k : Nat} {t : Task} {s s' : St} {ls : List Label} {M : Prop}
    (h : JustRun k t s) (hr : Reachable env s) (hM : M → s.flags k ≠ none)
    (hl : ∀ l ∈ ls, ¬ Touches k l) (hrun : run env s ls = some s') :
    (s'.ticks = s.ticks ∧ attempts k s'.log = attempts k s.log ∧ startTicks k s'.log = startTicks k s.log) ∨
    (∃ a, alarm 0 t = some a ∧
      Life M env.clock k t.getNextExecTimestamp.2 (rearm env.clock s.ticks a)
        (attempts k s.log) (startTicks k s.log) (startRoutines k s.log) s') ∨
    (alarm 0 t = none ∧ attempts k s'.log = attempts k s.log ∧ startTicks k s'.log = startTicks k s.log) := by
  obtain ⟨p, upd, hp⟩ := h.tpc
  rcases after_rearm ls hr h.quiet hp (h.fly hr) hM hl hrun with h | h | h
  · exact Or.inl h.2
  · exact Or.inr (Or.inl h)
  · exact Or.inr (Or.inr h)

theorem Spec.AboutToInsert.after {env : Env} {k : Nat} {t : Task} {hand exec ts : Nat} {s s1 s2 : St}
    {ls : List Label} (h : AboutToInsert k t hand exec ts s) (hr : Reachable env s)
    (hs : step env s .eNext = some s1) (hl : ∀ l ∈ ls, ¬ Touches k l) (hrun : run env s1 ls = some s2) :
    Life False env.clock k t
      (nextVisit (base s) (((checkedSub exec ts).getD (k % 3600) + hand + 1) % 3600) +
        3600 * (((checkedSub exec ts).getD (k % 3600) + hand + 1) / 3600))
      (attempts k s.log) (startTicks k s.log) (startRoutines k s.log) s2 := by
  obtain ⟨chain, he⟩ := h.epc
  obtain ⟨h1, h2, h3, h4, h5, h6⟩ := insert_sched (wheelOk hr) he h.id h.valid h.absent hs
  exact (life_run ls (hr.step hs) ⟨by rw [h5]; exact h.quiet, h6⟩
    (h1.life (M := False) False.elim (by rw [h4]) (by rw [h4]) (by rw [h4])) hl hrun).1

theorem base_eq (s : St) : base s = if BeforeLook s.tpc then s.ticks else s.ticks + 1 := by
  unfold base
  by_cases h : BeforeLook s.tpc
  · rw [if_pos h, (past_iff s.tpc).2 h]; rfl
  · rw [if_neg h]
    have : past s.tpc = true := by
      cases hp : past s.tpc with
      | false => exact absurd ((past_iff s.tpc).1 hp) h
      | true => rfl
    rw [this]; rfl

/-! ## C05 -/

/-- C05, in general. Whatever hand position and time `add_task` read before: the first attempt is at the
first visit of slot `seed % 3600` that is still to come, plus `seed / 3600` revolutions, where `seed` is
the gap between time and alarm (or the id modulo 3600 if the alarm is already over) plus the hand plus
one. Not before, and the wheel does not get past it. -/
theorem C05_any_gap {env : Env} {k : Nat} {t : Task} {hand exec ts : Nat} {s s1 s2 : St} {ls : List Label}
    (h : AboutToInsert k t hand exec ts s) (hr : Reachable env s) (hs : step env s .eNext = some s1)
    (hl : ∀ l ∈ ls, ¬ Touches k l) (hrun : run env s1 ls = some s2) :
    ∃ seed visit, seed = (if ts ≤ exec then exec - ts else k % 3600) + hand + 1 ∧
      (if BeforeLook s.tpc then s.ticks else s.ticks + 1) ≤ visit ∧
      visit < (if BeforeLook s.tpc then s.ticks else s.ticks + 1) + 3600 ∧
      visit % 3600 = seed % 3600 ∧
      NextAttemptAt k (visit + 3600 * (seed / 3600)) s s2 := by
  have hf := (h.after hr hs hl hrun).first
  have he : (checkedSub exec ts).getD (k % 3600) = if ts ≤ exec then exec - ts else k % 3600 := by
    unfold checkedSub; split <;> rfl
  rw [he, base_eq] at hf
  refine ⟨_, _, rfl, ?_, ?_, ?_, hf⟩
  · unfold nextVisit; omega
  · unfold nextVisit; omega
  · exact nextVisit_mod _ _ (Nat.mod_lt _ (by decide))

/-- C05. Added while the wheel stands at the hand position that `add_task` has read, with the first alarm
`d` seconds ahead: the first attempt is `d + 1` ticks later, or a whole revolution after that when the
slot number wraps around. -/
theorem C05_first_start {env : Env} {k : Nat} {t : Task} {exec ts : Nat} {s s1 s2 : St} {ls : List Label}
    (h : AboutToInsert k t s.secondHand exec ts s) (hle : ts ≤ exec) (hr : Reachable env s)
    (hs : step env s .eNext = some s1) (hl : ∀ l ∈ ls, ¬ Touches k l) (hrun : run env s1 ls = some s2) :
    NextAttemptAt k (firstDue s.ticks (exec - ts) (decide (BeforeLook s.tpc))) s s2 := by
  obtain ⟨seed, visit, h1, h2, h3, h4, h5⟩ := C05_any_gap h hr hs hl hrun
  rw [if_pos hle] at h1
  have hh := (wheelOk hr).hand
  have : visit + 3600 * (seed / 3600) = firstDue s.ticks (exec - ts) (decide (BeforeLook s.tpc)) := by
    unfold firstDue
    generalize exec - ts = d at *
    by_cases hb : BeforeLook s.tpc
    · simp only [if_pos hb] at h2 h3
      simp only [hb, decide_true, and_true]
      split <;> omega
    · simp only [if_neg hb] at h2 h3
      simp only [hb, decide_false, Bool.false_eq_true, and_false, or_false]
      split <;> omega
  rw [← this]; exact h5

/-- C05, from the API call on: a task handed in (once) to a timer with any history, whose id nothing else
concerns. When the event thread inserts it, its alarm and the absence of other copies are as
`C05_first_start` wants them. -/
theorem C05_handed_in {env : Env} {k : Nat} {t u : Task} {ls1 ls2 ls3 : List Label} {l : Label} {s s1 s2 : St}
    {c : Option Nat} {exec ts : Nat} (hl : HandsIn t l) (hk : t.taskId = k) (hv : t.valid = true)
    (h1 : ∀ l ∈ ls1, ¬ Touches k l) (h2 : ∀ l ∈ ls2, ¬ Touches k l) (h3 : ∀ l ∈ ls3, ¬ Touches k l)
    (hr : run env (init env) (ls1 ++ l :: ls2) = some s)
    (he : s.epc = .add2 u c s.secondHand exec ts) (hu : u.taskId = k) (hle : ts ≤ exec)
    (hs : step env s .eNext = some s1) (hrun : run env s1 ls3 = some s2) :
    alarm 0 t = some exec ∧
    NextAttemptAt k (firstDue s.ticks (exec - ts) (decide (BeforeLook s.tpc))) s s2 := by
  obtain ⟨rfl, h4, h5, h6⟩ := brought hl h1 h2 hr he hu
  exact ⟨h4, C05_first_start ⟨⟨c, he⟩, hk, hv, h5, h6⟩ hle ⟨_, hr⟩ hs h3 hrun⟩

/-! ## C06 -/

/-- C06, for the cases in which it holds: the slot number does not wrap around. What is missing is the
other case, in which it is false (`C06_violated`). -/
theorem C06_partial {env : Env} {k : Nat} {t : Task} {exec ts : Nat} {s s1 s2 : St} {ls : List Label}
    (h : AboutToInsert k t s.secondHand exec ts s) (hle : ts ≤ exec)
    (hnw : (exec - ts) % 3600 + s.secondHand + 1 < 3600) (hr : Reachable env s)
    (hs : step env s .eNext = some s1) (hl : ∀ l ∈ ls, ¬ Touches k l) (hrun : run env s1 ls = some s2)
    (hpast : s.ticks + (exec - ts) + 1 < s2.ticks) :
    ∃ n ns, attempts k s2.log = attempts k s.log ++ n :: ns ∧ n ≤ s.ticks + (exec - ts) + 1 := by
  obtain ⟨ns, h1, h2⟩ := C05_first_start h hle hr hs hl hrun
  rw [(wheelOk hr).hand] at hnw
  unfold firstDue at h2
  rw [if_pos (Or.inl hnw)] at h2
  rcases h2 with ⟨_, h2⟩ | ⟨h2, _⟩
  · omega
  · cases ns with
    | nil => cases h2
    | cons n ns => simp only [List.head?_cons, Option.some.injEq] at h2; exact ⟨n, ns, h1, by omega⟩

/-- The whole of C06. -/
def C06_statement : Prop :=
  ∀ (env : Env) (k : Nat) (t : Task) (exec ts : Nat) (s s1 s2 : St) (ls : List Label),
    AboutToInsert k t s.secondHand exec ts s → ts ≤ exec → Reachable env s →
    step env s .eNext = some s1 → (∀ l ∈ ls, ¬ Touches k l) → run env s1 ls = some s2 →
    s.ticks + (exec - ts) + 1 < s2.ticks →
    ∃ n ns, attempts k s2.log = attempts k s.log ++ n :: ns ∧ n ≤ s.ticks + (exec - ts) + 1

/-- A repeating task with the first alarm at `a`. -/
def someTask (k a : Nat) : Task where
  taskId := k
  routine := 0
  frequency := .secondsRepeated (.new a 1)
  maximumRunningTime := none
  cylinderLine := 0
  valid := true
  maximumParallelRunnableNum := none

/-- C06 fails at every hand position and for every gap for which the slot number wraps around: there is
an execution in which the task is added in time and the wheel gets past its tick, and almost another
revolution further, without a start. -/
theorem C06_violated (env : Env) (hoc : env.overflowChecks = false) (k n d : Nat)
    (hwrap : 3600 ≤ d % 3600 + n % 3600 + 1) (hd : d % 3600 ≠ 3599) :
    ∃ t ls s s1 ls' s2, (∀ l ∈ ls, ¬ Touches k l) ∧
      run env (init env) (ls ++ [.uSend (.add t), .eRecv, .eNext]) = some s ∧ s.ticks = n ∧
      alarm 0 t = some (s.globalTime + d) ∧
      AboutToInsert k t.getNextExecTimestamp.2 s.secondHand (s.globalTime + d) s.globalTime s ∧
      step env s .eNext = some s1 ∧ (∀ l ∈ ls', ¬ Touches k l) ∧ run env s1 ls' = some s2 ∧
      s2.ticks = n + d + 3600 ∧ attempts k s2.log = [] := by
  obtain ⟨ls, s0, h1, hi, h2⟩ := idleAt env n
  let t := someTask k (s0.globalTime + d)
  obtain ⟨t', ht, ht1, ht2⟩ : ∃ t', t.getNextExecTimestamp = (some (s0.globalTime + d), t') ∧ t'.taskId = k ∧
      t'.valid = true := ⟨_, rfl, rfl, rfl⟩
  obtain ⟨s, hs⟩ : ∃ s, run env s0 [.uSend (.add t), .eRecv, .eNext] = some s := by
    simp [run, step, eRecv, eNext, hi.epc, hi.chan, push, UserOp.event, ht, hoc]
  have hs' := hs
  simp [run, step, eRecv, eNext, hi.epc, hi.chan, push, UserOp.event, ht, hoc] at hs'
  have hrun : run env (init env) (ls ++ [.uSend (.add t), .eRecv, .eNext]) = some s := by
    rw [run_append, h1]; exact hs
  have hr : Reachable env s := ⟨_, hrun⟩
  have habs : Absent k s := by
    have := hi.absent k
    refine ⟨?_, ?_⟩
    · intro hw; exact this.wheel (by rw [← hs'] at hw; exact hw)
    · have h := this.sched; rw [← hs']; exact h
  have hins : AboutToInsert k t' s.secondHand (s0.globalTime + d) s0.globalTime s := by
    refine ⟨⟨none, ?_⟩, ht1, ht2, habs, ?_⟩
    · rw [← hs']
    · rw [← hs']; intro e he; cases he
  have hst : s.ticks = n ∧ s.tpc = .head ∧ s.motivation = true ∧ s.log = [.queued (.add k)] ∧
      s.globalTime = s0.globalTime := by
    rw [← hs']; exact ⟨hi.ticks, hi.tpc, hi.motivation, by rw [hi.log]; rfl, rfl⟩
  obtain ⟨s1, h3⟩ : ∃ s1, step env s .eNext = some s1 := by
    obtain ⟨c, he⟩ := hins.epc
    simp [step, eNext, he]
  have hm1 : s1.motivation = true ∧ s1.tpc = .head ∧ s1.ticks = n := by
    obtain ⟨c, he⟩ := hins.epc
    simp only [step, eNext, he] at h3
    cases h3
    exact ⟨hst.2.2.1, hst.2.1, hst.1⟩
  obtain ⟨s2, ⟨ls', h4, h5, h6⟩, h7, h8⟩ := finish_ticks (d + 3599)
    (.of_off hoc _ (hr.step h3) (by rw [hm1.2.1]; intro t ht; cases ht)) hm1.1
    (by rw [hm1.2.1]; simp) (by rw [hm1.2.1]; simp)
  refine ⟨t, ls, s, s1, ls', s2, fun l hl => (h2 l hl).touches k, hrun, hst.1, ?_, ?_, h3,
    fun l hl => (h5 l hl).touches k, h4, by rw [h8, hm1.2.2]; omega, ?_⟩
  · rw [hst.2.2.2.2]; exact congrArg Prod.fst ht
  · rw [hst.2.2.2.2, ht]; exact hins
  · obtain ⟨ns, h9, h10⟩ := C05_first_start hins (by omega) hr h3 (fun l hl => (h5 l hl).touches k) h4
    rw [h9, hst.2.2.2.1]
    unfold firstDue at h10
    rw [show s0.globalTime + d - s0.globalTime = d by omega, hst.1, if_neg (by omega)] at h10
    rcases h10 with ⟨h10, _⟩ | ⟨h10, h11⟩
    · rw [h10]; rfl
    · omega

theorem C06_negation : ¬ C06_statement := by
  intro h
  obtain ⟨t, ls, s, s1, ls', s2, _, h2, h3, h4, h5, h6, h7, h8, h9, h10⟩ :=
    C06_violated Ex.env0 rfl 1 3599 5 (by decide) (by decide)
  obtain ⟨n, ns, h11, _⟩ := h Ex.env0 1 _ _ _ s s1 s2 ls' h5 (by omega) ⟨_, h2⟩ h6 h7 h8 (by omega)
  rw [h10] at h11
  cases hx : attempts 1 s.log <;> rw [hx] at h11 <;> cases h11

/-! Example for C05 and C06_partial: task 1 (alarm 5 seconds ahead, period 5) is added in the tick 3 of an
idle timer, while the wheel is in the middle of the iteration. It is started at tick 9. -/
namespace Ex

def addLs : List Label := idles 3 ++ [.tLoad, .tStore] ++ [.uSend (.add (every 1 108 5)), .eRecv, .eNext]

theorem addLs_run : (run env0 (init env0) addLs).isSome := by decide +kernel

def addS : St := play env0 addLs

def addRest : List Label := [.tArrive, .tLapse, .eNext] ++ idles 5 ++ fire 1 0

example : AboutToInsert 1 (every 1 108 5).getNextExecTimestamp.2 addS.secondHand 108 103 addS ∧
    addS.ticks = 3 ∧ Reachable env0 addS ∧
    (∃ s1, step env0 addS .eNext = some s1 ∧
      ∃ s2, run env0 s1 addRest = some s2 ∧ s2.ticks = 10 ∧ attempts 1 s2.log = [9] ∧
        firstDue addS.ticks (108 - 103) (decide (BeforeLook addS.tpc)) = 9) ∧
    (∀ l ∈ addRest, ¬ Touches 1 l) := by
  refine ⟨⟨⟨none, rfl⟩, rfl, rfl, ⟨not_waiting (play_reachable addLs_run) (by decide +kernel), fun h => h⟩, ?_⟩,
    rfl, play_reachable addLs_run, ⟨_, rfl, _, rfl, rfl, rfl, rfl⟩, by decide⟩
  intro e he; cases he

end Ex

end DelayTimer
