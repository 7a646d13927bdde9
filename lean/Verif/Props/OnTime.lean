import Verif.Props.Rearm

/-!
# First starts by the wall clock

C05, C06 and C09 once more, from the call of `add_task` on and in terms of the clock instead of the values
that the event thread happens to read.
-/

namespace DelayTimer
open Spec

/-- The event at the head of the channel hands in `t`. -/
def Spec.NextIs (t : Task) (s : St) : Prop :=
  ∃ rest, s.chan = .addTask t :: rest ∨ ∃ c, s.chan = .insertTask t c :: rest

/-- The actions by which the event thread takes an add or insert from the channel and puts the task into the
wheel; `m1` and `m2` are what the other threads do meanwhile. -/
def Spec.processing (m1 m2 : List Label) : List Label := .eRecv :: m1 ++ .eNext :: m2 ++ [.eNext]

/-! ## Facts about executions -/

theorem coming_log {env : Env} {k : Nat} {t : Task} {c : Option Nat} : ∀ (ls : List Label) {s s' : St},
    Coming k t c s → (∀ l ∈ ls, ¬ Touches k l) → run env s ls = some s' →
    (Coming k t c s' ∧ attempts k s'.log = attempts k s.log) ∨ Quiet k s' := by
  intro ls
  induction ls with
  | nil => intro s s' h _ hr; cases hr; exact Or.inl ⟨h, rfl⟩
  | cons l ls ih =>
    intro s s' h ht hr
    simp only [run] at hr
    split at hr
    · rename_i s1 h1
      have ha := step_act h1
      rcases coming_step h (ht l List.mem_cons_self) ha with h2 | h2
      · have hb : Unborn k s1 := by cases h2 <;> assumption
        have hat : attempts k s1.log = attempts k s.log := by
          rcases attempts_step k ha with e | ⟨_, p, u, e1, e2, _⟩
          · exact e
          · have := (absent_iff.1 hb.absent).2.1; rw [e1] at this; simp [tpcTok, e2] at this
        rw [← hat]
        exact ih h2 (fun l hl => ht l (List.mem_cons_of_mem _ hl)) hr
      · exact Or.inr (quiet_run ls h2 (fun l hl => ht l (List.mem_cons_of_mem _ hl)) hr)
    · cases hr

/-- A task that was handed in once, with an id that nothing else concerns: while it is on its way there has
been no attempt to start it. -/
theorem brought_log {env : Env} {k : Nat} {t : Task} {ls1 ls2 : List Label} {l : Label} {s : St}
    (hl : HandsIn t l) (h1 : ∀ l ∈ ls1, ¬ Touches k l) (h2 : ∀ l ∈ ls2, ¬ Touches k l)
    (hr : run env (init env) (ls1 ++ l :: ls2) = some s) :
    (∃ c, Coming k t c s ∧ attempts k s.log = []) ∨ Quiet k s := by
  rw [run_append] at hr
  cases h3 : run env (init env) ls1 with
  | none => rw [h3] at hr; cases hr
  | some s1 =>
    rw [h3] at hr
    simp only [run, Option.bind_some] at hr
    split at hr
    rotate_left
    · cases hr
    rename_i s2 h4
    obtain ⟨h5, h6⟩ := unborn_run ls1 (Unborn.init env k)
      ⟨by simp [init], by simp [init, BusyWith]⟩ h1 h3
    have h0 := (gone_run ls1 (Quiet.mk (by simp [init]) (by simp [init, BusyWith]))
      (absent_iff.1 (Unborn.init env k).absent).2.1 (absent_iff.1 (Unborn.init env k).absent).1 h1 h3).1
    have h7 := step_act h4
    have h8 : ∃ c, Coming k t c s2 ∧ attempts k s2.log = [] := by
      have hb : Unborn k s2 := unborn_step h5 (by
        rintro u rfl; rcases hl with h | h <;> cases h) (by
        intro h; subst h; rcases hl with h | h <;> cases h) h7
      rcases hl with rfl | rfl
      · cases h7
        exact ⟨none, .queued hb s1.chan [] _ rfl rfl h6.chan (by simp) h6.epc, h0⟩
      · cases h7
        exact ⟨some s1.nextChain, .queued hb s1.chan [] _ rfl rfl h6.chan (by simp) h6.epc, h0⟩
    obtain ⟨c', h8, h8'⟩ := h8
    rcases coming_log ls2 h8 h2 hr with ⟨h9, h10⟩ | h9
    · exact Or.inl ⟨c', h9, by rw [h10, h8']⟩
    · exact Or.inr h9

/-- While the event thread is in the middle of something, the others leave its place alone. -/
theorem epc_run {env : Env} : ∀ (ls : List Label) {s s' : St}, s.epc ≠ .idle → (∀ l ∈ ls, l ≠ .eNext) →
    run env s ls = some s' → s'.epc = s.epc := by
  intro ls
  induction ls with
  | nil => intro s s' _ _ hr; cases hr; rfl
  | cons l ls ih =>
    intro s s' he hn hr
    simp only [run] at hr
    split at hr
    · rename_i s1 h1
      have : s1.epc = s.epc := by
        rcases chan_step (step_act h1) with ⟨e, _⟩ | ⟨_, e, _⟩ | ⟨e, _⟩
        · exact e
        · exact absurd e he
        · exact absurd e (hn l List.mem_cons_self)
      rw [← this] at he ⊢
      exact ih he (fun l hl => hn l (List.mem_cons_of_mem _ hl)) hr
    · cases hr

theorem ticks_run_le {env : Env} (ls : List Label) {s s' : St} (hr : run env s ls = some s') :
    s.ticks ≤ s'.ticks :=
  run_induct (fun x => s.ticks ≤ x.ticks) (fun _ _ _ hs h => Nat.le_trans hs (ticks_mono h))
    ls s s' (Nat.le_refl _) hr

theorem run_cons {env : Env} {s s' : St} {l : Label} {ls : List Label} (h : run env s (l :: ls) = some s') :
    ∃ s1, step env s l = some s1 ∧ run env s1 ls = some s' := by
  simp only [run] at h
  split at h
  · exact ⟨_, ‹_›, h⟩
  · cases h

theorem run_app {env : Env} {s s' : St} {l1 l2 : List Label} (h : run env s (l1 ++ l2) = some s') :
    ∃ s1, run env s l1 = some s1 ∧ run env s1 l2 = some s' := by
  rw [run_append] at h
  cases h1 : run env s l1 with
  | none => rw [h1] at h; cases h
  | some s1 => rw [h1] at h; exact ⟨s1, rfl, h⟩

/-- The state in which the task is about to be put into the wheel, when no tick passes meanwhile. -/
theorem processed {env : Env} {k a : Nat} {t : Task} {ls1 ls2 m1 m2 : List Label} {l : Label} {s0 s1 : St}
    (hl : HandsIn t l) (hk : t.taskId = k) (hv : t.valid = true) (ha : alarm 0 t = some a)
    (h1 : ∀ l ∈ ls1, ¬ Touches k l) (h2 : ∀ l ∈ ls2, ¬ Touches k l)
    (hr : run env (init env) (ls1 ++ l :: ls2) = some s0) (hx : NextIs t s0)
    (hm1 : ∀ l ∈ m1, ¬ Touches k l ∧ l ≠ .eNext) (hm2 : ∀ l ∈ m2, ¬ Touches k l ∧ l ≠ .eNext)
    (hm : run env s0 (processing m1 m2) = some s1) (htick : s1.ticks = s0.ticks) :
    ∃ s ts, Reachable env s ∧ AboutToInsert k t.getNextExecTimestamp.2 s.secondHand a ts s ∧
      step env s .eNext = some s1 ∧ s.ticks = s0.ticks ∧ attempts k s.log = [] ∧
      (s0.ticks = 0 ∧ ts = env.boot ∨ ∃ n, n ≤ s0.ticks ∧ s0.ticks ≤ n + 1 ∧ ts = env.clock n) := by
  have hr0 : Reachable env s0 := ⟨_, hr⟩
  unfold processing at hm
  obtain ⟨sc, hm, hlast⟩ := run_app hm
  obtain ⟨sa, hA, hm⟩ := run_app hm
  obtain ⟨sr, hrecv, hA⟩ := run_cons hA
  obtain ⟨sb, hB, hC⟩ := run_cons hm
  obtain ⟨sd, hlast, hd⟩ := run_cons hlast
  cases hd
  -- receiving
  have her : ∃ c, sr.epc = .add1 t c s0.secondHand := by
    have h := step_act hrecv
    rcases hx with ⟨rest, hx | ⟨c, hx⟩⟩
    · cases h
      all_goals try (have hy := hx.symm.trans ‹s0.chan = _›; injection hy with hy; cases hy; done)
      rename_i u rest he hc'
      have hy := hx.symm.trans hc'
      injection hy with hy; cases hy; exact ⟨none, rfl⟩
    · cases h
      all_goals try (have hy := hx.symm.trans ‹s0.chan = _›; injection hy with hy; cases hy; done)
      rename_i u c' rest he hc'
      have hy := hx.symm.trans hc'
      injection hy with hy; cases hy; exact ⟨some c, rfl⟩
  obtain ⟨c, her⟩ := her
  have hea : sa.epc = .add1 t c s0.secondHand := by
    rw [← her]; exact epc_run m1 (by rw [her]; simp) (fun l hl => (hm1 l hl).2) hA
  have heb : sb.epc = .add2 t.getNextExecTimestamp.2 c s0.secondHand a sa.globalTime ∧ sb.ticks = sa.ticks := by
    have h := step_act hB
    cases h
    all_goals try (have hy := hea.symm.trans ‹sa.epc = _›; cases hy; done)
    · rename_i u ch hd he hn
      have hy := hea.symm.trans he
      cases hy
      rw [show t.getNextExecTimestamp.1 = some a from ha] at hn; cases hn
    · rename_i u ch hd exec he hn
      have hy := hea.symm.trans he
      cases hy
      rw [show t.getNextExecTimestamp.1 = some a from ha] at hn; cases hn
      exact ⟨rfl, rfl⟩
  have hec : sc.epc = .add2 t.getNextExecTimestamp.2 c s0.secondHand a sa.globalTime := by
    rw [← heb.1]; exact epc_run m2 (by rw [heb.1]; simp) (fun l hl => (hm2 l hl).2) hC
  -- no tick
  have t1 := ticks_mono (step_act hrecv)
  have t2 := ticks_run_le m1 hA
  have t3 := ticks_run_le m2 hC
  have t4 := ticks_mono (step_act hlast)
  have hrr := hr0.step hrecv
  have hra := hrr.run hA
  have hrb := hra.step hB
  have hrc := hrb.run hC
  have hh0 := (wheelOk hr0).hand
  have hhc := (wheelOk hrc).hand
  have htc : sc.ticks = s0.ticks := by omega
  have hta : sa.ticks = s0.ticks := by omega
  -- history
  have hfull : run env (init env) (ls1 ++ l :: (ls2 ++ .eRecv :: (m1 ++ .eNext :: m2))) = some sc := by
    have e : ls1 ++ l :: (ls2 ++ .eRecv :: (m1 ++ .eNext :: m2)) =
        (ls1 ++ l :: ls2) ++ (.eRecv :: (m1 ++ .eNext :: m2)) := by simp
    rw [e, run_append, hr]
    simp only [Option.bind_some, run, hrecv]
    rw [run_append, hA]
    simp only [Option.bind_some, run, hB]
    exact hC
  have hno : ∀ l ∈ ls2 ++ .eRecv :: (m1 ++ .eNext :: m2), ¬ Touches k l := by
    intro l hl
    simp only [List.mem_append, List.mem_cons] at hl
    rcases hl with hl | rfl | hl | rfl | hl
    · exact h2 l hl
    · exact id
    · exact (hm1 l hl).1
    · exact id
    · exact (hm2 l hl).1
  obtain ⟨_, _, h5, h6⟩ := brought hl h1 hno hfull hec hk
  have hat : attempts k sc.log = [] := by
    rcases brought_log hl h1 hno hfull with ⟨_, _, h⟩ | h
    · exact h
    · have := h.epc; rw [hec] at this; exact absurd hk this
  refine ⟨sc, sa.globalTime, hrc, ⟨⟨c, ?_⟩, hk, hv, h5, h6⟩, hlast, htc, hat, ?_⟩
  · rw [hec]; congr 1; omega
  · have := timeOk hra
    unfold TimeOk at this
    rwa [hta] at this

/-! ## The properties -/

/-- **C05** and **C06** by the clock. The clock shows one second more at every tick. A task is handed in, with an
id that nothing else concerns; the event thread takes it from the channel and puts it into the wheel within one
tick, at which the clock has not got past the first alarm `a`. Then the first attempt to start it is made one or two
seconds after `a`, or exactly one revolution of the wheel (3600 seconds) later than that; the latter not unless the
slot number wraps around. -/
theorem C05_clock {env : Env} {k a : Nat} {t : Task} {ls1 ls2 m1 m2 ls3 : List Label} {l : Label} {s0 s1 s2 : St}
    (hc : Steady env.clock) (hb : env.boot = env.clock 0 ∨ env.boot + 1 = env.clock 0)
    (hl : HandsIn t l) (hk : t.taskId = k) (hv : t.valid = true) (ha : alarm 0 t = some a)
    (h1 : ∀ l ∈ ls1, ¬ Touches k l) (h2 : ∀ l ∈ ls2, ¬ Touches k l)
    (hr : run env (init env) (ls1 ++ l :: ls2) = some s0) (hx : NextIs t s0)
    (hm1 : ∀ l ∈ m1, ¬ Touches k l ∧ l ≠ .eNext) (hm2 : ∀ l ∈ m2, ¬ Touches k l ∧ l ≠ .eNext)
    (hm : run env s0 (processing m1 m2) = some s1) (htick : s1.ticks = s0.ticks)
    (hle : env.clock s0.ticks ≤ a) (h3 : ∀ l ∈ ls3, ¬ Touches k l) (hrun : run env s1 ls3 = some s2) :
    ∃ D, (attempts k s2.log = [] ∧ s2.ticks ≤ D ∨ (attempts k s2.log).head? = some D ∧ D ≤ s2.ticks) ∧
      ((env.clock D = a + 1 ∨ env.clock D = a + 2) ∨
        (env.clock D = a + 1 + 3600 ∨ env.clock D = a + 2 + 3600) ∧
        3600 ≤ (a - env.clock s0.ticks) % 3600 + s0.ticks % 3600 + 2) := by
  obtain ⟨s, ts, hrs, hins, hstep, ht, hat, hts⟩ := processed hl hk hv ha h1 h2 hr hx hm1 hm2 hm htick
  have hclk : ∀ n d, env.clock (n + d) = env.clock n + d := by
    intro n d
    induction d with
    | zero => rfl
    | succ d ih => rw [← Nat.add_assoc, hc, ih]; omega
  have hts' : ts = env.clock s0.ticks ∨ ts + 1 = env.clock s0.ticks := by
    rcases hts with ⟨h, rfl⟩ | ⟨n, h4, h5, rfl⟩
    · rw [h]; exact hb
    · by_cases hn : n = s0.ticks
      · left; rw [hn]
      · right
        have : s0.ticks = n + 1 := by omega
        rw [this, hc]
  have hle' : ts ≤ a := by omega
  obtain ⟨ns, h4, h5⟩ := C05_first_start hins hle' hrs hstep h3 hrun
  rw [hat, List.nil_append] at h4
  refine ⟨_, by rw [h4]; exact h5, ?_⟩
  rw [ht]
  unfold firstDue
  split
  · left
    rw [show s0.ticks + (a - ts) + 1 = s0.ticks + (a - ts + 1) by omega, hclk]
    omega
  · rename_i hw
    right
    rw [show s0.ticks + (a - ts) + 1 + 3600 = s0.ticks + (a - ts + 1 + 3600) by omega, hclk]
    refine ⟨by omega, ?_⟩
    simp only [not_or, not_and] at hw
    omega

/-- **C06** by the clock, for the cases in which it holds: the slot number does not wrap around. The start is
attempted at most two seconds after the alarm. Missing: the other case, in which C06 is false (`C06_violated`). -/
theorem C06_clock_partial {env : Env} {k a : Nat} {t : Task} {ls1 ls2 m1 m2 ls3 : List Label} {l : Label}
    {s0 s1 s2 : St}
    (hc : Steady env.clock) (hb : env.boot = env.clock 0 ∨ env.boot + 1 = env.clock 0)
    (hl : HandsIn t l) (hk : t.taskId = k) (hv : t.valid = true) (ha : alarm 0 t = some a)
    (h1 : ∀ l ∈ ls1, ¬ Touches k l) (h2 : ∀ l ∈ ls2, ¬ Touches k l)
    (hr : run env (init env) (ls1 ++ l :: ls2) = some s0) (hx : NextIs t s0)
    (hm1 : ∀ l ∈ m1, ¬ Touches k l ∧ l ≠ .eNext) (hm2 : ∀ l ∈ m2, ¬ Touches k l ∧ l ≠ .eNext)
    (hm : run env s0 (processing m1 m2) = some s1) (htick : s1.ticks = s0.ticks)
    (hle : env.clock s0.ticks ≤ a) (hnw : (a - env.clock s0.ticks) % 3600 + s0.ticks % 3600 + 2 < 3600)
    (h3 : ∀ l ∈ ls3, ¬ Touches k l) (hrun : run env s1 ls3 = some s2) (hlate : a + 2 < env.clock s2.ticks) :
    ∃ n, (attempts k s2.log).head? = some n ∧ a < env.clock n ∧ env.clock n ≤ a + 2 := by
  obtain ⟨D, h4, h5⟩ := C05_clock hc hb hl hk hv ha h1 h2 hr hx hm1 hm2 hm htick hle h3 hrun
  have h6 : env.clock D = a + 1 ∨ env.clock D = a + 2 := by
    rcases h5 with h5 | ⟨_, h5⟩
    · exact h5
    · omega
  rcases h4 with ⟨_, h4⟩ | ⟨h4, _⟩
  · have : Paced env.clock := by
      intro n m
      induction m with
      | zero => exact Nat.le_succ _
      | succ m ih => rw [show n + (m + 1) = n + m + 1 from rfl, hc]; omega
    have := Paced.mono this h4
    omega
  · exact ⟨D, h4, by omega, by omega⟩

/-- **C09** for first starts, from the call on: if the wheel does not tick faster than the clock and no tick passes
while the event thread works on the task, then no attempt to start it is made before its alarm. Missing: ticks during
that work, with which C09 is false (`C09_violated`). -/
theorem C09_clock_partial {env : Env} {k a : Nat} {t : Task} {ls1 ls2 m1 m2 ls3 : List Label} {l : Label}
    {s0 s1 s2 : St}
    (hc : Paced env.clock) (hb : env.boot ≤ env.clock 0)
    (hl : HandsIn t l) (hk : t.taskId = k) (hv : t.valid = true) (ha : alarm 0 t = some a)
    (h1 : ∀ l ∈ ls1, ¬ Touches k l) (h2 : ∀ l ∈ ls2, ¬ Touches k l)
    (hr : run env (init env) (ls1 ++ l :: ls2) = some s0) (hx : NextIs t s0)
    (hm1 : ∀ l ∈ m1, ¬ Touches k l ∧ l ≠ .eNext) (hm2 : ∀ l ∈ m2, ¬ Touches k l ∧ l ≠ .eNext)
    (hm : run env s0 (processing m1 m2) = some s1) (htick : s1.ticks = s0.ticks)
    (h3 : ∀ l ∈ ls3, ¬ Touches k l) (hrun : run env s1 ls3 = some s2) (n : Nat)
    (hn : (attempts k s2.log).head? = some n) : a ≤ env.clock n := by
  obtain ⟨s, ts, hrs, hins, hstep, ht, hat, hts⟩ := processed hl hk hv ha h1 h2 hr hx hm1 hm2 hm htick
  have hts' : ts ≤ env.clock s.ticks := by
    rw [ht]
    rcases hts with ⟨h, rfl⟩ | ⟨n, h4, h5, rfl⟩
    · rw [h]; exact hb
    · exact Paced.mono hc h4
  obtain ⟨ns, h4, h5⟩ := C09_first_partial hc hts' hins hrs hstep h3 hrun
  rw [hat, List.nil_append] at h4
  rw [h4] at hn
  exact h5 n hn

/-! Example: task 1, whose first alarm is at second 108 and whose period is 5 seconds, is added in tick 3 (second 103)
of an idle timer; meanwhile the scheduler goes on with its iteration, and a second task is added. It is started in tick
9, at second 109. -/
namespace Ex

def before : List Label := idles 3 ++ [.tLoad]
def after : List Label := [.uSend (.add (every 2 140 5))]
def meanwhile1 : List Label := [.tStore]
def meanwhile2 : List Label := [.tArrive]
def onward1 : List Label := [.eNext, .tLapse] ++ idles 5 ++ fire 1 0 ++ idles 3

def s0 : St := play env0 (before ++ .uSend (.add (every 1 108 5)) :: after)
def s1 : St := (run env0 s0 (processing meanwhile1 meanwhile2)).getD (init env0)

example : Steady env0.clock ∧ (env0.boot = env0.clock 0 ∨ env0.boot + 1 = env0.clock 0) ∧
    alarm 0 (every 1 108 5) = some 108 ∧
    run env0 (init env0) (before ++ .uSend (.add (every 1 108 5)) :: after) = some s0 ∧ NextIs (every 1 108 5) s0 ∧
    run env0 s0 (processing meanwhile1 meanwhile2) = some s1 ∧ s1.ticks = s0.ticks ∧
    env0.clock s0.ticks = 103 ∧
    (before ++ after ++ meanwhile1 ++ meanwhile2 ++ onward1).all (fun l => decide (¬ Touches 1 l)) = true ∧
    ∃ s2, run env0 s1 onward1 = some s2 ∧ attempts 1 s2.log = [9] ∧ env0.clock 9 = 109 := by
  refine ⟨fun n => by simp [env0]; omega, by decide +kernel, rfl, play_run (by rfl), ⟨_, Or.inl rfl⟩, by rfl, by rfl,
    by rfl, by decide +kernel, _, rfl, by decide +kernel, rfl⟩

end Ex

end DelayTimer
