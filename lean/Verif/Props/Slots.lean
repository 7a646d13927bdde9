import Verif.Proofs.Slots
import Verif.Props.FairSteady

/-!
C88: how much of a limit on parallel runs can be lost. The count kept in the mark of a task can go wrong: the end of a run that
is taken off before the run is counted is lost, and so is the end of a run whose chain was dropped. But this happens at most
once each.
-/

namespace DelayTimer

open Spec

/-- The limits of the tasks handed in are the limits of the copies. -/
theorem limit_run {env : Env} {k m : Nat} : ∀ (ls : List Label) {s s' : St},
    Copies (fun t => ∀ x, t.maximumParallelRunnableNum = some x → m ≤ x)
      (fun t => ∀ x, t.maximumParallelRunnableNum = some x → m ≤ x) k s →
    (∀ t ∈ handed k ls, ∀ x, t.maximumParallelRunnableNum = some x → m ≤ x) → run env s ls = some s' →
    Copies (fun t => ∀ x, t.maximumParallelRunnableNum = some x → m ≤ x)
      (fun t => ∀ x, t.maximumParallelRunnableNum = some x → m ≤ x) k s' := by
  intro ls
  induction ls with
  | nil => intro s s' h _ hr; cases hr; exact h
  | cons l ls ih =>
    intro s s' h hb hr
    simp only [run] at hr
    split at hr
    rotate_left
    · cases hr
    rename_i s1 h1
    simp only [handed, List.flatMap_cons, List.mem_append] at hb
    exact ih (copies_step (fun _ _ h => h) (fun _ h => h) (fun t t' ht hd => by rw [down_limit hd]; exact ht)
      (fun _ h => h) (fun t ht => hb t (Or.inl ht)) h (step_act h1)) (fun t ht => hb t (Or.inr ht)) hr

/-- A run is skipped only when the count is at the limit. -/
theorem skip_full {env : Env} {k : Nat} {s : St} {l : Label} {s' : St} (h : Act env s l s')
    (hskip : skipTicks k s'.log ≠ skipTicks k s.log) :
    ∃ p t m n, s.tpc = .check p t ∧ t.taskId = k ∧ t.maximumParallelRunnableNum = some m ∧ num k s = some n ∧ m ≤ n := by
  rcases skips_step k h with h1 | ⟨p, t, hp, hk, hp', hlog⟩
  · exact absurd h1 hskip
  · have hl : TLabel l := Classical.byContradiction fun hl => by
      rw [(other_thread h hl).1, hp] at hp'; cases hp'
    cases h
    all_goals try (exact False.elim hl)
    all_goals try (have := hp.symm.trans ‹s.tpc = _›; cases this; done)
    case check_skip pending t' rec m' mk h hrec hmax hf hle =>
      rw [hp] at h; cases h
      exact ⟨p, t, m', mk.parallelRunnableNum, hp, hk, hmax, by simp [num, ← hk, hf], hle⟩
    all_goals (have := congrArg List.length hlog; simp at this)

theorem skip_covered {env : Env} {k m d : Nat} {ls : List Label} {l : Label} {s s' : St}
    (hr : run env (init env) ls = some s) (hs : step env s l = some s') (hskip : skipTicks k s'.log ≠ skipTicks k s.log)
    (hm : ∀ t ∈ handed k ls, ∀ x, t.maximumParallelRunnableNum = some x → m ≤ x) (hc : Covered k d s) :
    AtLeastOngoing k (m - (1 + d)) s.log := by
  rw [atLeast_iff ⟨ls, hr⟩]
  obtain ⟨p, t, x, n, h1, h2, h3, h4, h5⟩ := skip_full (step_act hs) hskip
  have h6 := (limit_run (m := m) ls (copies_init env _ _ k) hm hr).held t (by rw [h1]; simp [heldTok, h2]) x h3
  have := hc.le h4
  omega

/-- **C88** Whatever happens, a run of a task with a limit of `m` is skipped only while at least `m - 2` runs of it are going
on. This holds for all executions, also if the id is handed in again and again, updated, advanced, removed. -/
theorem C88_skips {env : Env} {k m : Nat} {ls : List Label} {l : Label} {s s' : St}
    (hr : run env (init env) ls = some s) (hs : step env s l = some s') (hskip : skipTicks k s'.log ≠ skipTicks k s.log)
    (hm : ∀ t ∈ handed k ls, ∀ x, t.maximumParallelRunnableNum = some x → m ≤ x) : AtLeastOngoing k (m - 2) s.log :=
  skip_covered hr hs hskip hm (covered ⟨ls, hr⟩ k)

/-- **C88** If the chain of the task, if it has one, is not dropped, at least `m - 1` runs are going on. -/
theorem C88_skips_kept {env : Env} {k m : Nat} {ls : List Label} {l : Label} {s s' : St}
    (hr : run env (init env) ls = some s) (hs : step env s l = some s') (hskip : skipTicks k s'.log ≠ skipTicks k s.log)
    (hm : ∀ t ∈ handed k ls, ∀ x, t.maximumParallelRunnableNum = some x → m ≤ x)
    (hc : Throughout env (init env) ls (ChainKept k)) : AtLeastOngoing k (m - 1) s.log :=
  skip_covered (d := 0) hr hs hskip hm (covered_kept ls (Reachable.init env) (covered_init env k 0) hc hr)

/-- A task that is only added, never inserted, keeps what chain it has. -/
theorem C88_skips_added {env : Env} {k m : Nat} {ls : List Label} {l : Label} {s s' : St}
    (hr : run env (init env) ls = some s) (hs : step env s l = some s') (hskip : skipTicks k s'.log ≠ skipTicks k s.log)
    (hm : ∀ t ∈ handed k ls, ∀ x, t.maximumParallelRunnableNum = some x → m ≤ x)
    (ha : ∀ t, .uInsert t ∈ ls → t.taskId ≠ k) : AtLeastOngoing k (m - 1) s.log := by
  refine C88_skips_kept hr hs hskip hm ?_
  intro a b x e hx
  exact chainKept_added hx fun t ht => ha t (by rw [e]; exact List.mem_append_left _ ht)

/-! ## Unending executions -/

/-- The task is started again if all its runs so far have ended. -/
theorem again_covered {env : Env} (c : Course env) (hfs : c.WeaklyFair (ByScheduler · = true)) (ht : c.Turning)
    {k m d n0 n1 n : Nat} {t : Task} {l : Label} (hlab : c.lab n0 = some l) (hin : HandsIn t l) (hk : t.taskId = k)
    (hv : t.valid = true) (hlim : t.maximumParallelRunnableNum = some m) (hm : d + 2 ≤ m) (ha : ∀ j, alarm j t ≠ none)
    (h0 : runsLeft t ≠ some 0) (hno : ∀ j l, j ≠ n0 → c.lab j = some l → ¬ Touches k l)
    (h01 : n0 < n1) (hq : Spec.Settled k (c.st n1)) (hn : attempts k (c.st n1).log = []) (h1 : n1 ≤ n)
    (hc : ∀ j, Covered k d (c.st j))
    (hend : ∀ r ∈ startedRecsOf k (c.st n).log, RunEnded k r (c.st n).log)
    (hleft : runsLeft t ≠ some (startTicks k (c.st n).log).length) :
    c.Comes n fun s => (startTicks k (c.st n).log).length < (startTicks k s.log).length := by
  refine Classical.byContradiction fun hnever => ?_
  have hsplit : ∀ j, n0 < j → ∃ ls2, (∀ l ∈ ls2, ¬ Touches k l) ∧ c.upTo j = c.upTo n0 ++ l :: ls2 := by
    intro j hj
    obtain ⟨ls2, h2, _, h3⟩ := between_mem c (n := n0 + 1) (m := j) (P := fun l => ¬ Touches k l) (by omega)
      (fun i l hi h => hno i l (by omega) h)
    exact ⟨ls2, h2, by rw [h3, Course.upTo, hlab]; simp⟩
  have hpre : ∀ l ∈ c.upTo n0, ¬ Touches k l := by
    intro l hl
    obtain ⟨j, hj, h⟩ := (mem_upTo c n0).1 hl
    exact hno j l (by omega) h
  -- the request has been processed
  obtain ⟨ls2, g1, g2⟩ := hsplit n1 h01
  have hrun1 := course_run c n1
  rw [g2] at hrun1
  obtain ⟨a0, ha0⟩ : ∃ a, alarm 0 t = some a := by
    cases hx : alarm 0 t with
    | none => exact absurd hx (ha 0)
    | some a => exact ⟨a, rfl⟩
  have hmark1 : (c.st n1).flags k ≠ none := by
    obtain ⟨_, _, _, _, hf, _⟩ := settled_life hin hk hv ha0 hpre g1 hrun1 hq
    exact hf
  -- no start any more
  have hsame : ∀ j, n ≤ j → startTicks k (c.st j).log = startTicks k (c.st n).log ∧
      startedRecsOf k (c.st j).log = startedRecsOf k (c.st n).log := by
    refine course_keeps c (fun s => startTicks k s.log = startTicks k (c.st n).log ∧
      startedRecsOf k s.log = startedRecsOf k (c.st n).log) ⟨rfl, rfl⟩ ?_
    intro j l hj hl ⟨h, h'⟩
    rcases starts_step k (step_act (course_step c hl)) with ⟨h2, _⟩ | ⟨_, _, u, _, _, _, _, hu, h2⟩
    · refine ⟨by rw [h2, h], ?_⟩
      rcases starts_recs k (step_act (course_step c hl)) with h3 | ⟨_, _, _, _, h3⟩
      · rw [h3, h']
      · exfalso
        have := congrArg (startTicks k) h3
        rw [h2] at this
        have := congrArg List.length this
        simp [startTicks] at this
    · refine absurd ⟨j + 1, by omega, ?_⟩ hnever
      show _ < (startTicks k (c.st (j + 1)).log).length
      rw [h2, ← h]
      simp [startTicks]
  have hz : ∀ j, n ≤ j → openRuns k (c.st j).log = [] := by
    intro j hj
    refine (resting_iff (course_reach c j)).1 fun r h => h.2 ?_
    have h2 := h.1
    rw [(hsame j hj).2] at h2
    rw [(repOk (course_reach c j)).ended]
    exact course_log c hj ((repOk (course_reach c n)).ended _ _ |>.1 (hend r h2))
  have hskip : ∀ j, n ≤ j → skipTicks k (c.st j).log = skipTicks k (c.st n).log := by
    refine course_keeps c (fun s => skipTicks k s.log = skipTicks k (c.st n).log) rfl ?_
    intro j l hj hl h
    refine Classical.byContradiction fun hne => ?_
    obtain ⟨p, t', x, v, e1, e2, e3, e4, e5⟩ := skip_full (step_act (course_step c hl)) (fun h' => hne (h'.trans h))
    have e6 := (hc j).le e4
    rw [hz j hj] at e6
    obtain ⟨ls2, g1, g2⟩ := hsplit j (by omega)
    have hho : OnlyOnce k t (c.upTo j) :=
      ⟨hk, _, _, ls2, g2, hin, fun l hl hb => hpre l hl (brings_touches hb), fun l hl hb => g1 l hl (brings_touches hb)⟩
    have e7 := (limit_run (m := m) _ (copies_init env _ _ k) (by rw [once_handed hho]; simp [hlim]) (course_run c j)).held t'
      (by rw [e1]; simp [heldTok, e2]) x e3
    simp at e6
    omega
  -- but the attempts go on
  obtain ⟨B, hB⟩ := C65_keeps_coming_partial hin hk hv h0 hpre g1 hrun1 hq hn
    ((startTicks k (c.st n).log).length + (skipTicks k (c.st n).log).length + 1) (fun j _ => ha j)
  obtain ⟨j, hj, htick⟩ := C71_turns c hfs ht n (B + 1)
  have htick' : B + 1 ≤ (c.st j).ticks := htick
  obtain ⟨ls, f1, f2, _⟩ := between_mem c (n := n1) (m := j) (P := fun l => ¬ Touches k l) (by omega)
    (fun i l hi h => hno i l (by omega) h)
  have hpan := (course_turns c ht j).2.1
  rcases hB ls (c.st j) f1 f2 hpan (by omega) with h2 | h2
  · have hd : Tally k 0 (c.st n1) := by
      obtain ⟨d, hd⟩ := tally_reachable (course_reach c n1) k
      have : d = 0 := by unfold Tally at hd; rw [hn] at hd; simp at hd; omega
      rw [this] at hd; exact hd
    have h3 := tally_run ls hq.quiet hmark1 f1 f2 hpan hd
    unfold Tally at h3
    rw [(hsame j hj).1, hskip j hj] at h3
    have h4 : (undecided k (c.st j)).length ≤ 1 := by
      unfold undecided; split <;> first | (split <;> simp) | simp
    omega
  · rw [(hsame j hj).1] at h2
    exact hleft h2

/-- The count is covered all the time. -/
theorem course_covered {env : Env} (c : Course env) {k m : Nat} (hm : 3 ≤ m ∨ 2 ≤ m ∧ ∀ j, ChainKept k (c.st j)) :
    ∃ d, d + 2 ≤ m ∧ ∀ j, Covered k d (c.st j) := by
  rcases hm with hm | ⟨hm, hc⟩
  · exact ⟨1, by omega, fun j => covered (course_reach c j) k⟩
  · exact ⟨0, by omega, fun j => covered_kept _ (Reachable.init env) (covered_init env k 0)
      (throughout_moments c (n := j) fun i _ => hc i) (course_run c j)⟩

/-- **C88** A task with a limit of three or more, or of two if its chain, if it has one, is not dropped, is handed in, no
other call ever concerns its id, and the request is processed before the first attempt. If at some moment all its runs so
far have ended, then the task is started again, unless its count is used up; provided that the scheduler is not held up
forever and does not end. -/
theorem C88_again {env : Env} (c : Course env) (hfs : c.WeaklyFair (ByScheduler · = true)) (ht : c.Turning)
    {k m n0 n1 n : Nat} {t : Task} {l : Label} (hlab : c.lab n0 = some l) (hin : HandsIn t l) (hk : t.taskId = k)
    (hv : t.valid = true) (hlim : t.maximumParallelRunnableNum = some m)
    (hm : 3 ≤ m ∨ 2 ≤ m ∧ ∀ j, ChainKept k (c.st j)) (ha : ∀ j, alarm j t ≠ none)
    (h0 : runsLeft t ≠ some 0) (hno : ∀ j l, j ≠ n0 → c.lab j = some l → ¬ Touches k l)
    (h01 : n0 < n1) (hq : Spec.Settled k (c.st n1)) (hn : attempts k (c.st n1).log = []) (h1 : n1 ≤ n)
    (hend : ∀ r ∈ startedRecsOf k (c.st n).log, RunEnded k r (c.st n).log)
    (hleft : runsLeft t ≠ some (startTicks k (c.st n).log).length) :
    c.Comes n fun s => (startTicks k (c.st n).log).length < (startTicks k s.log).length := by
  obtain ⟨d, h2, h3⟩ := course_covered c hm
  exact again_covered c hfs ht hlab hin hk hv hlim h2 ha h0 hno h01 hq hn h1 h3 hend hleft

/-- **C88** If every run ends sooner or later, a repeating task with such a limit is started again and again without end. -/
theorem C88_for_ever {env : Env} (c : Course env) (hfs : c.WeaklyFair (ByScheduler · = true)) (ht : c.Turning)
    {k m n0 n1 : Nat} {t : Task} {l : Label} (hlab : c.lab n0 = some l) (hin : HandsIn t l) (hk : t.taskId = k)
    (hv : t.valid = true) (hlim : t.maximumParallelRunnableNum = some m)
    (hm : 3 ≤ m ∨ 2 ≤ m ∧ ∀ j, ChainKept k (c.st j)) (ha : ∀ j, alarm j t ≠ none)
    (hrep : runsLeft t = none) (hno : ∀ j l, j ≠ n0 → c.lab j = some l → ¬ Touches k l)
    (h01 : n0 < n1) (hq : Spec.Settled k (c.st n1)) (hn : attempts k (c.st n1).log = [])
    (hend : ∀ n, ∀ r ∈ startedRecsOf k (c.st n).log, c.Comes n fun s => RunEnded k r s.log) (i : Nat) :
    ∃ m0, ∀ m, m0 ≤ m → i < (startTicks k (c.st m).log).length := by
  have hgrow : ∀ {a b : Nat}, a ≤ b → (startTicks k (c.st a).log).length ≤ (startTicks k (c.st b).log).length := by
    intro a b hab
    refine course_keeps c (fun s => (startTicks k (c.st a).log).length ≤ (startTicks k s.log).length) (Nat.le_refl _) ?_ b hab
    intro j l hj hl h
    rcases starts_step k (step_act (course_step c hl)) with ⟨h2, _⟩ | ⟨_, _, u, _, _, _, _, hu, h2⟩
    · rw [h2]; exact h
    · rw [h2]; simp [startTicks]; omega
  have hone : ∀ n, n1 ≤ n → ∃ j, n ≤ j ∧ (startTicks k (c.st n).log).length < (startTicks k (c.st j).log).length := by
    intro n h1
    refine Classical.byContradiction fun hnever => ?_
    have hsame : ∀ j, n ≤ j → startedRecsOf k (c.st j).log = startedRecsOf k (c.st n).log := by
      refine course_keeps c (fun s => startedRecsOf k s.log = startedRecsOf k (c.st n).log) rfl ?_
      intro j l hj hl h
      rcases starts_recs k (step_act (course_step c hl)) with h2 | ⟨_, _, _, _, h2⟩
      · rw [h2, h]
      · refine absurd ⟨j + 1, by omega, ?_⟩ hnever
        rw [h2]
        have := hgrow hj
        simp [startTicks]; omega
    -- all runs so far have ended at some moment
    have hall : ∀ rs : List Int, (∀ r ∈ rs, r ∈ startedRecsOf k (c.st n).log) →
        ∃ j, n ≤ j ∧ ∀ r ∈ rs, RunEnded k r (c.st j).log := by
      intro rs
      induction rs with
      | nil => exact fun _ => ⟨n, Nat.le_refl _, fun r h => by cases h⟩
      | cons r rs ih =>
        intro hrs
        obtain ⟨j, hj, h2⟩ := ih fun r h => hrs r (List.mem_cons_of_mem _ h)
        obtain ⟨j', hj', h3⟩ := hend j r (by rw [hsame j hj]; exact hrs r List.mem_cons_self)
        refine ⟨j', by omega, fun x hx => ?_⟩
        rcases List.mem_cons.1 hx with rfl | hx
        · exact h3
        · rw [(repOk (course_reach c j')).ended]
          exact course_log c hj' ((repOk (course_reach c j)).ended _ _ |>.1 (h2 x hx))
    obtain ⟨j, hj, h2⟩ := hall _ fun r h => h
    obtain ⟨j', hj', h3⟩ := C88_again c hfs ht hlab hin hk hv hlim hm ha (by rw [hrep]; simp) hno h01 hq hn
      (n := j) (by omega) (by rw [hsame j hj]; exact h2) (by rw [hrep]; simp)
    refine hnever ⟨j', by omega, ?_⟩
    have := hgrow hj
    have : (startTicks k (c.st j).log).length < (startTicks k (c.st j').log).length := h3
    omega
  suffices H : ∃ j, i < (startTicks k (c.st j).log).length by
    obtain ⟨j, hj⟩ := H
    exact ⟨j, fun m hm => Nat.lt_of_lt_of_le hj (hgrow hm)⟩
  induction i with
  | zero =>
    obtain ⟨j, _, h⟩ := hone n1 (Nat.le_refl _)
    exact ⟨j, by omega⟩
  | succ i ih =>
    obtain ⟨j, hj⟩ := ih
    obtain ⟨j', _, h⟩ := hone (max j n1) (Nat.le_max_right _ _)
    have := hgrow (Nat.le_max_left j n1)
    exact ⟨j', by omega⟩

end DelayTimer

namespace DelayTimer.Ex

open Spec

/-- Task 1 with a limit of `m`, with alarms at 101, 104, … -/
def wide (m : Nat) : Task := upTo m (every 1 101 3)

theorem wide_alarms (m j : Nat) : alarm j (wide m) ≠ none := by
  rw [alarm_seconds_new 0 101 3 (by omega) (by omega) (wide m) (Or.inl rfl) j]
  simp

/-- C88, `C88_skips`, `C88_skips_kept`, `C88_skips_added`: task 1 with a limit of three has three runs going on, and the
fourth is due. -/
def threeOn : List Label := add (wide 3) ++ idles 2 ++ fire 1 0 ++ [.eRecv] ++ idles 2 ++ fire 1 1 ++ [.eRecv] ++ idles 2 ++
  fire 1 2 ++ [.eRecv] ++ idles 2 ++ take 1

example : run env0 (init env0) threeOn = some (play env0 threeOn) ∧
    (∃ s', step env0 (play env0 threeOn) (.tCheck 3) = some s' ∧ skipTicks 1 s'.log ≠ skipTicks 1 (play env0 threeOn).log) ∧
    (∀ t ∈ handed 1 threeOn, ∀ x, t.maximumParallelRunnableNum = some x → 3 ≤ x) ∧
    (∀ t, .uInsert t ∈ threeOn → t.taskId ≠ 1) ∧ Throughout env0 (init env0) threeOn (ChainKept 1) ∧
    openRuns 1 (play env0 threeOn).log = [0, 1, 2] := by
  have hi : ∀ t, .uInsert t ∈ threeOn → t.taskId ≠ 1 := by
    intro t ht
    exact absurd ht (by simp [threeOn, add, idles, idle, fire, pop, take])
  refine ⟨play_run (by rfl), ⟨_, rfl, by decide +kernel⟩, ?_, hi, ?_, by decide +kernel⟩
  · intro t ht x hx
    rw [show handed 1 threeOn = [wide 3] from rfl] at ht
    rw [List.mem_singleton.1 ht] at hx
    cases hx
    exact Nat.le_refl _
  · intro a b x e hx
    exact chainKept_added hx fun t ht => hi t (by rw [e]; exact List.mem_append_left _ ht)

/-- Task 1 with a limit of `m` and a chain: its first run ends before the scheduler has counted it, and its chain is dropped
while its second run is going on. -/
def lossy (m : Nat) : List Label := ins (wide m) ++ idles 2 ++ pop 1 0 ++ [.eRecv] ++ ending 0 ++
  [.tSlot, .tMark, .tLapse] ++ idles 2 ++ fire 1 1 ++ [.eRecv, .uDropChain 0] ++ ending 1

/-- A course that begins with the insertion of `wide m` and goes on quietly. -/
theorem wide_course {m : Nat} {c : Course env0} {pre : List Label}
    (hpre : ∀ l ∈ pre, ¬ Touches 1 l ∧ l ≠ .uSend .stop ∧ l ≠ .tSpawn true)
    (h1 : c.upTo (pre.length + 1) = .uInsert (wide m) :: pre)
    (h2 : ∀ n l, pre.length + 1 ≤ n → c.lab n = some l → ¬ Touches 1 l ∧ l ≠ .uSend .stop ∧ l ≠ .tSpawn true) :
    c.Listening ∧ c.Turning ∧ c.lab 0 = some (.uInsert (wide m)) ∧
      (∀ j l, j ≠ 0 → c.lab j = some l → ¬ Touches 1 l) := by
  have hup := upTo_take (c := c) (n := pre.length + 1) (by rw [h1]; simp)
  have h0 : c.lab 0 = some (.uInsert (wide m)) := by
    rw [(hup 0 (by omega)).2 (by omega), h1]; rfl
  have hall : ∀ j l, j ≠ 0 → c.lab j = some l → ¬ Touches 1 l ∧ l ≠ .uSend .stop ∧ l ≠ .tSpawn true := by
    intro j l hj hl
    by_cases hlt : j < pre.length + 1
    · rw [(hup j (by omega)).2 hlt, h1] at hl
      obtain ⟨i, rfl⟩ : ∃ i, j = i + 1 := ⟨j - 1, by omega⟩
      exact hpre l (List.mem_of_getElem? (by simpa using hl))
    · exact h2 j l (by omega) hl
  refine ⟨(unchecked_lives rfl c).1, C71_turning c ?_ ?_ (fun n k t _ j h => by cases h), h0, fun j l hj hl => (hall j l hj hl).1⟩
  · intro n hn
    cases n with
    | zero => rw [h0] at hn; cases hn
    | succ n => exact (hall _ _ (by simp) hn).2.1 rfl
  · intro n hn
    cases n with
    | zero => rw [h0] at hn; cases hn
    | succ n => exact (hall _ _ (by simp) hn).2.2 rfl

theorem inserted_settled {m : Nat} {c : Course env0} (h1 : c.upTo (lossy m).length = lossy m) :
    Spec.Settled 1 (c.st 5) ∧ attempts 1 (c.st 5).log = [] := by
  have hlen : (lossy m).length = 52 := rfl
  have hup := upTo_take (c := c) (n := (lossy m).length) (by rw [h1])
  have hr := course_run c 5
  have h6 : c.upTo 5 = ins (wide m) := by
    rw [(hup 5 (by omega)).1, h1]; rfl
  rw [h6, play_run (env := env0) (ls := ins (wide m)) (by rfl)] at hr
  rw [← Option.some.inj hr]
  refine ⟨⟨⟨?_, ?_⟩, ?_⟩, by rfl⟩
  · rw [show (play env0 (ins (wide m))).chan = [] from rfl]; simp
  · rw [show (play env0 (ins (wide m))).epc = .idle from rfl]; exact id
  · rw [show (play env0 (ins (wide m))).epc = .idle from rfl]; simp

/-- The body of run `i / 2` or `- i / 2` ends. -/
def bodyTurn (i : Nat) (l : Label) : Prop := l = .rBody (if i % 2 = 0 then (i / 2 : Nat) else - (i / 2 : Nat))

/-- C88, `C88_again`, `C88_for_ever`: the hypotheses are met by an execution in which both slots have been lost: a limit of three,
and every body ends sooner or later. -/
example : ∃ c : Course env0, c.WeaklyFair (ByScheduler · = true) ∧ c.Turning ∧ c.lab 0 = some (.uInsert (wide 3)) ∧
    HandsIn (wide 3) (.uInsert (wide 3)) ∧ (wide 3).taskId = 1 ∧ (wide 3).valid = true ∧
    (wide 3).maximumParallelRunnableNum = some 3 ∧ (∀ j, alarm j (wide 3) ≠ none) ∧ runsLeft (wide 3) = none ∧
    (∀ j l, j ≠ 0 → c.lab j = some l → ¬ Touches 1 l) ∧ Spec.Settled 1 (c.st 5) ∧ attempts 1 (c.st 5).log = [] ∧
    (∀ n, ∀ r ∈ startedRecsOf 1 (c.st n).log, c.Comes n fun s => RunEnded 1 r s.log) ∧
    num 1 (c.st 52) = some 2 ∧ openRuns 1 (c.st 52).log = [] := by
  have hrun : run env0 (init env0) (lossy 3) = some (play env0 (lossy 3)) := play_run (by decide +kernel)
  obtain ⟨c, h1, h2, h3, h4, _, h5⟩ := fair_course_with bodyTurn (fun i now h => by cases h) hrun
  have h1' : c.upTo ((lossy 3).tail.length + 1) = .uInsert (wide 3) :: (lossy 3).tail := h1
  have hlabs : ∀ n l, 52 ≤ n → c.lab n = some l → (¬ Touches 1 l ∧ l ≠ .uSend .stop ∧ l ≠ .tSpawn true) ∧ ∀ rec, l ≠ .rPanic rec := by
    intro n l hn hl
    rcases h5 n l hn hl with hu | ⟨i, rfl⟩
    · exact ⟨⟨unasked_touches hu, fun h => by subst h; exact hu, fun h => by subst h; exact hu⟩, fun rec h => by subst h; exact hu⟩
    · exact ⟨⟨id, by simp, by simp⟩, by simp⟩
  obtain ⟨g1, g2, g3, g4⟩ := wide_course (harmless_of (by decide)) h1' (fun n l hn hl => (hlabs n l hn hl).1)
  obtain ⟨g5, g6⟩ := inserted_settled h1
  have hkept : ∀ j, 0 ≤ j → ∀ rec r, (c.st j).rt rec = some r → r.lost = false := by
    refine course_keeps c (fun s => ∀ rec r, s.rt rec = some r → r.lost = false) ?_ ?_
    · rw [c.start]
      intro rec r hr
      cases hr
    · intro j l hj hlab h
      refine kept_step h (fun rec hl => ?_) (step_act (course_step c hlab))
      subst hl
      by_cases hlt : 52 ≤ j
      · exact (hlabs j _ hlt hlab).2 rec rfl
      · have : .rPanic rec ∈ lossy 3 := by rw [← h1]; exact (mem_upTo c _).2 ⟨j, show j < 52 by omega, hlab⟩
        simp [lossy, ins, idles, idle, fire, pop, ending] at this
  refine ⟨c, h3.scheduler, g2, g3, Or.inr rfl, rfl, rfl, rfl, wide_alarms 3, rfl, g4, g5, g6, ?_, ?_, ?_⟩
  · intro n r hr
    refine Classical.byContradiction fun hnever => ?_
    obtain ⟨rtn, k, ts, hst⟩ := startedRecsOf_iff.1 hr
    have hnb : ∀ m, .bodyEnded 1 r ∉ (c.st m).log := by
      intro m hb
      obtain ⟨j, hj, h⟩ := C73_reported c h3.events h3.scheduler h3.reports g1 (fun n => (course_turns c g2 n).2.2.1)
        (n := max n m) (course_log c (Nat.le_max_right _ _) hb)
      exact hnever ⟨j, by omega, h⟩
    have hundone : ∀ m, n + 52 ≤ m → ∃ q, (c.st m).rt r = some q ∧ q.taskId = 1 ∧ q.bodyDone = false ∧ q.lost = false := by
      intro m hm
      obtain ⟨q, e1, e2, _⟩ := (runLog (course_reach c m)).started _ _ _ _ _ (course_log c (by omega) hst)
      refine ⟨q, e1, e2, ?_, hkept m (by omega) r q e1⟩
      cases hb : q.bodyDone with
      | false => rfl
      | true =>
        rcases ((rtOk (course_reach c m)).rt r q e1).2.2 hb with h | ⟨_, _, _, _, _, _, h⟩
        · rw [e2] at h; exact absurd h (hnb m)
        · cases h
    obtain ⟨i, hi⟩ : ∃ i : Nat, (if i % 2 = 0 then ((i / 2 : Nat) : Int) else - ((i / 2 : Nat) : Int)) = r := by
      by_cases hr0 : 0 ≤ r
      · exact ⟨2 * r.natAbs, by rw [if_pos (by omega)]; omega⟩
      · exact ⟨2 * r.natAbs + 1, by rw [if_neg (by omega)]; omega⟩
    obtain ⟨m, hm, l, hl, hlab⟩ := h4 i (n + 52) fun m hm => by
      obtain ⟨q, e1, e2, e3, e4⟩ := hundone m hm
      have hstep : ∃ s', step env0 (c.st m) (.rBody r) = some s' := by
        simp [step, rBody, e1, e3, e4]
      exact ⟨.rBody r, hstep.choose, by rw [bodyTurn, hi], hstep.choose_spec⟩
    rw [bodyTurn, hi] at hl
    subst hl
    obtain ⟨q, e1, e2, e3, e4⟩ := hundone m hm
    have hstep := course_step c hlab
    simp only [step, rBody, e1] at hstep
    split at hstep
    · cases hstep
    simp only [Option.some.injEq] at hstep
    refine hnb (m + 1) ?_
    rw [← hstep, e2]
    exact List.mem_cons_self
  · rw [show c.st 52 = _ from h2]; decide +kernel
  · rw [show c.st 52 = _ from h2]; decide +kernel

theorem lossy_stuck : OnlyOnce 1 (wide 2) (lossy 2) ∧ Spec.Settled 1 (play env0 (lossy 2)) ∧
    startedRecsOf 1 (play env0 (lossy 2)).log = [0, 1] ∧ RunEnded 1 0 (play env0 (lossy 2)).log ∧
    RunEnded 1 1 (play env0 (lossy 2)).log ∧
    (∃ mk, (play env0 (lossy 2)).flags 1 = some mk ∧ 2 ≤ mk.parallelRunnableNum) ∧
    (∀ p u rec, (play env0 (lossy 2)).tpc = .spawn p u rec → u.taskId ≠ 1) := by
  refine ⟨⟨rfl, [], .uInsert (wide 2), (lossy 2).drop 1, rfl, Or.inr rfl, by simp,
    fun l hl hb => (harmless_of (by decide) l hl).1 (brings_touches hb)⟩, ⟨⟨?_, ?_⟩, ?_⟩, by decide +kernel, ?_, ?_, ⟨_, rfl, ?_⟩, ?_⟩
  · rw [show (play env0 (lossy 2)).chan = [] from rfl]; simp
  · rw [show (play env0 (lossy 2)).epc = .idle from rfl]; exact id
  · rw [show (play env0 (lossy 2)).epc = .idle from rfl]; simp
  · exact repOk (play_reachable (by rfl)) |>.ended _ _ |>.2 (by decide +kernel)
  · exact repOk (play_reachable (by rfl)) |>.ended _ _ |>.2 (by decide +kernel)
  · decide +kernel
  · intro p u rec h; cases h

end DelayTimer.Ex

namespace DelayTimer

open Spec Ex

/-- **C88** Three is the least such limit: a limit of two is not enough to be started again and again. Both slots can be lost,
and then the task is never started again, though nothing is held up and nothing runs any more. (For a limit of one and a task
without a chain this is `C76_fails`.) -/
theorem C88_two_fails : ¬ ∀ (env : Env) (c : Course env) (k n0 n1 : Nat) (t : Task) (l : Label), c.Fair → c.Listening → c.Turning →
    c.lab n0 = some l → HandsIn t l → t.taskId = k → t.valid = true → t.maximumParallelRunnableNum = some 2 →
    (∀ j, alarm j t ≠ none) → runsLeft t = none → (∀ j l, j ≠ n0 → c.lab j = some l → ¬ Touches k l) →
    n0 < n1 → Spec.Settled k (c.st n1) → attempts k (c.st n1).log = [] →
    (∀ n, ∀ r ∈ startedRecsOf k (c.st n).log, c.Comes n fun s => RunEnded k r s.log) →
    ∀ i, ∃ m0, ∀ m, m0 ≤ m → i < (startTicks k (c.st m).log).length := by
  intro h
  have hrun : run env0 (init env0) (lossy 2) = some (play env0 (lossy 2)) := play_run (by decide +kernel)
  obtain ⟨c, h1, h2, h3, _, h4⟩ := fair_course hrun
  have h1' : c.upTo ((lossy 2).tail.length + 1) = .uInsert (wide 2) :: (lossy 2).tail := h1
  obtain ⟨g1, g2, g3, g4⟩ := wide_course (harmless_of (by decide)) h1' (fun n l hn hl => by
    have hu := h4 n l hn hl
    exact ⟨unasked_touches hu, fun h => by subst h; exact hu, fun h => by subst h; exact hu⟩)
  obtain ⟨g5, g6⟩ := inserted_settled h1
  obtain ⟨e1, e2, e3, e4, e4', ⟨mk, e5, e6⟩, e7⟩ := lossy_stuck
  have hend : ∀ r ∈ startedRecsOf 1 (play env0 (lossy 2)).log, RunEnded 1 r (play env0 (lossy 2)).log := by
    intro r hr
    rw [e3] at hr
    rcases List.mem_cons.1 hr with rfl | hr
    · exact e4
    · cases List.mem_singleton.1 hr; exact e4'
  have hlater : ∀ n, (lossy 2).length ≤ n →
      startTicks 1 (c.st n).log = startTicks 1 (play env0 (lossy 2)).log ∧ Resting 1 (c.st n).log := by
    intro n hn
    obtain ⟨ls, f1, f2, _⟩ := between_mem c (P := fun l => ¬ Touches 1 l) hn (fun i l hi h => unasked_touches (h4 i l hi h))
    rw [h2] at f2
    exact C76_stuck hrun e1 rfl e2 hend e5 e6 e7 f1 f2
  have hends : ∀ n, ∀ r ∈ startedRecsOf 1 (c.st n).log, c.Comes n fun s => RunEnded 1 r s.log := by
    intro n r hr
    refine ⟨max n (lossy 2).length, Nat.le_max_left _ _, Classical.byContradiction fun hne => ?_⟩
    refine (hlater _ (Nat.le_max_right n (lossy 2).length)).2 r ⟨?_, hne⟩
    obtain ⟨_, _, _, h6⟩ := startedRecsOf_iff.1 hr
    exact startedRecsOf_iff.2 ⟨_, _, _, course_log c (Nat.le_max_left _ _) h6⟩
  obtain ⟨m0, hm0⟩ := h env0 c 1 0 5 (wide 2) _ h3 g1 g2 g3 (Or.inr rfl) rfl rfl rfl (wide_alarms 2) rfl g4
    (by omega) g5 g6 hends 2
  have h5 := hm0 (max m0 (lossy 2).length) (Nat.le_max_left _ _)
  rw [(hlater _ (Nat.le_max_right _ _)).1, show startTicks 1 (play env0 (lossy 2)).log = [2, 5] by decide +kernel] at h5
  simp at h5

end DelayTimer
