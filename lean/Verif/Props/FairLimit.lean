import Verif.Props.FairCourse
import Verif.Props.Limited
import Verif.Props.Panic
import Verif.Props.FairCalls

/-!
C76: a limit on parallel runs does not hold a task back for good if its runs end.
-/

namespace DelayTimer

open Spec

/-! ## Moments of a course -/

/-- A finite part from the beginning is what has happened by some moment. -/
theorem upTo_prefix {env : Env} (c : Course env) : ∀ (n : Nat) {a b : List Label}, c.upTo n = a ++ b →
    ∃ j, j ≤ n ∧ a = c.upTo j := by
  intro n
  induction n with
  | zero =>
    intro a b h
    refine ⟨0, Nat.le_refl _, ?_⟩
    cases a with
    | nil => rfl
    | cons x a => simp [Course.upTo] at h
  | succ n ih =>
    intro a b h
    rw [Course.upTo] at h
    rcases List.append_eq_append_iff.1 h with ⟨d, h1, h2⟩ | ⟨d, h1, _⟩
    · cases hl : c.lab n with
      | none =>
        rw [hl] at h2
        obtain ⟨rfl, _⟩ := List.append_eq_nil_iff.1 h2.symm
        exact ⟨n, by omega, by rw [h1, List.append_nil]⟩
      | some l =>
        rw [hl] at h2
        cases d with
        | nil => exact ⟨n, by omega, by rw [h1, List.append_nil]⟩
        | cons x d =>
          obtain ⟨rfl, h3⟩ := List.cons.inj (show [l] = x :: (d ++ b) from h2)
          obtain ⟨rfl, _⟩ := List.append_eq_nil_iff.1 h3.symm
          exact ⟨n + 1, Nat.le_refl _, by rw [h1, Course.upTo, hl]; rfl⟩
    · obtain ⟨j, hj, h2⟩ := ih h1
      exact ⟨j, by omega, h2⟩

/-- What holds at all moments holds throughout. -/
theorem throughout_moments {env : Env} (c : Course env) {n : Nat} {P : St → Prop} (h : ∀ j, j ≤ n → P (c.st j)) :
    Throughout env (init env) (c.upTo n) P := by
  intro a b x e hx
  obtain ⟨j, hj, rfl⟩ := upTo_prefix c n e
  rw [course_run c j] at hx
  cases hx
  exact h j hj

/-- Once the request has been processed, it stays so. -/
theorem settled_quiet {env : Env} {k : Nat} {s : St} {l : Label} {s' : St} (hs : Spec.Settled k s) (hl : ¬ Touches k l)
    (ha : Act env s l s') : Spec.Settled k s' := by
  refine ⟨quiet_step hs.quiet hl ha, ?_⟩
  intro tag m he hk
  cases ha
  all_goals try (exact hs.recorded tag m he hk)
  all_goals try (simp at he; done)
  case next_add2 t chain hand exec ts seed slot sl he' hseed hslot hw =>
    cases he
    exact hs.quiet.epc (by rw [he']; exact hk)
  case next_add2_missing t chain hand exec ts seed slot he' hseed hslot hw =>
    cases he
    exact hs.quiet.epc (by rw [he']; exact hk)

theorem brings_touches {k : Nat} {l : Label} (h : Brings k l) : Touches k l := by
  cases l <;> try (exact h)
  case uSend op => cases op <;> first | exact h | exact False.elim h

/-! ## Nothing is going on -/

/-- All runs of `k` have ended and none is counted or about to be counted. -/
structure Empty (k m : Nat) (s : St) : Prop where
  settled : Spec.Settled k s
  marked : s.flags k ≠ none
  lim : Copies (HasLimit m) (HasLimit m) k s
  runs : openRuns k s.log = []
  counting : counting k s.tpc = 0
  zero : ∀ n, num k s = some n → n = 0

/-- It stays so until the next start. -/
theorem empty_step {env : Env} {k m : Nat} {s : St} {l : Label} {s' : St} (hr : Reachable env s) (hs : Empty k m s)
    (hl : ¬ Touches k l) (hst : startTicks k s'.log = startTicks k s.log) (h : Act env s l s') : Empty k m s' := by
  obtain ⟨h1, h2, h3, h4, h5, h6⟩ := hs
  have hb : ¬ Brings k l := fun hb => hl (brings_touches hb)
  have h1' := settled_quiet h1 hl h
  have h2' := marked_step (fun _ => h1.quiet.epc) h2 h
  have h3' : Copies (HasLimit m) (HasLimit m) k s' :=
    copies_step (fun _ _ h => h) (fun _ h => h) (fun t t' ht hd => (down_limit hd).trans ht) (fun _ h => h)
      (by rw [broughtBy_nil hb]; simp) h3 h
  refine ⟨h1', h2', h3', ?_, ?_, ?_⟩
  all_goals cases parStep k hr h with
  | same _ a1 a2 a3 a4 => first | (rw [a1]; exact h4) | (rw [a3]; exact h5) | (rw [a2]; exact h6)
  | pass p t rec htpc htpc' hk hlt a1 a2 => first | (rw [a1]; exact h4) | (rw [htpc']; rfl) | (rw [a2]; exact h6)
  | start hsp rec a1 a2 a3 a4 =>
    exfalso
    cases h with
    | spawn pending t rec htpc =>
      rw [htpc] at hsp
      obtain rfl : t.taskId = k := hsp
      have := congrArg List.length hst
      simp [startTicks] at this
  | lose _ b1 b2 b3 b4 b5 a1 a2 a3 a4 => first | (rw [a1]; exact h4) | exact a3 | (rw [a2]; exact h6)
  | count u hu a3 a4 a1 a2 =>
    have hu0 : u = false := by cases u <;> simp_all
    subst hu0
    first | (rw [a1]; exact h4) | exact a3 | (intro n hn; rw [a2] at hn; simp at hn; exact h6 n hn)
  | add tag mk he hk a1 a2 a3 => exact absurd hk (h1.recorded tag mk he)
  | drop a1 a2 a3 => first | (rw [a1]; exact h4) | (rw [a3]; exact h5) | (intro n hn; rw [a2] at hn; cases hn)
  | ended e rest rec he hch hk a1 a2 a3 => rw [h4] at a1; simp at a1

/-- Nothing is skipped then. -/
theorem empty_skips {env : Env} {k m : Nat} {s : St} {l : Label} {s' : St} (hs : Empty k m s) (hm : 1 ≤ m)
    (h : Act env s l s') : skipTicks k s'.log = skipTicks k s.log := by
  rcases skips_step k h with h1 | ⟨p, t, hp, hk, hp', hlog⟩
  · exact h1
  · exfalso
    have hlim : t.maximumParallelRunnableNum = some m := hs.lim.held t (by rw [hp]; simp [heldTok, hk])
    have hl : TLabel l := Classical.byContradiction fun hl => by
      rw [(other_thread h hl).1, hp] at hp'; cases hp'
    cases h
    all_goals try (exact False.elim hl)
    all_goals try (have := hp.symm.trans ‹s.tpc = _›; cases this; done)
    case check_skip pending t' rec m' mk h hrec hmax hf hle =>
      rw [hp] at h; cases h
      rw [hlim] at hmax; cases hmax
      have := hs.zero mk.parallelRunnableNum (by simp [num, ← hk, hf])
      omega
    all_goals (have := congrArg List.length hlog; simp at this)

/-- A task that was not inserted with a chain has none that could be dropped. -/
theorem chainKept_added {env : Env} {k : Nat} {ls : List Label} {s : St} (hr : run env (init env) ls = some s)
    (h : ∀ t, .uInsert t ∈ ls → t.taskId ≠ k) : ChainKept k s := by
  intro mk mt hf hmt
  exfalso
  have hre : Reachable env s := ⟨_, hr⟩
  have h3 : mts s k = some mt := mts_eq hf ▸ hmt
  obtain ⟨t', h4, h5⟩ := cause hr (dispatched_queued hre (mem_dispatchedTags.2 ⟨_, chainOf_dispatched ((chainOk hre).cur k mt h3)⟩))
  exact h t' h4 h5

/-! ## C76 -/

/-- **C76** A task with a limit of at least one is handed in, no other call ever concerns its id, and the request is
processed before the first attempt. If at some moment all its runs so far have ended, and if none of them ended before
it was counted or after its chain had been dropped, then the task is started again, unless its count is used up;
provided that the scheduler is not held up forever and does not end. -/
theorem C76_again_partial {env : Env} (c : Course env) (hfs : c.WeaklyFair (ByScheduler · = true)) (ht : c.Turning)
    {k m n0 n1 n : Nat} {t : Task} {l : Label} (hlab : c.lab n0 = some l) (hin : HandsIn t l) (hk : t.taskId = k)
    (hv : t.valid = true) (hlim : t.maximumParallelRunnableNum = some m) (hm : 1 ≤ m) (ha : ∀ j, alarm j t ≠ none)
    (h0 : runsLeft t ≠ some 0) (hno : ∀ j l, j ≠ n0 → c.lab j = some l → ¬ Touches k l)
    (h01 : n0 < n1) (hq : Spec.Settled k (c.st n1)) (hn : attempts k (c.st n1).log = []) (h1 : n1 ≤ n)
    (hc : ∀ j, j ≤ n → CountedFirst k (c.st j) ∧ ChainKept k (c.st j))
    (hend : ∀ r ∈ startedRecsOf k (c.st n).log, RunEnded k r (c.st n).log)
    (hleft : runsLeft t ≠ some (startTicks k (c.st n).log).length) :
    c.Comes n fun s => (startTicks k (c.st n).log).length < (startTicks k s.log).length := by
  refine Classical.byContradiction fun hnever => ?_
  -- what has happened by some moment after the call
  have hsplit : ∀ j, n0 < j → ∃ ls2, (∀ l ∈ ls2, ¬ Touches k l) ∧ c.upTo j = c.upTo n0 ++ l :: ls2 := by
    intro j hj
    obtain ⟨ls2, h2, _, h3⟩ := between_mem c (n := n0 + 1) (m := j) (P := fun l => ¬ Touches k l) (by omega)
      (fun i l hi h => hno i l (by omega) h)
    exact ⟨ls2, h2, by rw [h3, Course.upTo, hlab]; simp⟩
  have hpre : ∀ l ∈ c.upTo n0, ¬ Touches k l := by
    intro l hl
    obtain ⟨j, hj, h⟩ := (mem_upTo c n0).1 hl
    exact hno j l (by omega) h
  have honce : OnlyOnce k t (c.upTo n) := by
    obtain ⟨ls2, h2, h3⟩ := hsplit n (by omega)
    exact ⟨hk, _, l, ls2, h3, hin, fun l hl hb => hpre l hl (brings_touches hb), fun l hl hb => h2 l hl (brings_touches hb)⟩
  obtain ⟨hfr, hfc⟩ := once_states (env := env) honce hlim
  have hhigh : High k (c.st n) := by
    refine high_run _ (Reachable.init env) (high_init env k) ?_ (course_run c n)
    intro a b x e hx
    exact ⟨hfr a b x e hx, throughout_moments c (P := fun s => CountedFirst k s ∧ ChainKept k s) hc a b x e hx⟩
  have hlow : Low k m (c.st n) :=
    low_run _ (Reachable.init env) (low_init env k m) hfr hfc (by rw [once_handed honce]; simp [HasLimit, hlim]) (course_run c n)
  -- the request has been processed
  obtain ⟨ls2, g1, g2⟩ := hsplit n1 h01
  have hrun1 := course_run c n1
  rw [g2] at hrun1
  obtain ⟨a0, ha0⟩ : ∃ a, alarm 0 t = some a := by
    cases hx : alarm 0 t with
    | none => exact absurd hx (ha 0)
    | some a => exact ⟨a, rfl⟩
  have hmark1 : (c.st n1).flags k ≠ none := by
    obtain ⟨_, _, _, _, hf, _⟩ := settled_life hin hk hv ha0 hpre g1 hrun1 hq
    exact hf
  have hkeep : ∀ j, n1 ≤ j → Spec.Settled k (c.st j) ∧ (c.st j).flags k ≠ none :=
    course_keeps c (fun s => Spec.Settled k s ∧ s.flags k ≠ none) ⟨hq, hmark1⟩ fun j l hj hl h =>
      ⟨settled_quiet h.1 (hno j l (by omega) hl) (step_act (course_step c hl)),
        marked_step (fun _ => h.1.quiet.epc) h.2 (step_act (course_step c hl))⟩
  -- no start any more
  have hsame : ∀ j, n ≤ j → startTicks k (c.st j).log = startTicks k (c.st n).log := by
    refine course_keeps c (fun s => startTicks k s.log = startTicks k (c.st n).log) rfl ?_
    intro j l hj hl h
    rcases starts_step k (step_act (course_step c hl)) with ⟨h2, _⟩ | ⟨_, _, u, _, _, _, _, hu, h2⟩
    · rw [h2, h]
    · refine absurd ⟨j + 1, by omega, ?_⟩ hnever
      show _ < (startTicks k (c.st (j + 1)).log).length
      rw [h2, ← h]
      simp [startTicks]
  have hz : openRuns k (c.st n).log = [] := (resting_iff (course_reach c n)).1 fun r h => h.2 (hend r h.1)
  have hempty : ∀ j, n ≤ j → Empty k m (c.st j) := by
    refine course_keeps c (Empty k m) ⟨(hkeep n h1).1, (hkeep n h1).2, hlow.lim, hz, ?_, ?_⟩ ?_
    · have := counting_le k (c.st n).tpc
      by_cases h2 : counting k (c.st n).tpc = 1
      · exact absurd hz (hhigh.going h2)
      · omega
    · intro v hv
      have := hhigh.cnt v hv
      rw [hz] at this
      simp at this
      omega
    · intro j l hj hl h
      refine empty_step (course_reach c j) h (hno j l (by omega) hl) ?_ (step_act (course_step c hl))
      rw [hsame (j + 1) (by omega), hsame j hj]
  have hskip : ∀ j, n ≤ j → skipTicks k (c.st j).log = skipTicks k (c.st n).log := by
    refine course_keeps c (fun s => skipTicks k s.log = skipTicks k (c.st n).log) rfl ?_
    intro j l hj hl h
    rw [empty_skips (hempty j hj) hm (step_act (course_step c hl)), h]
  -- but the attempts go on
  obtain ⟨B, hB⟩ := C65_keeps_coming_partial hin hk hv h0 hpre g1 hrun1 hq hn
    ((startTicks k (c.st n).log).length + (skipTicks k (c.st n).log).length + 1) (fun j _ => ha j)
  obtain ⟨j, hj, htick⟩ := C71_turns c hfs ht n (B + 1)
  have htick' : B + 1 ≤ (c.st j).ticks := htick
  obtain ⟨ls, f1, f2, _⟩ := between_mem c (n := n1) (m := j) (P := fun l => ¬ Touches k l) (by omega)
    (fun i l hi h => hno i l (by omega) h)
  have hpan := (course_turns c ht j).2.1
  rcases hB ls (c.st j) f1 f2 hpan (by omega) with h2 | h2
  · have hd : Tally k 0 (c.st n1) := by
      obtain ⟨d, hd⟩ := tally_reachable (course_reach c n1) k
      have : d = 0 := by unfold Tally at hd; rw [hn] at hd; simp at hd; omega
      rw [this] at hd; exact hd
    have h3 := tally_run ls hq.quiet hmark1 f1 f2 hpan hd
    unfold Tally at h3
    rw [hsame j hj, hskip j hj] at h3
    have h4 : (undecided k (c.st j)).length ≤ 1 := by
      unfold undecided; split <;> first | (split <;> simp) | simp
    omega
  · rw [hsame j hj] at h2
    exact hleft h2

/-- **C76** If no run of the task ends before it is counted or after its chain has been dropped, and every run ends sooner
or later, then the task is started again and again. An execution that meets the hypotheses is built in `FairSteady.lean`. -/
theorem C76_forever_partial {env : Env} (c : Course env) (hfs : c.WeaklyFair (ByScheduler · = true)) (ht : c.Turning)
    {k m n0 n1 : Nat} {t : Task} {l : Label} (hlab : c.lab n0 = some l) (hin : HandsIn t l) (hk : t.taskId = k)
    (hv : t.valid = true) (hlim : t.maximumParallelRunnableNum = some m) (hm : 1 ≤ m) (ha : ∀ j, alarm j t ≠ none)
    (hrep : runsLeft t = none) (hno : ∀ j l, j ≠ n0 → c.lab j = some l → ¬ Touches k l)
    (h01 : n0 < n1) (hq : Spec.Settled k (c.st n1)) (hn : attempts k (c.st n1).log = [])
    (hc : ∀ j, CountedFirst k (c.st j) ∧ ChainKept k (c.st j))
    (hend : ∀ n, ∀ r ∈ startedRecsOf k (c.st n).log, c.Comes n fun s => RunEnded k r s.log) (i : Nat) :
    ∃ m0, ∀ m, m0 ≤ m → i < (startTicks k (c.st m).log).length := by
  have hgrow : ∀ {a b : Nat}, a ≤ b → (startTicks k (c.st a).log).length ≤ (startTicks k (c.st b).log).length := by
    intro a b hab
    refine course_keeps c (fun s => (startTicks k (c.st a).log).length ≤ (startTicks k s.log).length) (Nat.le_refl _) ?_ b hab
    intro j l hj hl h
    rcases starts_step k (step_act (course_step c hl)) with ⟨h2, _⟩ | ⟨_, _, u, _, _, _, _, hu, h2⟩
    · rw [h2]; exact h
    · rw [h2]; simp [startTicks]; omega
  suffices H : ∃ j, i < (startTicks k (c.st j).log).length by
    obtain ⟨j, hj⟩ := H
    exact ⟨j, fun m hm => Nat.lt_of_lt_of_le hj (hgrow hm)⟩
  have hone : ∀ n, n1 ≤ n → ∃ j, n ≤ j ∧ (startTicks k (c.st n).log).length < (startTicks k (c.st j).log).length := by
    intro n h1
    refine Classical.byContradiction fun hnever => ?_
    have hsame : ∀ j, n ≤ j → startedRecsOf k (c.st j).log = startedRecsOf k (c.st n).log := by
      refine course_keeps c (fun s => startedRecsOf k s.log = startedRecsOf k (c.st n).log) rfl ?_
      intro j l hj hl h
      rcases starts_recs k (step_act (course_step c hl)) with h2 | ⟨_, _, _, _, h2⟩
      · rw [h2, h]
      · refine absurd ⟨j + 1, by omega, ?_⟩ hnever
        rw [h2]
        have := hgrow hj
        simp [startTicks]; omega
    -- all runs so far have ended at some moment
    have hall : ∀ rs : List Int, (∀ r ∈ rs, r ∈ startedRecsOf k (c.st n).log) →
        ∃ j, n ≤ j ∧ ∀ r ∈ rs, RunEnded k r (c.st j).log := by
      intro rs
      induction rs with
      | nil => exact fun _ => ⟨n, Nat.le_refl _, fun r h => by cases h⟩
      | cons r rs ih =>
        intro hrs
        obtain ⟨j, hj, h2⟩ := ih fun r h => hrs r (List.mem_cons_of_mem _ h)
        obtain ⟨j', hj', h3⟩ := hend j r (by rw [hsame j hj]; exact hrs r List.mem_cons_self)
        refine ⟨j', by omega, fun x hx => ?_⟩
        rcases List.mem_cons.1 hx with rfl | hx
        · exact h3
        · rw [(repOk (course_reach c j')).ended]
          exact course_log c hj' ((repOk (course_reach c j)).ended _ _ |>.1 (h2 x hx))
    obtain ⟨j, hj, h2⟩ := hall _ fun r h => h
    obtain ⟨j', hj', h3⟩ := C76_again_partial c hfs ht hlab hin hk hv hlim hm ha (by rw [hrep]; simp) hno h01 hq hn
      (n := j) (by omega) (fun i _ => hc i) (by rw [hsame j hj]; exact h2) (by rw [hrep]; simp)
    refine hnever ⟨j', by omega, ?_⟩
    have := hgrow hj
    have : (startTicks k (c.st j).log).length < (startTicks k (c.st j').log).length := h3
    omega
  induction i with
  | zero =>
    obtain ⟨j, _, h⟩ := hone n1 (Nat.le_refl _)
    exact ⟨j, by omega⟩
  | succ i ih =>
    obtain ⟨j, hj⟩ := ih
    obtain ⟨j', _, h⟩ := hone (max j n1) (Nat.le_max_right _ _)
    have := hgrow (Nat.le_max_left j n1)
    exact ⟨j', by omega⟩

/-! ## How a limited task stays behind for good -/

/-- The count of `k` has leaked: it is at the limit, though all runs have ended. -/
structure Leaked (k m : Nat) (s : St) : Prop where
  settled : Spec.Settled k s
  lim : Copies (HasLimit m) (HasLimit m) k s
  runs : openRuns k s.log = []
  idle : ¬ spawning k s.tpc
  full : ∀ n, num k s = some n → m ≤ n

theorem leaked_step {env : Env} {k m : Nat} {s : St} {l : Label} {s' : St} (hr : Reachable env s) (hs : Leaked k m s)
    (hl : ¬ Touches k l) (h : Act env s l s') : Leaked k m s' ∧ startTicks k s'.log = startTicks k s.log := by
  obtain ⟨h1, h3, h4, h5, h6⟩ := hs
  have hb : ¬ Brings k l := fun hb => hl (brings_touches hb)
  have h1' := settled_quiet h1 hl h
  have h3' : Copies (HasLimit m) (HasLimit m) k s' :=
    copies_step (fun _ _ h => h) (fun _ h => h) (fun t t' ht hd => (down_limit hd).trans ht) (fun _ h => h)
      (by rw [broughtBy_nil hb]; simp) h3 h
  refine ⟨⟨h1', h3', ?_, ?_, ?_⟩, ?_⟩
  rotate_left 3
  · rcases starts_step k h with ⟨h2, _⟩ | ⟨_, p, u, rec, _, hp, _, hu, h2⟩
    · exact h2
    · exact absurd (by rw [hp]; exact hu) h5
  all_goals cases parStep k hr h with
  | same _ a1 a2 a3 a4 => first | (rw [a1]; exact h4) | exact fun hx => h5 (a4 hx) | (rw [a2]; exact h6)
  | pass p t rec htpc htpc' hk hlt a1 a2 =>
    exfalso
    have hlim : t.maximumParallelRunnableNum = some m := h3.held t (by rw [htpc]; simp [heldTok, hk])
    obtain ⟨n, e1, e2⟩ := hlt m hlim
    have := h6 n e1
    omega
  | start hsp rec a1 a2 a3 a4 => exact absurd hsp h5
  | lose _ b1 b2 b3 b4 b5 a1 a2 a3 a4 => first | (rw [a1]; exact h4) | exact a4 | (rw [a2]; exact h6)
  | count u hu a3 a4 a1 a2 =>
    first
    | (rw [a1]; exact h4)
    | exact a4
    | (intro n hn
       rw [a2] at hn
       cases hx : num k s with
       | none => rw [hx] at hn; cases hn
       | some v => rw [hx] at hn; have := h6 v hx; simp only [Option.map_some, Option.some.injEq] at hn; omega)
  | add tag mk he hk a1 a2 a3 => exact absurd hk (h1.recorded tag mk he)
  | drop a1 a2 a3 => first | (rw [a1]; exact h4) | (rw [a3]; exact h5) | (intro n hn; rw [a2] at hn; cases hn)
  | ended e rest rec he hch hk a1 a2 a3 => rw [h4] at a1; simp at a1

/-- **C76** fails in this way: once the count of a task is at its limit though all runs have ended, the task is never started
again unless an operation on it is called. (C28 says how the count leaks.) -/
theorem C76_stuck {env : Env} {k m : Nat} {t : Task} {mk : TaskMark} {ls ls' : List Label} {s s' : St}
    (hr : run env (init env) ls = some s) (ho : OnlyOnce k t ls) (hlim : t.maximumParallelRunnableNum = some m)
    (hq : Spec.Settled k s) (hend : ∀ r ∈ startedRecsOf k s.log, RunEnded k r s.log)
    (hf : s.flags k = some mk) (hfull : m ≤ mk.parallelRunnableNum) (hidle : ∀ p u rec, s.tpc = .spawn p u rec → u.taskId ≠ k)
    (hl : ∀ l ∈ ls', ¬ Touches k l) (hrun : run env s ls' = some s') :
    startTicks k s'.log = startTicks k s.log ∧ Resting k s'.log := by
  have hre : Reachable env s := ⟨ls, hr⟩
  obtain ⟨hfr, hfc⟩ := once_states (env := env) ho hlim
  have hlow : Low k m s :=
    low_run _ (Reachable.init env) (low_init env k m) hfr hfc (by rw [once_handed ho]; simp [HasLimit, hlim]) hr
  have h0 : Leaked k m s := by
    refine ⟨hq, hlow.lim, (resting_iff hre).1 fun r h => h.2 (hend r h.1), ?_, ?_⟩
    · intro hs
      cases hp : s.tpc <;> rw [hp] at hs <;> try (exact hs.elim)
      exact hidle _ _ _ hp hs
    · intro n hn
      simp [num, hf] at hn
      omega
  have h1 := onward (fun x => Leaked k m x ∧ startTicks k x.log = startTicks k s.log) (fun l => ¬ Touches k l)
    (fun x l x' hr _ hx hl h => ⟨(leaked_step hr hx.1 hl h).1, (leaked_step hr hx.1 hl h).2.trans hx.2⟩) ls' s s' hre hl
    ⟨h0, rfl⟩ hrun
  exact ⟨h1.2, (resting_iff (hre.run hrun)).2 h1.1.runs⟩

/-- **C76** as listed: in a fair course, with a limit of at least one, a repeating task all of whose runs end is started
again and again. -/
def C76_statement : Prop :=
  ∀ (env : Env) (c : Course env) (k m n0 n1 : Nat) (t : Task) (l : Label), c.Fair → c.Listening → c.Turning →
    c.lab n0 = some l → HandsIn t l → t.taskId = k → t.valid = true → t.maximumParallelRunnableNum = some m → 1 ≤ m →
    (∀ j, alarm j t ≠ none) → runsLeft t = none → (∀ j l, j ≠ n0 → c.lab j = some l → ¬ Touches k l) →
    n0 < n1 → Spec.Settled k (c.st n1) → attempts k (c.st n1).log = [] →
    (∀ n, ∀ r ∈ startedRecsOf k (c.st n).log, c.Comes n fun s => RunEnded k r s.log) →
    ∀ i, ∃ m0, ∀ m, m0 ≤ m → i < (startTicks k (c.st m).log).length

end DelayTimer

namespace DelayTimer.Ex

open Spec

/-- Task 1 with a limit of one, with alarms at 101, 104, …; its first run ends before the scheduler has counted it. -/
def slow : Task := upTo 1 (every 1 101 3)

theorem slow_alarms (j : Nat) : alarm j slow ≠ none := by
  rw [alarm_seconds_new 0 101 3 (by omega) (by omega) slow (Or.inl rfl) j]
  simp

/-- A course that begins with the addition of `slow` and in which nothing more is asked of the timer after `pre`. -/
theorem slow_course {x : Nat → Label → Prop} {c : Course env0} {pre : List Label}
    (hx : ∀ i l, x i l → ¬ Touches 1 l ∧ l ≠ .uSend .stop ∧ l ≠ .tSpawn true)
    (hpre : ∀ l ∈ pre, ¬ Touches 1 l ∧ l ≠ .uSend .stop ∧ l ≠ .tSpawn true)
    (h1 : c.upTo (pre.length + 1) = .uSend (.add slow) :: pre)
    (h2 : ∀ n l, pre.length + 1 ≤ n → c.lab n = some l → Unasked l ∨ ∃ i, x i l) :
    c.Listening ∧ c.Turning ∧ c.lab 0 = some (.uSend (.add slow)) ∧
      (∀ j l, j ≠ 0 → c.lab j = some l → ¬ Touches 1 l) := by
  have hup := upTo_take (c := c) (n := pre.length + 1) (by rw [h1]; simp)
  have h0 : c.lab 0 = some (.uSend (.add slow)) := by
    rw [(hup 0 (by omega)).2 (by omega), h1]; rfl
  have hall : ∀ j l, j ≠ 0 → c.lab j = some l → ¬ Touches 1 l ∧ l ≠ .uSend .stop ∧ l ≠ .tSpawn true := by
    intro j l hj hl
    by_cases hlt : j < pre.length + 1
    · rw [(hup j (by omega)).2 hlt, h1] at hl
      obtain ⟨i, rfl⟩ : ∃ i, j = i + 1 := ⟨j - 1, by omega⟩
      exact hpre l (List.mem_of_getElem? (by simpa using hl))
    · rcases h2 j l (by omega) hl with hu | ⟨i, hi⟩
      · exact ⟨unasked_touches hu, fun h => by subst h; exact hu, fun h => by subst h; exact hu⟩
      · exact hx i l hi
  refine ⟨(unchecked_lives rfl c).1, C71_turning c ?_ ?_ (fun n k t _ j h => by cases h), h0, fun j l hj hl => (hall j l hj hl).1⟩
  · intro n hn
    cases n with
    | zero => rw [h0] at hn; cases hn
    | succ n => exact (hall _ _ (by simp) hn).2.1 rfl
  · intro n hn
    cases n with
    | zero => rw [h0] at hn; cases hn
    | succ n => exact (hall _ _ (by simp) hn).2.2 rfl

theorem added_settled {c : Course env0} {pre : List Label}
    (h1 : c.upTo (pre.length + 1) = .uSend (.add slow) :: pre) (h4 : 4 ≤ pre.length)
    (h5 : pre.take 4 = [.eRecv, .eNext, .eNext, .eNext]) :
    Spec.Settled 1 (c.st 5) ∧ attempts 1 (c.st 5).log = [] := by
  have hup := upTo_take (c := c) (n := pre.length + 1) (by rw [h1]; simp)
  have hr := course_run c 5
  have h6 : c.upTo 5 = add slow := by
    rw [(hup 5 (by omega)).1, h1, List.take_succ_cons, h5]; rfl
  rw [h6, play_run (env := env0) (ls := add slow) (by rfl)] at hr
  rw [← Option.some.inj hr]
  refine ⟨⟨⟨?_, ?_⟩, ?_⟩, by rfl⟩
  · rw [show (play env0 (add slow)).chan = [] from rfl]; simp
  · rw [show (play env0 (add slow)).epc = .idle from rfl]; exact id
  · rw [show (play env0 (add slow)).epc = .idle from rfl]; simp

/-- The first run of `slow` has gone on when the second was due, and has then ended. -/
def slowEnded : List Label := limitedPre ++ [.tCheck 1, .tSlot, .tMark, .tLapse] ++ ending 0

theorem harmless_of {ls : List Label} (h : ls.all (fun l => match l with
      | .uSend _ | .uInsert _ | .tSpawn true => false
      | _ => true) = true) : ∀ l ∈ ls, ¬ Touches 1 l ∧ l ≠ .uSend .stop ∧ l ≠ .tSpawn true := by
  intro l hl
  have := List.all_eq_true.1 h l hl
  refine ⟨?_, ?_, ?_⟩
  · cases l <;> first | exact id | cases this
  · rintro rfl; cases this
  · rintro rfl; cases this

/-- C76, `C76_again_partial`: its hypotheses are met; one run has been started, another skipped, and nothing is asked of
the timer after the first has ended. -/
example : ∃ c : Course env0, c.WeaklyFair (ByScheduler · = true) ∧ c.Turning ∧ c.lab 0 = some (.uSend (.add slow)) ∧
    HandsIn slow (.uSend (.add slow)) ∧ slow.taskId = 1 ∧ slow.valid = true ∧ slow.maximumParallelRunnableNum = some 1 ∧
    (∀ j, alarm j slow ≠ none) ∧ runsLeft slow = none ∧ (∀ j l, j ≠ 0 → c.lab j = some l → ¬ Touches 1 l) ∧
    Spec.Settled 1 (c.st 5) ∧ attempts 1 (c.st 5).log = [] ∧ 5 ≤ slowEnded.length ∧
    (∀ j, j ≤ slowEnded.length → CountedFirst 1 (c.st j) ∧ ChainKept 1 (c.st j)) ∧
    (∀ r ∈ startedRecsOf 1 (c.st slowEnded.length).log, RunEnded 1 r (c.st slowEnded.length).log) ∧
    startTicks 1 (c.st slowEnded.length).log = [2] ∧ skipTicks 1 (c.st slowEnded.length).log = [5] := by
  obtain ⟨c, h1, h2, h3, _, h4⟩ := fair_course (pre := slowEnded) (play_run (env := env0) (by rfl))
  have hlen : slowEnded.length = slowEnded.tail.length + 1 := rfl
  have h1' : c.upTo (slowEnded.tail.length + 1) = .uSend (.add slow) :: slowEnded.tail := h1
  obtain ⟨_, g2, g3, g4⟩ := slow_course (x := fun _ _ => False) (fun _ _ h => h.elim) (harmless_of (by decide)) h1'
    (fun n l hn hl => Or.inl (h4 n l hn hl))
  obtain ⟨g5, g6⟩ := added_settled h1' (by decide) rfl
  refine ⟨c, h3.scheduler, g2, g3, Or.inl rfl, rfl, rfl, rfl, slow_alarms, rfl, g4, g5, g6, by decide, ?_, ?_, ?_, ?_⟩
  · intro j hj
    obtain ⟨ls, g7, _⟩ := course_between c hj
    rw [h1] at g7
    refine ⟨throughout_of (f := countedFirst 1) countedFirst_of slowEnded _ (by decide +kernel) _ ls _ g7 (course_run c j),
      chainKept_added (course_run c j) ?_⟩
    intro t ht
    have : .uInsert t ∈ slowEnded := by rw [g7]; exact List.mem_append_left _ ht
    exact absurd this (by simp [slowEnded, limitedPre, add, idles, idle, fire, pop, take, ending])
  · intro r hr
    rw [h2] at hr ⊢
    rw [show startedRecsOf 1 (play env0 slowEnded).log = [0] by decide +kernel] at hr
    cases List.mem_singleton.1 hr
    exact repOk (play_reachable (by rfl)) |>.ended _ _ |>.2 (by decide +kernel)
  · rw [h2]; decide +kernel
  · rw [h2]; decide +kernel

/-- What the course of `C76_fails` looks like: the count is at the limit, the only run has ended. -/
theorem tooQuick_stuck : OnlyOnce 1 slow tooQuick ∧ Spec.Settled 1 (play env0 tooQuick) ∧
    startedRecsOf 1 (play env0 tooQuick).log = [0] ∧ RunEnded 1 0 (play env0 tooQuick).log ∧
    (∃ mk, (play env0 tooQuick).flags 1 = some mk ∧ 1 ≤ mk.parallelRunnableNum) ∧
    (∀ p u rec, (play env0 tooQuick).tpc = .spawn p u rec → u.taskId ≠ 1) := by
  refine ⟨⟨rfl, [], .uSend (.add slow), tooQuick.drop 1, rfl, Or.inl rfl, by simp,
    fun l hl hb => (harmless_of (by decide) l hl).1 (brings_touches hb)⟩, ⟨⟨?_, ?_⟩, ?_⟩, by decide +kernel, ?_, ⟨_, rfl, ?_⟩, ?_⟩
  · rw [show (play env0 tooQuick).chan = [] from rfl]; simp
  · rw [show (play env0 tooQuick).epc = .idle from rfl]; exact id
  · rw [show (play env0 tooQuick).epc = .idle from rfl]; simp
  · exact repOk (play_reachable (by rfl)) |>.ended _ _ |>.2 (by decide +kernel)
  · decide +kernel
  · intro p u rec h; cases h

end DelayTimer.Ex

namespace DelayTimer

open Spec Ex

/-- **C76** fails: if the first run of a task with a limit of one ends before the scheduler has counted it, then the task is
never started again, though nothing is held up and nothing runs any more. -/
theorem C76_fails : ¬ C76_statement := by
  intro h
  obtain ⟨c, h1, h2, h3, _, h4⟩ := fair_course (pre := tooQuick) (play_run (env := env0) (by rfl))
  have h1' : c.upTo (tooQuick.tail.length + 1) = .uSend (.add slow) :: tooQuick.tail := h1
  obtain ⟨g1, g2, g3, g4⟩ := slow_course (x := fun _ _ => False) (fun _ _ h => h.elim) (harmless_of (by decide)) h1'
    (fun n l hn hl => Or.inl (h4 n l hn hl))
  obtain ⟨g5, g6⟩ := added_settled h1' (by decide) rfl
  obtain ⟨e1, e2, e3, e4, ⟨mk, e5, e6⟩, e7⟩ := tooQuick_stuck
  have hend : ∀ r ∈ startedRecsOf 1 (play env0 tooQuick).log, RunEnded 1 r (play env0 tooQuick).log := by
    intro r hr; rw [e3] at hr; cases List.mem_singleton.1 hr; exact e4
  have hrun : run env0 (init env0) tooQuick = some (play env0 tooQuick) := play_run (by rfl)
  have hlater : ∀ n, tooQuick.length ≤ n →
      startTicks 1 (c.st n).log = startTicks 1 (play env0 tooQuick).log ∧ Resting 1 (c.st n).log := by
    intro n hn
    obtain ⟨ls, f1, f2, _⟩ := between_mem c (P := fun l => ¬ Touches 1 l) hn (fun i l hi h => unasked_touches (h4 i l hi h))
    rw [h2] at f2
    exact C76_stuck hrun e1 rfl e2 hend e5 e6 e7 f1 f2
  have hends : ∀ n, ∀ r ∈ startedRecsOf 1 (c.st n).log, c.Comes n fun s => RunEnded 1 r s.log := by
    intro n r hr
    refine ⟨max n tooQuick.length, Nat.le_max_left _ _, Classical.byContradiction fun hne => ?_⟩
    refine (hlater _ (Nat.le_max_right n tooQuick.length)).2 r ⟨?_, hne⟩
    obtain ⟨_, _, _, h6⟩ := startedRecsOf_iff.1 hr
    exact startedRecsOf_iff.2 ⟨_, _, _, course_log c (Nat.le_max_left _ _) h6⟩
  obtain ⟨m0, hm0⟩ := h env0 c 1 1 0 5 slow _ h3 g1 g2 g3 (Or.inl rfl) rfl rfl rfl (Nat.le_refl _) slow_alarms rfl g4
    (by omega) g5 g6 hends 1
  have h5 := hm0 (max m0 tooQuick.length) (Nat.le_max_left _ _)
  rw [(hlater _ (Nat.le_max_right _ _)).1, show startTicks 1 (play env0 tooQuick).log = [2] by decide +kernel] at h5
  simp at h5

end DelayTimer
