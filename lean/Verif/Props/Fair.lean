import Verif.Proofs.Fair
import Verif.Props.Alive
import Verif.Props.Deaf
import Verif.Props.Keeps
import Verif.Props.Timeout
import Verif.Props.Wheel
import Verif.Props.Operations
import Verif.Props.Panic

/-!
# Fair executions: what is bound to happen

C70: accepted requests are processed. C71: the wheel turns, and due runs come. C72: overlong runs are stopped. C73: runs
that come to an end are reported.
-/

namespace DelayTimer
open Spec

/-! ## C70 -/

theorem other_events {env : Env} {s s' : St} {l : Label} (hl : ByEvents l = false) (h : Act env s l s') :
    s'.epc = s.epc := by
  cases h
  all_goals try (cases hl; done)
  all_goals first | rfl | simp

theorem byEvents_iff {l : Label} : ByEvents l = true ↔ l = .eRecv ∨ l = .eNext := by
  cases l <;> simp [ByEvents]

/-- What the event thread still has to do until `K` events have been dispatched. -/
def toDispatch (K : Nat) (s : St) : Nat := 4 * K + backlog s - 4 * (queuedTags s.log).length

theorem toDispatch_pos {K : Nat} {s : St} (hs : Fifo s) (h : (dispatchedTags s.log).length < K) :
    4 * (queuedTags s.log).length < 4 * K + backlog s := by
  have hlen := congrArg List.length hs
  simp only [List.length_append, List.length_map] at hlen
  simp only [backlog]
  cases he : s.epc <;> rw [he] at hlen <;> simp [epcTags] at hlen <;> dsimp only <;> omega

/-- **C70** Whatever has been accepted is dispatched sooner or later, and in the order in which it was accepted, if the
event thread is not held up forever and does not die (C64). -/
theorem C70_processed {env : Env} (c : Course env) (hf : c.WeaklyFair (ByEvents · = true)) (hl : c.Listening) (n : Nat) :
    c.Comes n fun s => queuedTags (c.st n).log <+: dispatchedTags s.log := by
  suffices H : c.Comes n fun s => (queuedTags (c.st n).log).length ≤ (dispatchedTags s.log).length by
    obtain ⟨m, hm, h⟩ := H
    obtain ⟨ls, _, h2⟩ := course_between c hm
    exact ⟨m, hm, dispatched_all_queued (course_reach c n) h2 h⟩
  refine leads c hf _ (toDispatch (queuedTags (c.st n).log).length) ?_ ?_ ?_
  · intro m hm hn
    have hq : (queuedTags (c.st n).log).length ≤ (queuedTags (c.st m).log).length := by
      obtain ⟨ls, _, h2⟩ := course_between c hm
      exact run_induct (env := env) (fun x => (queuedTags (c.st n).log).length ≤ (queuedTags x.log).length)
        (fun x l x' hx ha => Nat.le_trans hx (queuedTags_step ha).length_le) ls _ _ (Nat.le_refl _) h2
    have := toDispatch_pos (fifo (course_reach c m)) (Nat.lt_of_not_ge hn)
    obtain ⟨l, s', h1, h2⟩ := event_next (env := env) (s := c.st m)
      (fun t cc h he ho => Classical.byContradiction fun hx => hl m (deaf_of_stuck ⟨ho, t, cc, h, he, hx⟩))
      (by omega)
    exact ⟨l, s', byEvents_iff.2 h1, h2⟩
  · intro m l hm hlab hA hn
    right
    have ha := step_act (course_step c hlab)
    have := toDispatch_pos (fifo (course_reach c m)) (Nat.lt_of_not_ge hn)
    have := event_backlog (byEvents_iff.1 hA) ha
    have : (queuedTags (c.st m).log).length ≤ (queuedTags (c.st (m + 1)).log).length := (queuedTags_step ha).length_le
    simp only [toDispatch]
    omega
  · intro m l hm hlab hA hn
    right
    have ha := step_act (course_step c hlab)
    have he := other_events (by simpa using hA) ha
    simp only [toDispatch, backlog, he]
    rcases queue_step ha with ⟨h1, h2⟩ | ⟨x, h1, h2⟩ | ⟨x, rfl, _⟩
    · rw [h1, h2]; exact Nat.le_refl _
    · rw [h1, h2, List.length_append, List.length_singleton]; omega
    · exact absurd rfl hA

/-- The event thread lives if the first alarms of all tasks added fit. -/
theorem C70_listening {env : Env} (c : Course env) (h : ∀ n, Addable env (c.upTo n)) : c.Listening := by
  intro n hd
  obtain ⟨ho, t, ht, hf⟩ := C64_cause (course_run c n) hd
  exact hf (h n ho t ht)

/-- Of what was accepted before, only `a` is left on the channel; behind it there is nothing about `k`. -/
def Behind (k N : Nat) (s : St) : Prop :=
  (∃ a b, s.chan = a ++ b ∧ (∀ e ∈ b, ¬ EventTouches k e) ∧ (queuedTags s.log).length = N + b.length) ∨ Quiet k s

theorem behind_step {env : Env} {k N : Nat} {s s' : St} {l : Label} (hs : Behind k N s) (hl : ¬ Touches k l)
    (h : Act env s l s') : Behind k N s' := by
  rcases hs with ⟨a, b, h1, h2, h3⟩ | hq
  · rcases chan_step h with ⟨_, h4 | ⟨e, h4, h5⟩⟩ | ⟨rfl, hi, e, h4⟩ | ⟨rfl, h4⟩
    · rcases queue_step h with ⟨_, h6⟩ | ⟨x, h6, _⟩ | ⟨x, _, h6, _⟩
      · exact Or.inl ⟨a, b, by rw [h4, h1], h2, by omega⟩
      · rw [h4] at h6; have := congrArg List.length h6; simp at this
      · rw [h4] at h6; have := congrArg List.length h6; simp at this
    · rcases queue_step h with ⟨h6, _⟩ | ⟨x, h6, h7⟩ | ⟨x, _, h6, _⟩
      · rw [h4] at h6; have := congrArg List.length h6; simp at this
      · refine Or.inl ⟨a, b ++ [e], by rw [h4, h1, List.append_assoc], fun y hy => ?_, by simp; omega⟩
        rcases List.mem_append.1 hy with hy | hy
        · exact h2 y hy
        · rw [List.mem_singleton.1 hy]; exact not_touches_event hl h5
      · rw [h4] at h6; have := congrArg List.length h6; simp at this; omega
    · have h7 : (queuedTags s'.log).length = (queuedTags s.log).length := by
        rcases queue_step h with ⟨h6, h7⟩ | ⟨x, h6, _⟩ | ⟨x, _, _, h7⟩
        · exact h7
        · rw [h6] at h4; have := congrArg List.length h4; simp at this; omega
        · exact h7
      cases a with
      | cons x a =>
        rw [h1] at h4
        simp only [List.cons_append, List.cons.injEq] at h4
        exact Or.inl ⟨a, b, h4.2.symm, h2, by omega⟩
      | nil =>
        refine Or.inr (quiet_step ⟨?_, ?_⟩ hl h)
        · rw [h1]; exact h2
        · rw [hi]; exact id
    · rcases queue_step h with ⟨_, h6⟩ | ⟨x, h6, _⟩ | ⟨x, _, h6, _⟩
      · exact Or.inl ⟨a, b, by rw [h4, h1], h2, by omega⟩
      · rw [h4] at h6; have := congrArg List.length h6; simp at this
      · rw [h4] at h6; have := congrArg List.length h6; simp at this
  · exact Or.inr (quiet_step hq hl h)

/-- **C70** If from some moment on no call concerns the scheduling of `k`, the last of the earlier ones has been
processed sooner or later, and from then on nothing about `k` is under way. -/
theorem C70_settles {env : Env} (c : Course env) (hf : c.WeaklyFair (ByEvents · = true)) (hl : c.Listening) {k n : Nat}
    (hno : ∀ m l, n ≤ m → c.lab m = some l → ¬ Touches k l) :
    ∃ m0, n ≤ m0 ∧ ∀ m, m0 ≤ m → Quiet k (c.st m) := by
  obtain ⟨m0, h0, hd⟩ := C70_processed c hf hl n
  have hb : Behind k (queuedTags (c.st n).log).length (c.st m0) := by
    refine course_keeps c (Behind k (queuedTags (c.st n).log).length) (Or.inl ⟨(c.st n).chan, [], ?_, ?_, ?_⟩) ?_ m0 h0
    · simp
    · intro e he; cases he
    · rfl
    · exact fun m l hm hlab hs => behind_step hs (hno m l hm hlab) (step_act (course_step c hlab))
  have hq : Quiet k (c.st m0) := by
    rcases hb with ⟨a, b, h1, h2, h3⟩ | hq
    · have hlen := congrArg List.length (fifo (course_reach c m0))
      have hle := hd.length_le
      simp only [List.length_append, List.length_map, h1] at hlen
      have h4 : a = [] := List.length_eq_zero_iff.1 (by omega)
      have h5 : epcTags (c.st m0).epc = [] := List.length_eq_zero_iff.1 (by omega)
      subst h4
      refine ⟨by rw [h1]; exact h2, ?_⟩
      cases he : (c.st m0).epc <;> rw [he] at h5 <;> first | exact id | (simp [epcTags] at h5)
    · exact hq
  exact ⟨m0, h0, course_keeps c (Quiet k) hq
    fun m l hm hlab hs => quiet_step hs (hno m l (by omega) hlab) (step_act (course_step c hlab))⟩

/-! ## C71 -/

theorem byScheduler_iff {l : Label} : ByScheduler l = true ↔ TLabel l := by
  cases l <;> simp [ByScheduler, TLabel]

/-- Where the scheduler is before it looks at its slot. -/
def ahead : TPC → Nat
  | .head => 3
  | .store => 2
  | .arrive => 1
  | _ => 0

theorem ticks_step {env : Env} {s s' : St} {l : Label} (h : Act env s l s') :
    (l ≠ .tLapse ∧ s'.ticks = s.ticks) ∨ l = .tLapse ∧ s'.ticks = s.ticks + 1 := by
  cases h
  case lapse => exact Or.inr ⟨rfl, rfl⟩
  all_goals left
  all_goals try (exact ⟨by simp, rfl⟩)
  all_goals (refine ⟨by simp, ?_⟩; simp)

theorem ahead_step {env : Env} {s s' : St} {l : Label} (hr : Reachable env s) (h : Act env s l s') (hl : ByScheduler l = true)
    (hp : past s.tpc = false) : s'.tpc = .halted ∨ past s'.tpc = true ∨ ahead s'.tpc < ahead s.tpc := by
  cases h <;> first | (cases hl; done) | skip
  all_goals rw [‹s.tpc = _›] at hp ⊢
  all_goals first | (cases hp; done) | skip
  case arrive_missing _ hw =>
    obtain ⟨_, _, sl, h⟩ := C46_slot_found hr
    rw [hw] at h; cases h
  all_goals simp [ahead, past]

theorem course_turns {env : Env} (c : Course env) (ht : c.Turning) (m : Nat) :
    (c.st m).tpc ≠ .halted ∧ (c.st m).tpc ≠ .panicked ∧ ¬ Crashed env (c.st m) ∧
      Enabled env (ByScheduler · = true) (c.st m) := by
  have h1 : (c.st m).tpc ≠ .halted := fun h => ht m (gone_of_halted h)
  have h2 : (c.st m).tpc ≠ .panicked := fun h => ht m (gone_of_panicked h)
  have h3 : ¬ Crashed env (c.st m) := fun h => ht m (gone_of_crashed h)
  exact ⟨h1, h2, h3, scheduler_next h1 h2 h3⟩

theorem one_tick {env : Env} (c : Course env) (hf : c.WeaklyFair (ByScheduler · = true)) (ht : c.Turning) (n : Nat) :
    c.Comes n fun s => (c.st n).ticks < s.ticks := by
  -- to the look at the slot
  have look : c.Comes n fun s => past s.tpc = true := by
    refine leads c hf _ (fun s => ahead s.tpc) ?_ ?_ ?_
    · exact fun k _ _ => (course_turns c ht k).2.2.2
    · intro k l _ hlab hA hn
      rcases ahead_step (course_reach c k) (step_act (course_step c hlab)) hA (by simpa using hn) with h | h | h
      · exact absurd h (course_turns c ht _).1
      · exact Or.inl h
      · exact Or.inr h
    · intro k l _ hlab hA _
      right
      have ha := step_act (course_step c hlab)
      rw [(other_thread ha (fun h => hA (byScheduler_iff.2 h))).1]
      exact Nat.le_refl _
  -- and from there to the end of the iteration
  obtain ⟨m, hm, h⟩ := look
  by_cases hlt : (c.st n).ticks < (c.st m).ticks
  · exact ⟨m, hm, hlt⟩
  have hle : (c.st n).ticks ≤ (c.st m).ticks := by
    refine course_keeps c (fun s => (c.st n).ticks ≤ s.ticks) (Nat.le_refl _) ?_ m hm
    intro k l _ hlab hk
    rcases ticks_step (step_act (course_step c hlab)) with ⟨_, h⟩ | ⟨_, h⟩ <;> omega
  have heq : (c.st m).ticks = (c.st n).ticks := by omega
  have hinv : ∀ k, m ≤ k → (c.st n).ticks < (c.st k).ticks ∨
      (past (c.st k).tpc = true ∧ (c.st k).ticks = (c.st n).ticks) := by
    refine course_keeps c (fun s => (c.st n).ticks < s.ticks ∨ (past s.tpc = true ∧ s.ticks = (c.st n).ticks))
      (Or.inr ⟨h, heq⟩) ?_
    intro k l _ hlab hk
    have ha := step_act (course_step c hlab)
    rcases hk with hk | ⟨hp, hk⟩
    · left; rcases ticks_step ha with ⟨_, h⟩ | ⟨_, h⟩ <;> omega
    · rcases ticks_step ha with ⟨hne, h⟩ | ⟨_, h⟩
      · right
        exact ⟨(work_step ha hp hne).1, by omega⟩
      · left; omega
  suffices H : c.Comes m fun s => (c.st n).ticks < s.ticks by
    obtain ⟨k, hk, h3⟩ := H
    exact ⟨k, by omega, h3⟩
  refine leads c hf _ (fun s => work s.tpc) (fun k _ _ => (course_turns c ht k).2.2.2) ?_ ?_
  · intro k l hk hlab hA hn
    rcases hinv k hk with h1 | ⟨h1, h2⟩
    · exact absurd h1 hn
    have ha := step_act (course_step c hlab)
    rcases ticks_step ha with ⟨hne, h⟩ | ⟨_, h⟩
    · right
      have := (work_step ha h1 hne).2
      rw [if_pos hA] at this
      omega
    · left; omega
  · intro k l hk hlab hA hn
    right
    have ha := step_act (course_step c hlab)
    rw [(other_thread ha (fun h => hA (byScheduler_iff.2 h))).1]
    exact Nat.le_refl _

/-- **C71** The wheel turns: if the scheduler thread is not held up forever and does not end (C63), it gets past any
number of ticks. -/
theorem C71_turns {env : Env} (c : Course env) (hf : c.WeaklyFair (ByScheduler · = true)) (ht : c.Turning) (n k : Nat) :
    c.Comes n fun s => k ≤ s.ticks := by
  induction k with
  | zero => exact ⟨n, Nat.le_refl _, Nat.zero_le _⟩
  | succ k ih =>
    obtain ⟨m, hm, h⟩ := ih
    obtain ⟨m', hm', h'⟩ := one_tick c hf ht m
    exact ⟨m', by omega, by show k + 1 ≤ (c.st m').ticks; have : (c.st m).ticks < (c.st m').ticks := h'
                            have : k ≤ (c.st m).ticks := h
                            omega⟩

/-- The scheduler thread lives if the timer is not stopped, no closure panics when it is called, and, in a build with
overflow checks, all tasks are safe for good. -/
theorem C71_turning {env : Env} (c : Course env) (hstop : ∀ n, c.lab n ≠ some (.uSend .stop))
    (hpanic : ∀ n, c.lab n ≠ some (.tSpawn true))
    (hsafe : ∀ n k, ∀ t ∈ handed k (c.upTo n), ∀ j, Safe env j t) : c.Turning := by
  intro n hg
  rcases C63_cause (course_run c n) hg with h | h | ⟨ho, ⟨k, rtn, rec, m, ts, hst, t, ht, h⟩ | ⟨k, _, t, ht, h⟩⟩
  · obtain ⟨m, _, h⟩ := (mem_upTo c n).1 h
    exact hstop m h
  · obtain ⟨m, _, h⟩ := (mem_upTo c n).1 h
    exact hpanic m h
  · rcases h with h | ⟨lim, h1, h2⟩
    · exact (hsafe n k t ht 0 ho).1 h
    · have := (hsafe n k t ht 0 ho).2.1 lim h1 m
      rw [← started_clock (course_reach c n) _ _ _ _ _ hst] at this
      omega
  · exact h (hsafe n k t ht _ ho).2.2

/-- **C71** Due runs do come. A task without parallel limit is handed in, and no other call ever concerns its id.
There is a time table, with the alarms of the task, by which it is started: every entry (up to the count of the
task) comes, at its tick and no other, whatever the other tasks, bodies and callers do; provided that the
scheduler and the event thread are not held up forever and do not end. -/
theorem C71_starts {env : Env} (c : Course env) (hfe : c.WeaklyFair (ByEvents · = true))
    (hfs : c.WeaklyFair (ByScheduler · = true)) (hl : c.Listening) (ht : c.Turning) {k n0 : Nat} {t : Task} {l : Label}
    (hlab : c.lab n0 = some l) (hin : HandsIn t l) (hk : t.taskId = k) (hv : t.valid = true)
    (hlim : t.maximumParallelRunnableNum = none) (h0 : runsLeft t ≠ some 0) (ha : alarm 0 t ≠ none)
    (hno : ∀ m l, m ≠ n0 → c.lab m = some l → ¬ Touches k l) :
    ∃ D, ∀ i n, cut (runsLeft t) (timetable env.clock D (fun j => alarm (j + 1) t)) i = some n →
      ∃ m0, ∀ m, m0 ≤ m → (startTicks k (c.st m).log)[i]? = some n := by
  obtain ⟨m1, hm1, hq⟩ := C70_settles c hfe hl (k := k) (n := n0 + 1) (fun m l hm h => hno m l (by omega) h)
  obtain ⟨ls2, h2, _, hup⟩ := between_mem c (P := fun l => ¬ Touches k l) hm1 (fun i l hi h => hno i l (by omega) h)
  have hrun := course_run c m1
  rw [hup, Course.upTo, hlab] at hrun
  have h1 : ∀ l ∈ c.upTo n0, ¬ Touches k l := by
    intro l hl
    obtain ⟨m, hm, h⟩ := (mem_upTo c n0).1 hl
    exact hno m l (by omega) h
  cases ha' : alarm 0 t with
  | none => exact absurd ha' ha
  | some a =>
    obtain ⟨D, hD⟩ := handed_schedule (ls1 := c.upTo n0) (ls2 := ls2) hin hk hv hlim h0 ha' h1 h2
      (by simpa using hrun) (hq m1 (Nat.le_refl _))
    refine ⟨D, fun i n hi => ?_⟩
    obtain ⟨m2, hm2, htick⟩ := C71_turns c hfs ht m1 (n + 1)
    refine ⟨m2, fun m hm => ?_⟩
    obtain ⟨ls, h3, h4, _⟩ := between_mem c (n := m1) (m := m) (P := fun l => ¬ Touches k l) (by omega)
      (fun i l hi h => hno i l (by omega) h)
    obtain ⟨ns, f1, _, f3⟩ := hD ls (c.st m) h3 h4 (course_turns c ht m).2.1
    rw [f1]
    have h5 : n < (c.st m).ticks := by
      obtain ⟨lx, _, h6⟩ := course_between c hm
      have := (C46_hand_distance (course_reach c m2) h6).1
      have : n + 1 ≤ (c.st m2).ticks := htick
      omega
    simpa [init, startTicks] using f3 i n hi h5

/-- **C71** A repeating task is started again and again. -/
theorem C71_forever {env : Env} (c : Course env) (hfe : c.WeaklyFair (ByEvents · = true))
    (hfs : c.WeaklyFair (ByScheduler · = true)) (hl : c.Listening) (ht : c.Turning) {k n0 : Nat} {t : Task} {l : Label}
    (hlab : c.lab n0 = some l) (hin : HandsIn t l) (hk : t.taskId = k) (hv : t.valid = true)
    (hlim : t.maximumParallelRunnableNum = none) (hrep : runsLeft t = none) (ha : ∀ j, alarm j t ≠ none)
    (hno : ∀ m l, m ≠ n0 → c.lab m = some l → ¬ Touches k l) (i : Nat) :
    ∃ m0, ∀ m, m0 ≤ m → i < (startTicks k (c.st m).log).length := by
  obtain ⟨D, hD⟩ := C71_starts c hfe hfs hl ht hlab hin hk hv hlim (by rw [hrep]; simp) (ha 0) hno
  obtain ⟨n, hn⟩ := timetable_some (clock := env.clock) (D := D) (alarms := fun j => alarm (j + 1) t) i (fun j _ => ha _)
  obtain ⟨m0, h⟩ := hD i n (by rw [hrep]; exact hn)
  exact ⟨m0, fun m hm => (List.getElem?_eq_some_iff.1 (h m hm)).1⟩

theorem gone_later {env : Env} {s s' : St} {ls : List Label} (h : Spec.Gone env s) (hr : run env s ls = some s') : Spec.Gone env s' := by
  intro ls' s2 h2
  exact h (ls ++ ls') s2 (by rw [run_append, hr]; exact h2)

theorem addTag_ne_stop (t : Task) (c : Option Nat) : addTag t c ≠ .stop := by cases c <;> simp [addTag]

theorem stop_seen {env : Env} {s : St} (hr : Reachable env s) : Tag.stop ∈ dispatchedTags s.log → s.motivation = false := by
  suffices H : (∀ tag m, s.epc = .add3 tag m → tag ≠ .stop) ∧ (Tag.stop ∈ dispatchedTags s.log → s.motivation = false) from H.2
  refine Reachable.induct (fun s => (∀ tag m, s.epc = .add3 tag m → tag ≠ .stop) ∧
    (Tag.stop ∈ dispatchedTags s.log → s.motivation = false)) ?_ ?_ s hr
  · refine ⟨?_, ?_⟩
    · intro _ _ h; cases h
    · intro h; cases h
  · intro s l s' _ ⟨hs1, hs⟩ ha
    constructor
    · cases ha
      case next_add2 => intro tag m h; cases h; exact addTag_ne_stop _ _
      case next_add2_missing => intro tag m h; cases h; exact addTag_ne_stop _ _
      all_goals first
        | exact hs1
        | (intro tag m h; cases h; done)
        | (intro tag m h; simp at h; done)
        | (intro tag m h; simp at h; exact hs1 _ _ h)
        | skip
    intro h
    cases ha
    case recv_stop => rfl
    case recv_cancel id rec rest he hc =>
      rcases cancelTask_log env true { s with chan := rest } id rec CANCELLED with h1 | h1 | ⟨_, _, h1⟩ <;>
        (simp [h1, dispatchedTags] at h ⊢; exact hs h)
    case recv_timeout id rec rest he hc =>
      rcases cancelTask_log env false { s with chan := rest } id rec TIMEOUT with h1 | h1 | ⟨_, _, h1⟩ <;>
        (simp [h1, dispatchedTags] at h ⊢; exact hs h)
    case recv_finish b rest he hc =>
      rcases finishTask_log env { s with chan := rest } b.taskId b.recordId with h1 | h1 | ⟨_, _, h1⟩ <;>
        (simp [h1, dispatchedTags] at h ⊢; exact hs h)
    case next_add1_err =>
      simp [dispatchedTags, Ne.symm (addTag_ne_stop _ _)] at h ⊢
      exact hs h
    case next_add3 tag m he =>
      simp [dispatchedTags, Ne.symm (hs1 _ _ he)] at h ⊢
      exact hs h
    all_goals first
      | exact hs h
      | (simp [dispatchedTags] at h ⊢; exact hs h)
      | skip

/-- **C71** `stop_delay_timer` stops the scheduler: sooner or later after the call the scheduler thread has ended. -/
theorem C71_stops {env : Env} (c : Course env) (hfe : c.WeaklyFair (ByEvents · = true))
    (hfs : c.WeaklyFair (ByScheduler · = true)) (hl : c.Listening) {n : Nat} (hlab : c.lab n = some (.uSend .stop)) :
    c.Comes n (Spec.Gone env) := by
  refine Classical.byContradiction fun hno => ?_
  have ht : c.Turning := by
    intro m hg
    obtain ⟨ls, _, h⟩ := course_between c (Nat.le_max_left m n)
    exact hno ⟨max m n, Nat.le_max_right m n, gone_later hg h⟩
  have hstop : Tag.stop ∈ queuedTags (c.st (n + 1)).log := by
    have := course_step c hlab
    simp only [step, Option.some.injEq] at this
    rw [← this]; simp [queuedTags, push, UserOp.event, TimerEvent.tag]
  obtain ⟨m, hm, hd⟩ := C70_processed c hfe hl (n + 1)
  have hm' : (c.st m).motivation = false := stop_seen (course_reach c m) (hd.subset hstop)
  obtain ⟨j, hj, h⟩ := C71_turns c hfs ht m ((c.st m).ticks + 2)
  obtain ⟨ls, _, hrun⟩ := course_between c hj
  have := (C17_last_tick hm' hrun).2.1
  have : (c.st m).ticks + 2 ≤ (c.st j).ticks := h
  omega

/-! ## C73 -/

/-- What the scheduler has to do to open the gate. -/
def toGate : TPC → Nat
  | .append .. => 2
  | .gate .. => 1
  | _ => 0

/-- The registration of a started run is sent, and its gate opened. -/
theorem gate_opens {env : Env} (c : Course env) (hfs : c.WeaklyFair (ByScheduler · = true))
    (hc : ∀ n, ¬ Crashed env (c.st n)) {n : Nat} {id rtn m ts : Nat} {rec : Int}
    (hs : .started id rtn rec m ts ∈ (c.st n).log) :
    c.Comes n fun s => ∃ r, s.rt rec = some r ∧ r.gate = true := by
  have hrt : ∀ j, n ≤ j → ∃ r, (c.st j).rt rec = some r := fun j hj =>
    let ⟨r, h, _⟩ := (runLog (course_reach c j)).started _ _ _ _ _ (course_log c hj hs)
    ⟨r, h⟩
  have hpc : ∀ j, n ≤ j → ¬ (∃ r, (c.st j).rt rec = some r ∧ r.gate = true) →
      (∃ p t box, (c.st j).tpc = .append p t box ∧ box.recordId = rec) ∨ ∃ p t, (c.st j).tpc = .gate p t rec := by
    intro j hj hno
    obtain ⟨r, h⟩ := hrt j hj
    refine gates (course_reach c j) rec r h ?_
    cases hg : r.gate with
    | false => rfl
    | true => exact absurd ⟨r, h, hg⟩ hno
  refine leads c hfs _ (fun s => toGate s.tpc) ?_ ?_ ?_
  · intro j hj hno
    refine scheduler_next ?_ ?_ (hc j)
    · intro hx; rcases hpc j hj hno with ⟨_, _, _, h, _⟩ | ⟨_, _, h⟩ <;> (rw [hx] at h; cases h)
    · intro hx; rcases hpc j hj hno with ⟨_, _, _, h, _⟩ | ⟨_, _, h⟩ <;> (rw [hx] at h; cases h)
  · intro j l hj hlab hA hno
    by_cases hno' : ∃ r, (c.st (j + 1)).rt rec = some r ∧ r.gate = true
    · exact Or.inl hno'
    have h1 := hpc j hj hno
    have h2 := hpc (j + 1) (by omega) hno'
    right
    have ha := step_act (course_step c hlab)
    clear hno hno' hlab
    generalize c.st (j + 1) = s' at *
    generalize c.st j = s at *
    have h3 : toGate s'.tpc = 1 ∨ toGate s'.tpc = 2 := by
      rcases h2 with ⟨_, _, _, h, _⟩ | ⟨_, _, h⟩ <;> (rw [h]; simp [toGate])
    rcases h1 with ⟨p, t, box, h, _⟩ | ⟨p, t, h⟩
    all_goals
      cases ha <;> first | (cases hA; done) | skip
      all_goals first | (have hx := h.symm.trans ‹s.tpc = _›; cases hx; done) | skip
      all_goals simp [toGate, h] at h3 ⊢
  · intro j l hj hlab hA _
    right
    rw [(other_thread (step_act (course_step c hlab)) (fun h => hA (byScheduler_iff.2 h))).1]
    exact Nat.le_refl _

/-- An open gate stays open. -/
theorem gate_stays {env : Env} {s s' : St} {l : Label} {rec : Int} (hr : Reachable env s) (ha : Act env s l s')
    (h : ∃ r, s.rt rec = some r ∧ r.gate = true) : ∃ r, s'.rt rec = some r ∧ r.gate = true := by
  obtain ⟨r, h1, h2⟩ := h
  have go : ∀ x q, s'.rt = setI s.rt x (some q) → (rec = x → q.gate = true) → ∃ r, s'.rt rec = some r ∧ r.gate = true := by
    intro x q hx hq
    rw [hx, setI_apply]
    split
    · exact ⟨q, rfl, hq ‹_›⟩
    · exact ⟨r, h1, h2⟩
  cases rt_step ha with
  | same _ hs => exact ⟨r, by rw [hs]; exact h1, h2⟩
  | gate x _ hs =>
    rw [hs, setI_apply]
    split
    · rename_i hx; subst hx
      exact ⟨{ r with gate := true }, by rw [h1]; rfl, rfl⟩
    · exact ⟨r, h1, h2⟩
  | spawn p t x hp _ hs =>
    refine go x _ hs fun hx => ?_
    subst hx
    obtain ⟨n, ts, h3⟩ := ((rtOk hr).rt rec r h1).1
    exact absurd rfl (((recOk hr).fresh p t rec hp).2 rec (mem_startedRecs.2 ⟨_, _, _, _, h3⟩)).1
  | body x q hq _ _ _ hs => exact go x _ hs fun hx => by subst hx; rw [h1] at hq; cases hq; exact h2
  | caught x q hq _ _ _ _ hs => exact go x _ hs fun hx => by subst hx; rw [h1] at hq; cases hq; exact h2
  | lost x q hq _ _ _ _ hs => exact go x _ hs fun hx => by subst hx; rw [h1] at hq; cases hq; exact h2
  | finish x q hq _ _ _ hs => exact go x _ hs fun hx => by subst hx; rw [h1] at hq; cases hq; exact h2

/-- **C73** A run whose body has come to an end is ended in the books sooner or later: its completion is reported and
processed, unless it was stopped before; provided that nobody is held up forever, the event thread does not die (C64)
and, in a build with overflow checks, the scheduler does not die of an overflow. It does not matter whether the
timer has been stopped. -/
theorem C73_reported {env : Env} (c : Course env) (hfe : c.WeaklyFair (ByEvents · = true))
    (hfs : c.WeaklyFair (ByScheduler · = true)) (hfr : c.RunsReport) (hl : c.Listening)
    (hc : ∀ n, ¬ Crashed env (c.st n)) {n id : Nat} {rec : Int} (hs : .bodyEnded id rec ∈ (c.st n).log) :
    c.Comes n fun s => RunEnded id rec s.log := by
  obtain ⟨r0, h1, h2, h3⟩ := (runLog (course_reach c n)).ended _ _ hs
  obtain ⟨k, ts, hst⟩ := ((rtOk (course_reach c n)).rt rec r0 h1).1
  rw [h2] at hst
  obtain ⟨m, hm, hg⟩ := gate_opens c hfs hc hst
  have hg' : ∀ j, m ≤ j → ∃ r, (c.st j).rt rec = some r ∧ r.gate = true :=
    course_keeps c (fun s => ∃ r, s.rt rec = some r ∧ r.gate = true) hg fun j l _ hlab h => gate_stays (course_reach c j) (step_act (course_step c hlab)) h
  have hb : ∀ j, m ≤ j → ∃ r, (c.st j).rt rec = some r ∧ r.gate = true ∧ r.bodyDone = true ∧ r.taskId = id := by
    intro j hj
    obtain ⟨r, h4, h5⟩ := hg' j hj
    obtain ⟨r', h6, h7, h8⟩ := (runLog (course_reach c j)).ended _ _ (course_log c (Nat.le_trans hm hj) hs)
    rw [h4] at h6; cases h6
    exact ⟨r, h4, h5, h8, h7⟩
  -- the report is sent, or the run has been stopped
  have hsent : ∃ j, m ≤ j ∧ (.finish id rec ∈ queuedTags (c.st j).log ∨ ∃ i, .stopped i rec ∈ (c.st j).log) := by
    refine Classical.byContradiction fun hno => ?_
    have hen : ∀ j, m ≤ j → Enabled env (Reports rec) (c.st j) ∧ ∀ i, .stopped i rec ∉ (c.st j).log := by
      intro j hj
      refine ⟨?_, fun i hi => hno ⟨j, hj, Or.inr ⟨i, hi⟩⟩⟩
      obtain ⟨r, h4, h5, h6, h7⟩ := hb j hj
      have hf : r.finishSent = false := by
        cases hf : r.finishSent with
        | false => rfl
        | true =>
          have := ((runLog (course_reach c j)).sent rec r h4 hf).1
          rw [h7] at this
          exact absurd ⟨j, hj, Or.inl (mem_queuedTags.2 this)⟩ hno
      obtain ⟨s', hs'⟩ : ∃ s', step env (c.st j) (.rFinish rec 0) = some s' := by
        simp only [step, rFinish, h4, h5, h6, hf]
        exact ⟨_, rfl⟩
      exact ⟨.rFinish rec 0, s', ⟨0, rfl⟩, hs'⟩
    obtain ⟨j, hj, l, ⟨now, rfl⟩, hlab⟩ := hfr rec m hen
    refine hno ⟨j + 1, by omega, Or.inl ?_⟩
    obtain ⟨r, h4, h5, h6, h7⟩ := hb j hj
    have hst := course_step c hlab
    simp only [step, rFinish, h4] at hst
    split at hst
    · simp only [Option.some.injEq] at hst
      rw [← hst]
      simp [queuedTags, push, TimerEvent.tag, h7]
    · cases hst
  obtain ⟨j, hj, h4 | ⟨i, h4⟩⟩ := hsent
  · obtain ⟨j', hj', hd⟩ := C70_processed c hfe hl j
    exact ⟨j', by omega, ended_of_finish (course_reach c j') (hd.subset h4)⟩
  · refine ⟨j, by omega, ((repOk (course_reach c j)).ended _ _).2 ?_⟩
    obtain ⟨_, _, _, _, h5, _⟩ := (deadlineOk (course_run c j)).reg i rec ((traceOk (course_reach c j)).stop _ _ h4)
    obtain ⟨rfl, _⟩ := started_once (course_reach c j) h5 (course_log c (by omega) hst)
    exact h4

/-! ## C72 -/

theorem other_rounds {env : Env} {s s' : St} {l : Label} (hl : ByRounds l = false) (h : Act env s l s') :
    s'.spc = s.spc := by
  cases h
  all_goals try (cases hl; done)
  all_goals first | rfl | simp

theorem rounds_move {env : Env} {s s' : St} {l : Label} (hl : ByRounds l = true) (h : Act env s l s') :
    s'.spc ≠ s.spc := by
  cases h
  all_goals try (cases hl; done)
  case swake w now hp hle => simp [hp]
  case spop u now n hp _ _ _ => simp [hp]
  case srest now n w hp _ => simp [hp]

theorem rounds_next {env : Env} {now n : Nat} {s : St} (h : s.spc = .active now n) :
    Enabled env (ByRounds · = true) s := by
  obtain ⟨us, hu, s', w, h1, h2⟩ := C31_ends (env := env) n h
  cases us with
  | nil =>
    simp only [List.map_nil, List.nil_append, run] at h1
    split at h1
    · exact ⟨.sRest, _, rfl, ‹_›⟩
    · cases h1
  | cons u us =>
    simp only [List.map_cons, List.cons_append, run] at h1
    split at h1
    · exact ⟨.sPop u, _, rfl, ‹_›⟩
    · cases h1

/-- Every round comes to an end. -/
theorem round_ends {env : Env} (c : Course env) (hf : c.WeaklyFair (ByRounds · = true)) (n : Nat) :
    c.Comes n fun s => ∃ w, s.spc = .idle w := by
  refine leads c hf _ (fun s => match s.spc with | .active _ n => n + 1 | .idle _ => 0) ?_ ?_ ?_
  · intro m _ hno
    cases hp : (c.st m).spc with
    | idle w => exact absurd ⟨w, hp⟩ hno
    | active now k => exact rounds_next hp
  · intro m l _ hlab hA hno
    have ha := step_act (course_step c hlab)
    generalize c.st (m + 1) = s' at *
    generalize c.st m = s at *
    cases ha <;> first | (cases hA; done) | skip
    case swake w now hp _ => exact absurd ⟨w, hp⟩ hno
    case spop u now n hp _ _ _ => right; simp [hp]
    case srest now n w hp _ => exact Or.inl ⟨w, rfl⟩
  · intro m l _ hlab hA _
    right
    rw [other_rounds (by simpa using hA) (step_act (course_step c hlab))]
    exact Nat.le_refl _

/-- A registered deadline gets into the heap. -/
theorem taken_in {env : Env} (c : Course env) (hf : c.WeaklyFair (ByRounds · = true))
    (hft : c.StronglyFair (TakesIn · = true)) {n : Nat} {u : RecycleUnit}
    (hu : u ∈ sweptUnits (c.st n).log ++ (c.st n).heap ++ (c.st n).unitChan) :
    c.Comes n fun s => u ∈ sweptUnits s.log ++ s.heap := by
  have hk : ∀ m, n ≤ m → u ∈ sweptUnits (c.st m).log ++ (c.st m).heap ++ (c.st m).unitChan := by
    intro m hm
    obtain ⟨ls, _, h⟩ := course_between c hm
    exact units_kept_run ls (course_reach c n) h hu
  have hmem : ∀ m, n ≤ m → ¬ (u ∈ sweptUnits (c.st m).log ++ (c.st m).heap) → u ∈ (c.st m).unitChan := by
    intro m hm hno
    rcases List.mem_append.1 (hk m hm) with h | h
    · exact absurd h hno
    · exact h
  refine leads_strong c hft _ (fun s => s.unitChan.idxOf u) ?_ ?_ ?_
  · intro hno m hm
    obtain ⟨m', hm', w, hw⟩ := round_ends c hf m
    refine ⟨m', hm', .sAdd, ?_⟩
    have hin := hmem m' (by omega) (hno m' (by omega))
    cases hc : (c.st m').unitChan with
    | nil => rw [hc] at hin; cases hin
    | cons v rest => exact ⟨_, rfl, by simp only [step, sAdd, hw, hc]; rfl⟩
  · intro m l hm hlab hA hno
    have hin := hmem m hm hno
    have ha := step_act (course_step c hlab)
    generalize c.st (m + 1) = s' at *
    generalize c.st m = s at *
    cases ha <;> first | (cases hA; done) | skip
    case sadd w v rest hp hv =>
      by_cases hx : v = u
      · subst hx; left; simp
      · right
        simp only [hv]
        rw [List.idxOf_cons, (beq_eq_false_iff_ne (a := v) (b := u)).2 hx]
        exact Nat.lt_succ_self _
  · intro m l hm hlab hA hno
    right
    have hin := hmem m hm hno
    rcases unit_cases (course_reach c m) (step_act (course_step c hlab)) with ⟨a, _⟩ | ⟨id, box, rest, e, hc, a, _⟩ | ⟨w, v, rest, rfl, _⟩ | ⟨w, now, rfl, _, _, _, a, _⟩ | ⟨v, now, n, rfl, _, hv, _, hle, a, _⟩ | ⟨now, n, w, rfl, _, _, _, a, _⟩
    · rw [a]; exact Nat.le_refl _
    · rw [a, List.idxOf_append, if_pos hin]; exact Nat.le_refl _
    · exact absurd rfl hA
    · rw [a]; exact Nat.le_refl _
    · rw [a]; exact Nat.le_refl _
    · rw [a]; exact Nat.le_refl _

/-! ### Only so many runs are started by a given time -/

theorem startsBy_step {env : Env} {s s' : St} {l : Label} (d : Nat) (h : Act env s l s') :
    startsBy d s'.log = startsBy d s.log ∨
      (l = .tSpawn false ∧ (∃ p t rec, s.tpc = .spawn p t rec) ∧ env.clock s.ticks ≤ d ∧
        startsBy d s'.log = startsBy d s.log + 1) := by
  cases h
  case spawn p t rec hp =>
    by_cases hd : env.clock s.ticks ≤ d
    · exact Or.inr ⟨rfl, ⟨_, _, _, hp⟩, hd, by simp [startsBy, hd]⟩
    · left; simp [startsBy, hd]
  case recv_cancel id rec rest he hc =>
    left
    rcases cancelTask_log env true { s with chan := rest } id rec CANCELLED with h | h | ⟨_, _, h⟩ <;> simp [h, startsBy]
  case recv_timeout id rec rest he hc =>
    left
    rcases cancelTask_log env false { s with chan := rest } id rec TIMEOUT with h | h | ⟨_, _, h⟩ <;> simp [h, startsBy]
  case recv_finish b rest he hc =>
    left
    rcases finishTask_log env { s with chan := rest } b.taskId b.recordId with h | h | ⟨_, _, h⟩ <;> simp [h, startsBy]
  all_goals left
  all_goals first | rfl | simp [startsBy]

theorem startsBy_mono {env : Env} (c : Course env) (d : Nat) {n m : Nat} (h : n ≤ m) :
    startsBy d (c.st n).log ≤ startsBy d (c.st m).log := by
  refine course_keeps c (fun s => startsBy d (c.st n).log ≤ startsBy d s.log) (Nat.le_refl _) ?_ m h
  intro j l _ hlab hj
  rcases startsBy_step d (step_act (course_step c hlab)) with h | ⟨_, _, _, h⟩ <;> omega

theorem course_ticks {env : Env} (c : Course env) {n m : Nat} (h : n ≤ m) : (c.st n).ticks ≤ (c.st m).ticks := by
  obtain ⟨ls, _, h1⟩ := course_between c h
  exact (C46_hand_distance (course_reach c n) h1).1

/-- Once the clock has passed `d`, no run is started at `d` or before; and within a tick only so many are. -/
theorem starts_bounded {env : Env} (c : Course env) {d : Nat} (hadv : GetsPast env.clock d) :
    ∃ K, ∀ n, startsBy d (c.st n).log ≤ K := by
  obtain ⟨N, hN⟩ := hadv
  by_cases hx : ∃ m, N ≤ (c.st m).ticks
  · obtain ⟨m, hm⟩ := hx
    refine ⟨startsBy d (c.st m).log, fun n => ?_⟩
    rcases Nat.le_total n m with h | h
    · exact startsBy_mono c d h
    · refine course_keeps c (fun s => startsBy d s.log ≤ startsBy d (c.st m).log) (Nat.le_refl _) ?_ n h
      intro j l hj hlab hle
      rcases startsBy_step d (step_act (course_step c hlab)) with h | ⟨_, _, h1, h⟩
      · omega
      · have := hN _ (Nat.le_trans hm (course_ticks c hj)); omega
  · -- the scheduler comes to rest in some tick
    have hlt : ∀ m, (c.st m).ticks < N := fun m => Nat.lt_of_not_ge fun h => hx ⟨m, h⟩
    have hmax : ∃ m0, ∀ m, (c.st m).ticks ≤ (c.st m0).ticks := by
      have key : ∀ k m, N - (c.st m).ticks = k → ∃ m0, ∀ m, (c.st m).ticks ≤ (c.st m0).ticks := by
        intro k
        induction k using Nat.strongRecOn with
        | ind k ih =>
          intro m hk
          by_cases h : ∃ m', (c.st m).ticks < (c.st m').ticks
          · obtain ⟨m', h⟩ := h
            exact ih (N - (c.st m').ticks) (by have := hlt m; omega) m' rfl
          · exact ⟨m, fun m' => Nat.le_of_not_lt fun h' => h ⟨m', h'⟩⟩
      exact key _ 0 rfl
    obtain ⟨m0, hm0⟩ := hmax
    have hnl : ∀ j l, m0 ≤ j → c.lab j = some l → l ≠ .tLapse := by
      intro j l hj hlab hl
      rcases ticks_step (step_act (course_step c hlab)) with ⟨h, _⟩ | ⟨_, h⟩
      · exact h hl
      · have := course_ticks c hj
        have := hm0 (j + 1)
        omega
    by_cases hp : ∃ m1, m0 ≤ m1 ∧ past (c.st m1).tpc = true
    · obtain ⟨m1, h1, hp⟩ := hp
      refine ⟨startsBy d (c.st m1).log + work (c.st m1).tpc, fun n => ?_⟩
      rcases Nat.le_total n m1 with h | h
      · have := startsBy_mono c d h; omega
      · have := course_keeps c (fun s => past s.tpc = true ∧
          startsBy d s.log + work s.tpc ≤ startsBy d (c.st m1).log + work (c.st m1).tpc) ⟨hp, Nat.le_refl _⟩ ?_ n h
        · exact Nat.le_trans (Nat.le_add_right _ _) this.2
        intro j l hj hlab ⟨h2, h3⟩
        have ha := step_act (course_step c hlab)
        obtain ⟨h4, h5⟩ := work_step ha h2 (hnl j l (by omega) hlab)
        refine ⟨h4, ?_⟩
        rcases startsBy_step d ha with h | ⟨rfl, _, _, h⟩
        · omega
        · simp only [ByScheduler, if_true] at h5; omega
    · refine ⟨startsBy d (c.st m0).log, fun n => ?_⟩
      rcases Nat.le_total n m0 with h | h
      · exact startsBy_mono c d h
      · refine course_keeps c (fun s => startsBy d s.log ≤ startsBy d (c.st m0).log) (Nat.le_refl _) ?_ n h
        intro j l hj hlab hle
        rcases startsBy_step d (step_act (course_step c hlab)) with h | ⟨_, ⟨_, _, _, h1⟩, _, h⟩
        · omega
        · exact absurd ⟨j, hj, by rw [h1]; rfl⟩ hp

/-! ### A deadline in the heap is swept -/

/-- What the sweeper has to do until it comes to the next deadline. -/
def toSweep (K d : Nat) (s : St) : Nat :=
  1000 * (K - early d s) + match s.spc with | .idle _ => 500 | .active _ 0 => 600 | .active _ (_ + 1) => 499

theorem swept_in_time {env : Env} (c : Course env) (hf : c.WeaklyFair (ByRounds · = true)) {u : RecycleUnit}
    (hclk : c.SweeperGetsTo u.deadline) (hadv : GetsPast env.clock u.deadline)
    (hfit : ∀ n, AllLimitsFit (c.upTo n) (c.st n).log) {n : Nat} (hu : u ∈ sweptUnits (c.st n).log ++ (c.st n).heap) : c.Comes n fun s => u ∈ sweptUnits s.log := by
  obtain ⟨K, hK⟩ := starts_bounded c hadv
  obtain ⟨n1, hn1⟩ := hclk
  obtain ⟨n2, hn2, w, hw⟩ := round_ends c hf (max n n1)
  have hk : ∀ m, n ≤ m → u ∈ sweptUnits (c.st m).log ++ (c.st m).heap := by
    refine course_keeps c (fun s => u ∈ sweptUnits s.log ++ s.heap) hu ?_
    intro m l _ hlab h
    simp only [List.mem_append] at h ⊢
    have hr := course_reach c m
    have ha := step_act (course_step c hlab)
    rcases h with h | h
    · exact Or.inl ((swept_grows hr ha).subset h)
    rcases unit_cases hr ha with ⟨_, b, _⟩ | ⟨id, box, rest, e, hc, a, b, _⟩ | ⟨w, v, rest, rfl, _, _, _, b, _⟩ | ⟨w, now, rfl, _, _, _, a, b, _⟩ | ⟨v, now, n, rfl, _, hv, _, hle, a, b, _, d⟩ | ⟨now, n, w, rfl, _, _, _, a, b, _⟩
    · rw [b]; exact Or.inr h
    · rw [b]; exact Or.inr h
    · rw [b]; exact Or.inr (List.mem_cons_of_mem _ h)
    · rw [b]; exact Or.inr h
    · by_cases hx : u = v
      · subst hx; left; rw [d]; simp [sweptUnits]
      · right; rw [b]; exact (List.mem_erase_of_ne hx).2 h
    · rw [b]; exact Or.inr h
  have hlate : ∀ m, n2 ≤ m → ∀ now k, (c.st m).spc = .active now k → u.deadline ≤ now := by
    refine course_keeps c (fun s => ∀ now k, s.spc = .active now k → u.deadline ≤ now) ?_ ?_
    · intro now k h; rw [hw] at h; cases h
    · intro m l hm hlab h now k hp
      rcases unit_cases (course_reach c m) (step_act (course_step c hlab)) with ⟨_, _, b, _⟩ | ⟨id, box, rest, e, hc, a, _, b, _⟩ | ⟨w, v, rest, _, _, _, _, _, b, _⟩ | ⟨w, now', rfl, _, _, b, _⟩ | ⟨v, now', n, _, hq, _, _, _, _, _, b, _⟩ | ⟨now', n, w, _, _, b, _⟩
      · rw [b] at hp; exact h _ _ hp
      · rw [b] at hp; exact h _ _ hp
      · rw [b] at hp; cases hp
      · rw [b] at hp; cases hp; exact hn1 m _ (by omega) hlab
      · rw [b] at hp; cases hp; exact h _ _ hq
      · rw [b] at hp; cases hp
  suffices H : c.Comes n2 fun s => u ∈ sweptUnits s.log by
    obtain ⟨m, hm, h⟩ := H
    exact ⟨m, by omega, h⟩
  have hheap : ∀ m, n2 ≤ m → ¬ u ∈ sweptUnits (c.st m).log → u ∈ (c.st m).heap := by
    intro m hm hno
    rcases List.mem_append.1 (hk m (by omega)) with h | h
    · exact absurd h hno
    · exact h
  have hroom : ∀ m, n2 ≤ m → ¬ u ∈ sweptUnits (c.st m).log → early u.deadline (c.st m) < K := by
    intro m hm hno
    have := early_starts (course_run c m) (hfit m) (hheap m hm hno)
    have := hK m
    omega
  refine leads c hf _ (toSweep K u.deadline) ?_ ?_ ?_
  · intro m _ hno
    cases hp : (c.st m).spc with
    | active now k => exact rounds_next hp
    | idle w => exact ⟨.sWake w, _, rfl, by simp only [step, sWake, hp, Nat.le_refl, if_true]; rfl⟩
  · intro m l hm hlab hA hno
    have hr := course_reach c m
    have ha := step_act (course_step c hlab)
    have hge := early_grows (d := u.deadline) hr ha
    have hh := hheap m hm hno
    have hro := hroom m hm hno
    rcases unit_cases hr ha with ⟨_, _, b, _⟩ | ⟨id, box, rest, e, hc, a, _, b, _⟩ | ⟨w, v, rest, rfl, _⟩ | ⟨w, now, _, hp, _, hp', _, _, hlog⟩ | ⟨v, now, k, _, hp, hv, hmin, _, _, _, hp', hlog⟩ | ⟨now, k, w, _, hp, hp', hwhy, _, _, hlog⟩
    · exact absurd b (rounds_move hA ha)
    · exact absurd b (rounds_move hA ha)
    · cases hA
    · right
      have : early u.deadline (c.st (m + 1)) = early u.deadline (c.st m) := by simp only [early, hlog]
      simp only [toSweep, hp, hp', this]; omega
    · have h1 : early u.deadline (c.st (m + 1)) = early u.deadline (c.st m) + 1 := by
        have := hmin u hh
        simp only [early, hlog, sweptUnits, List.countP_append]
        simp [this]
      right
      simp only [toSweep, hp, hp', h1]
      split <;> omega
    · right
      have h1 : early u.deadline (c.st (m + 1)) = early u.deadline (c.st m) := by simp only [early, hlog]
      have hnow := hlate m hm now k hp
      cases k with
      | zero => simp only [toSweep, hp, hp', h1]; omega
      | succ k =>
        exfalso
        rcases hwhy with ⟨h, _⟩ | ⟨h, _⟩ | ⟨_, dd, h, h2, _⟩
        · cases h
        · exact absurd hh (by rw [heapMin_none.1 h]; simp)
        · have := (heapMin_some h).2 u hh; omega
  · intro m l hm hlab hA hno
    right
    have ha := step_act (course_step c hlab)
    have hge := early_grows (d := u.deadline) (course_reach c m) ha
    simp only [toSweep, other_rounds (by simpa using hA) ha]
    omega

/-- **C72** A run of a task that may run for `m` seconds is ended sooner or later, by itself or by the timer, however
long its body would go on: provided that nobody is held up forever, that the clocks get past its deadline, that the event thread does
not die (C64), that, in a build with overflow checks, the scheduler does not die of an overflow, and that no deadline
overflows. It does not matter what else happens meanwhile, how many other runs are started, or whether the timer has
been stopped. -/
theorem C72_stopped {env : Env} (c : Course env) (hf : c.Fair) (hl : c.Listening) (hc : ∀ n, ¬ Crashed env (c.st n))
    {id m : Nat} (hm : ∀ n, ∀ t ∈ handed id (c.upTo n), t.maximumRunningTime = some m)
    (hfit : ∀ n, AllLimitsFit (c.upTo n) (c.st n).log) {n rtn k ts : Nat} {rec : Int}
    (hclk : c.SweeperGetsTo (ts + m)) (hadv : GetsPast env.clock (ts + m)) (hs : .started id rtn rec k ts ∈ (c.st n).log) : c.Comes n fun s => .stopped id rec ∈ s.log := by
  obtain ⟨n1, hn1, r, hr, hg⟩ := gate_opens c hf.scheduler hc hs
  obtain ⟨r', hr', h0, _⟩ := (runLog (course_reach c n1)).started _ _ _ _ _ (course_log c hn1 hs)
  rw [hr] at hr'; cases hr'
  have hq := ((rtOk (course_reach c n1)).rt rec r hr).2.1 hg
  rw [h0] at hq
  obtain ⟨n2, hn2, hd⟩ := C70_processed c hf.events hl n1
  have hd := hd.subset (mem_queuedTags.2 hq)
  have hs2 := course_log c (Nat.le_trans hn1 hn2) hs
  have hfit2 : ts + m < 2 ^ 64 := by
    obtain ⟨t, ht, _⟩ := (deadlineOk (course_run c n2)).reg id rec hd
    exact hfit n2 id t ht m (hm n2 t ht) rtn rec k ts hs2
  have hu := C66_registered (course_run c n2) (hm n2) hs2 hfit2 hd
  obtain ⟨n3, hn3, hu⟩ := taken_in c hf.rounds hf.takesIn hu
  obtain ⟨n4, hn4, hu⟩ := swept_in_time (u := ⟨ts + m, id, rec⟩) c hf.rounds hclk hadv hfit hu
  obtain ⟨n5, hn5, hp⟩ := C70_processed c hf.events hl n4
  obtain ⟨ls, _, h5⟩ := course_between c hn5
  exact ⟨n5, by omega, swept_stopped (course_reach c n4) hu h5 hp.length_le⟩

end DelayTimer
