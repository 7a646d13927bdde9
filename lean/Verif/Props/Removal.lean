import Verif.Proofs.Removal

/-!
# Exactly when a removal works (C85)

A task is handed in once and removed. Whether the removal works is decided by one look at the moment the event thread
takes it: does the task wait in the slot that the table of marks names for it? If so, it is never started again. If not,
all its starts, before and after, are those it would have had without the removal.
-/

namespace DelayTimer
open Spec

/-- **C85** A task without parallel limit is handed in once, and its removal is called once. Whatever else happens, there
is one time table such that: if, when the event thread takes the removal, the task waits in the slot named by its mark,
it is never started again; if it does not, its starts follow that time table from the first to the last, as if there had
been no removal, whatever is called for it short of adding it again. -/
theorem C85_verdict {env : Env} {k a : Nat} {t : Task} {ls1 ls2 : List Label} {l : Label} {s s1 : St}
    {rest : List TimerEvent} (hin : HandsIn t l) (hk : t.taskId = k) (hv : t.valid = true)
    (hlim : t.maximumParallelRunnableNum = none) (h0 : runsLeft t ≠ some 0) (ha : alarm 0 t = some a)
    (h1 : ∀ l ∈ ls1, ¬ Touches k l) (h2 : ∀ l ∈ ls2, OnlyCalls (.remove k) k l) (hn : callsFor k ls2 ≤ 1)
    (hr : run env (init env) (ls1 ++ l :: ls2) = some s) (hc : s.chan = .removeTask k :: rest)
    (hs : step env s .eRecv = some s1) :
    ∃ D, (s.tpc ≠ .panicked →
        StartsOnSchedule k (cut (runsLeft t) (timetable env.clock D (fun j => alarm (j + 1) t))) (init env) s) ∧
      ∀ ls s', (∀ l ∈ ls, ¬ Adds k l) → run env s1 ls = some s' →
        (AtItsMark k s → startTicks k s'.log = startTicks k s.log) ∧
        (¬ AtItsMark k s → s'.tpc ≠ .panicked →
          StartsOnSchedule k (cut (runsLeft t) (timetable env.clock D (fun j => alarm (j + 1) t))) (init env) s') := by
  obtain ⟨D, A, R, hlife, hrest', _⟩ := taken_alive (Or.inl rfl) hin hk hv ha h1 h2 hn hr hc hs
  have hrest : ∀ e ∈ rest, ¬ EventAdds k e := fun e he hx =>
    hrest' e he (by cases e <;> first | exact hx | exact False.elim hx)
  have hreach : Reachable env s := ⟨_, hr⟩
  have h0' : runsLeft t.getNextExecTimestamp.2 ≠ some 0 := by rw [runsLeft_ask]; exact h0
  have sched : ∀ s', Life False env.clock k t.getNextExecTimestamp.2 D A [] R s' → s'.tpc ≠ .panicked →
      StartsOnSchedule k (cut (runsLeft t) (timetable env.clock D (fun j => alarm (j + 1) t))) (init env) s' := by
    intro s' h hp
    have := h.starts hlim h0' hp
    rw [runsLeft_ask] at this
    exact this
  refine ⟨D, sched s hlife, fun ls s' hl hrun => ⟨fun hm => ?_, fun hm hp => ?_⟩⟩
  · obtain ⟨e1, e2⟩ := removal_finds (once_single (Or.inl rfl) hin h1 h2 hr) hc hrest hm (step_act hs)
    exact (vanished_run ls e1 hl hrun).2.trans e2
  · obtain ⟨hf, hi⟩ := removal_misses hc hrest (fun m u hfl ⟨sl, hx⟩ => hm ⟨m, sl, u, hfl, hx⟩) (step_act hs)
    exact sched s' (forgotten_run ls (hreach.step hs) hf (life_idle hi hlife) hl hrun).1 hp

/-- A task in the hands of the scheduler does not wait anywhere: its removal fails. -/
theorem C85_held {env : Env} {k : Nat} {t u : Task} {ls1 ls2 : List Label} {l : Label} {s : St} (hin : HandsIn t l)
    (h1 : ∀ l ∈ ls1, ¬ Touches k l) (h2 : ∀ l ∈ ls2, OnlyCalls (.remove k) k l)
    (hr : run env (init env) (ls1 ++ l :: ls2) = some s) (hh : heldTask s.tpc = some u) (hu : u.taskId = k) :
    ¬ AtItsMark k s := by
  rintro ⟨m, sl, v, hfl, hw, hv, hk⟩
  have := (once_single (Or.inl rfl) hin h1 h2 hr).excl _ _ ⟨sl, hw, hv, hk⟩
  unfold looseN at this
  have ht : tpcTok k s.tpc = [u] := by
    revert hh; cases s.tpc <;> intro hh <;> cases hh <;> simp [tpcTok, hu]
  rw [ht] at this
  simp at this

/-! ## In unending executions -/

theorem course_exit {env : Env} (c : Course env) (P : St → Prop) {n m : Nat} (hnm : n ≤ m) (h1 : P (c.st n))
    (h2 : ¬ P (c.st m)) : ∃ j, n ≤ j ∧ P (c.st j) ∧ ¬ P (c.st (j + 1)) := by
  induction m with
  | zero => rw [show n = 0 by omega] at h1; exact absurd h1 h2
  | succ m ih =>
    by_cases hm : n = m + 1
    · rw [hm] at h1; exact absurd h1 h2
    · by_cases hp : P (c.st m)
      · exact ⟨m, by omega, hp, h2⟩
      · exact ih (by omega) hp

/-- A removal, advance or update that has been called is taken from the channel at some moment. -/
theorem op_taken {env : Env} (c : Course env) (hfe : c.WeaklyFair (ByEvents · = true)) (hli : c.Listening) {k n1 : Nat}
    {op : UserOp} (hop : Concerns k op) (hlab : c.lab n1 = some (.uSend op))
    (hno : ∀ m l, n1 < m → c.lab m = some l → ¬ Touches k l) :
    ∃ n rest, n1 < n ∧ c.lab n = some .eRecv ∧ (c.st n).chan = op.event :: rest := by
  obtain ⟨m0, hm0, hq⟩ := C70_settles c hfe hli (k := k) (n := n1 + 1) (fun m l hm h => hno m l (by omega) h)
  have hin : op.event ∈ (c.st (n1 + 1)).chan := by
    have := step_act (course_step c hlab)
    generalize c.st (n1 + 1) = s' at this
    cases this
    simp
  obtain ⟨j, hj, h3, h4⟩ := course_exit c (fun s => op.event ∈ s.chan) hm0 hin
    (fun h => (hq m0 (Nat.le_refl _)).chan _ h (by rcases hop with rfl | rfl | ⟨u, rfl, hu⟩ <;> first | rfl | exact hu))
  cases hl : c.lab j with
  | none => rw [course_rest c hl] at h4; exact absurd h3 h4
  | some l =>
    rcases chan_step (step_act (course_step c hl)) with ⟨_, h5 | ⟨e, h5, _⟩⟩ | ⟨rfl, _, e, h5⟩ | ⟨_, h5⟩
    · rw [h5] at h4; exact absurd h3 h4
    · rw [h5] at h4; exact absurd (List.mem_append_left _ h3) h4
    · rw [h5] at h3
      rcases List.mem_cons.1 h3 with h3 | h3
      · exact ⟨j, _, by omega, hl, by rw [h5, h3]⟩
      · exact absurd h3 h4
    · rw [h5] at h4; exact absurd h3 h4

theorem removal_taken {env : Env} (c : Course env) (hfe : c.WeaklyFair (ByEvents · = true)) (hli : c.Listening) {k n1 : Nat}
    (hlab : c.lab n1 = some (.uSend (.remove k))) (hno : ∀ m l, n1 < m → c.lab m = some l → ¬ Touches k l) :
    ∃ n rest, n1 < n ∧ c.lab n = some .eRecv ∧ (c.st n).chan = .removeTask k :: rest :=
  op_taken c hfe hli (Or.inl rfl) hlab hno

theorem adds_touches {k : Nat} {l : Label} (h : Adds k l) : Touches k l := by
  unfold Adds at h; split at h
  · exact h
  · exact h
  · exact False.elim h

theorem calls_upTo {env : Env} (c : Course env) {b n1 : Nat} {P : Label → Bool}
    (hno : ∀ m l, b ≤ m → m ≠ n1 → c.lab m = some l → P l = false) (d : Nat) :
    (c.upTo (b + d)).countP P ≤ (c.upTo b).countP P + if n1 < b + d then 1 else 0 := by
  induction d with
  | zero => exact Nat.le_add_right _ _
  | succ d ih =>
    have hs : (c.upTo (b + d + 1)).countP P ≤ (c.upTo (b + d)).countP P + if b + d = n1 then 1 else 0 := by
      rw [Course.upTo, List.countP_append]
      cases hl : c.lab (b + d) with
      | none => simp
      | some l =>
        simp only [Option.toList, List.countP_singleton]
        by_cases hn : b + d = n1
        · rw [if_pos hn]; split <;> omega
        · simp [hno (b + d) l (Nat.le_add_right _ _) hn hl]
    rw [← Nat.add_assoc]
    refine Nat.le_trans hs (Nat.le_trans (Nat.add_le_add_right ih _) ?_)
    split <;> split <;> split <;> omega

/-- Between the handing in and the taking there is one call. -/
theorem called_once {env : Env} (c : Course env) {k n0 n1 n : Nat} {l : Label} {op : UserOp} (hlab : c.lab n0 = some l)
    (h01 : n0 < n1) (hn : n1 < n) (hask : c.lab n1 = some (.uSend op))
    (hno : ∀ m l, m ≠ n0 → m ≠ n1 → c.lab m = some l → ¬ Touches k l) :
    ∃ ls2, (∀ l ∈ ls2, OnlyCalls op k l) ∧ callsFor k ls2 ≤ 1 ∧ (∀ l ∈ c.upTo n0, ¬ Touches k l) ∧
      run env (init env) (c.upTo n0 ++ l :: ls2) = some (c.st n) := by
  obtain ⟨ls2, h2, _, hup⟩ := between_mem c (n := n0 + 1) (m := n) (P := OnlyCalls op k) (by omega)
    (fun i l hi h ht => by
      by_cases hi1 : i = n1
      · subst hi1; rw [hask] at h; exact (Option.some.inj h).symm
      · exact absurd ht (hno i l (by omega) hi1 h))
  have h1 : ∀ l ∈ c.upTo n0, ¬ Touches k l := by
    intro l hl
    obtain ⟨m, hm, h⟩ := (mem_upTo c n0).1 hl
    exact hno m l (by omega) (by omega) h
  have hrun := course_run c n
  rw [hup, Course.upTo, hlab] at hrun
  refine ⟨ls2, h2, ?_, h1, by simpa using hrun⟩
  have := calls_upTo c (b := n0 + 1) (n1 := n1) (P := fun l => decide (Touches k l)) (fun m l hm h1 h =>
    decide_eq_false (hno m l (by omega) h1 h)) (n - (n0 + 1))
  rw [show n0 + 1 + (n - (n0 + 1)) = n by omega, hup, List.countP_append] at this
  unfold callsFor
  split at this <;> omega

/-- **C85** In an unending execution a repeating task is handed in once and removed once. There is a moment at which the
event thread takes the removal. If the task then waits in the slot named by its mark, it is never started again; if it
does not, it is started again and again for ever. -/
theorem C85_for_ever {env : Env} (c : Course env) (hfe : c.WeaklyFair (ByEvents · = true))
    (hfs : c.WeaklyFair (ByScheduler · = true)) (hli : c.Listening) (htn : c.Turning) {k n0 n1 : Nat} {t : Task} {l : Label}
    (hlab : c.lab n0 = some l) (hin : HandsIn t l) (hk : t.taskId = k) (hv : t.valid = true)
    (hlim : t.maximumParallelRunnableNum = none) (hrep : runsLeft t = none) (ha : ∀ j, alarm j t ≠ none)
    (h01 : n0 < n1) (hrem : c.lab n1 = some (.uSend (.remove k)))
    (hno : ∀ m l, m ≠ n0 → m ≠ n1 → c.lab m = some l → ¬ Touches k l) :
    ∃ n rest, n1 < n ∧ c.lab n = some .eRecv ∧ (c.st n).chan = .removeTask k :: rest ∧
      (AtItsMark k (c.st n) → ∀ m, n ≤ m → startTicks k (c.st m).log = startTicks k (c.st n).log) ∧
      (¬ AtItsMark k (c.st n) → ∀ i, ∃ m0, ∀ m, m0 ≤ m → i < (startTicks k (c.st m).log).length) := by
  obtain ⟨n, rest, hn, hrecv, hchan⟩ := removal_taken c hfe hli hrem (fun m l hm h => hno m l (by omega) (by omega) h)
  cases ha' : alarm 0 t with
  | none => exact absurd ha' (ha 0)
  | some a =>
    obtain ⟨ls2, h2, hcnt, h1, hrun⟩ := called_once c hlab h01 hn hrem hno
    obtain ⟨D, _, hD⟩ := C85_verdict (ls1 := c.upTo n0) (ls2 := ls2) hin hk hv hlim (by rw [hrep]; simp) ha' h1 h2 hcnt
      hrun hchan (course_step c hrecv)
    have later : ∀ m, n < m → ∃ ls, (∀ l ∈ ls, ¬ Adds k l) ∧ run env (c.st (n + 1)) ls = some (c.st m) := by
      intro m hm
      obtain ⟨ls, f1, f2, _⟩ := between_mem c (n := n + 1) (m := m) (P := fun l => ¬ Adds k l) (by omega)
        (fun i l hi h hx => hno i l (by omega) (by omega) h (adds_touches hx))
      exact ⟨ls, f1, f2⟩
    refine ⟨n, rest, hn, hrecv, hchan, fun hm m hnm => ?_, fun hm i => ?_⟩
    · by_cases h : m = n
      · rw [h]
      · obtain ⟨ls, f1, f2⟩ := later m (by omega)
        exact (hD ls _ f1 f2).1 hm
    · obtain ⟨d, hd⟩ := timetable_some (clock := env.clock) (D := D) (alarms := fun j => alarm (j + 1) t) i (fun j _ => ha _)
      obtain ⟨j, hj, htick⟩ := C71_turns c hfs htn (n + 1) (d + 1)
      refine ⟨j, fun m hjm => ?_⟩
      obtain ⟨ls, f1, f2⟩ := later m (by omega)
      obtain ⟨ns, e1, _, e3⟩ := (hD ls _ f1 f2).2 hm (course_turns c htn m).2.1
      have h3 := course_ticks c hjm
      have h4 : d + 1 ≤ (c.st j).ticks := htick
      have := (List.getElem?_eq_some_iff.1 (e3 i d (by rw [hrep]; exact hd) (by omega))).1
      rw [e1]; simpa [init, startTicks] using this

end DelayTimer

namespace DelayTimer.Ex

open Spec

theorem at_most {op : UserOp} {k : Nat} {ls q : List Label} (h : ls = q ++ [.uSend op])
    (hq : q.all (fun l => !decide (Touches k l)) = true) : ∀ l ∈ ls, OnlyCalls op k l := by
  intro l hl ht
  rw [h] at hl
  rcases List.mem_append.1 hl with hl | hl
  · have := List.all_eq_true.1 hq l hl
    simp [ht] at this
  · exact List.mem_singleton.1 hl

/-- C85, `C85_verdict`, `C85_held`: task 1 is in the hands of the scheduler when its removal is taken. It does not wait at
its mark, and is started at 7 as well. -/
example : HandsIn (every 1 101 5) (.uSend (.add (every 1 101 5))) ∧ alarm 0 (every 1 101 5) = some 101 ∧
    runsLeft (every 1 101 5) = none ∧ (every 1 101 5).maximumParallelRunnableNum = none ∧
    ghostPre = [] ++ .uSend (.add (every 1 101 5)) :: ghostPre.tail ∧ (∀ l ∈ ghostPre.tail, OnlyCalls (.remove 1) 1 l) ∧
    callsFor 1 ghostPre.tail ≤ 1 ∧ run env0 (init env0) ghostPre = some (play env0 ghostPre) ∧
    (play env0 ghostPre).chan = .removeTask 1 :: [] ∧
    step env0 (play env0 ghostPre) .eRecv = some (play env0 (ghostPre ++ [.eRecv])) ∧
    heldTask (play env0 ghostPre).tpc = some ghostT ∧ ¬ AtItsMark 1 (play env0 ghostPre) ∧
    startTicks 1 (play env0 ghostPre).log = [2] ∧
    startTicks 1 (play env0 (ghostPre ++ [.eRecv] ++ [.eNext, .tSlot, .tMark, .tLapse] ++ idles 4 ++ fire 1 2)).log = [2, 7] := by
  have hm : ∀ l ∈ ghostPre.tail, OnlyCalls (.remove 1) 1 l := at_most (q := ghostPre.tail.dropLast) rfl (by decide +kernel)
  refine ⟨Or.inl rfl, rfl, rfl, rfl, rfl, hm, by decide +kernel, play_run ghost_run, rfl, rfl, rfl, ?_, by decide +kernel,
    by decide +kernel⟩
  exact C85_held (ls1 := []) (ls2 := ghostPre.tail) (l := .uSend (.add (every 1 101 5))) (Or.inl rfl) (by simp) hm
    (play_run (env := env0) ghost_run) (u := ghostT) rfl rfl

/-- The scheduler has found task 1 due, has its id in its list, and has not taken it out of the wheel yet. -/
def nickPre : List Label := add (every 1 101 5) ++ idles 2 ++ [.tLoad, .tStore, .tArrive, .uSend (.remove 1)]

/-- C85, `C85_verdict`: a removal taken in the nick of time works: the scheduler looks for the task in vain. -/
example : nickPre = [] ++ .uSend (.add (every 1 101 5)) :: nickPre.tail ∧ (∀ l ∈ nickPre.tail, OnlyCalls (.remove 1) 1 l) ∧
    callsFor 1 nickPre.tail ≤ 1 ∧ run env0 (init env0) nickPre = some (play env0 nickPre) ∧
    (play env0 nickPre).chan = .removeTask 1 :: [] ∧
    step env0 (play env0 nickPre) .eRecv = some (play env0 (nickPre ++ [.eRecv])) ∧
    (play env0 nickPre).tpc = .batch [1] ∧ AtItsMark 1 (play env0 nickPre) ∧
    run env0 (play env0 (nickPre ++ [.eRecv])) ([.tPop 1, .tLapse, .eNext] ++ idles 9) =
      some (play env0 (nickPre ++ [.eRecv] ++ ([.tPop 1, .tLapse, .eNext] ++ idles 9))) ∧
    startTicks 1 (play env0 (nickPre ++ [.eRecv] ++ ([.tPop 1, .tLapse, .eNext] ++ idles 9))).log = [] :=
  ⟨rfl, at_most (q := nickPre.tail.dropLast) rfl (by decide +kernel), by decide +kernel, play_run (by rfl), rfl, rfl, rfl,
    ⟨_, _, _, rfl, rfl, List.mem_cons_self, rfl⟩, play_on (by decide +kernel), by decide +kernel⟩

/-- C85, `C85_for_ever`: an unending execution that begins in this way, for either outcome. -/
theorem verdict_course {pre : List Label} (hrun : (run env0 (init env0) pre).isSome) {q : List Label} {op : UserOp} (hop : op ≠ .stop)
    (hp : pre = .uSend (.add (every 1 101 5)) :: (q ++ [.uSend op]))
    (hq : q.all (fun l => !decide (Touches 1 l) && match l with | .uSend .stop => false | .tSpawn true => false | _ => true) = true) :
    ∃ c : Course env0, c.WeaklyFair (ByEvents · = true) ∧ c.WeaklyFair (ByScheduler · = true) ∧ c.Listening ∧ c.Turning ∧
      c.lab 0 = some (.uSend (.add (every 1 101 5))) ∧ c.lab (q.length + 1) = some (.uSend op) ∧
      c.st pre.length = play env0 pre ∧
      ∀ m l, m ≠ 0 → m ≠ q.length + 1 → c.lab m = some l → ¬ Touches 1 l := by
  obtain ⟨c, h1, h2, h3, _, h4⟩ := fair_course (play_run hrun)
  have hlen : pre.length = q.length + 2 := by rw [hp]; simp
  have hup := upTo_take (c := c) (n := pre.length) (by rw [h1])
  have hlab : ∀ m, m < pre.length → c.lab m = pre[m]? := fun m hm => by rw [(hup m (by omega)).2 hm, h1]
  have hmid : ∀ m l, m ≠ 0 → m ≠ q.length + 1 → c.lab m = some l → l ∈ q ∨ Unasked l := by
    intro m l h0 h5 h6
    by_cases hm : m < pre.length
    · left
      rw [hlab m hm, hp] at h6
      cases m with
      | zero => exact absurd rfl h0
      | succ m =>
        rw [List.getElem?_cons_succ, List.getElem?_append_left (by omega)] at h6
        exact List.mem_of_getElem? h6
    · exact Or.inr (h4 m l (by omega) h6)
  have hfirst : c.lab 0 = some (.uSend (.add (every 1 101 5))) := by rw [hlab 0 (by omega), hp]; rfl
  have hlast : c.lab (q.length + 1) = some (.uSend op) := by
    rw [hlab _ (by omega), hp]; simp
  have hall : ∀ m l, c.lab m = some l → l ≠ .uSend .stop ∧ l ≠ .tSpawn true := by
    intro m l h
    by_cases h0 : m = 0
    · subst h0; rw [hfirst] at h; cases h; simp
    by_cases h5 : m = q.length + 1
    · subst h5; rw [hlast] at h; cases h; simp [hop]
    rcases hmid m l h0 h5 h with h6 | h6
    · have := List.all_eq_true.1 hq l h6
      constructor <;> (rintro rfl; simp at this)
    · constructor <;> (rintro rfl; exact h6)
  refine ⟨c, h3.events, h3.scheduler, (unchecked_lives rfl c).1,
    C71_turning c (fun n h => (hall n _ h).1 rfl) (fun n h => (hall n _ h).2 rfl) (fun n k t _ j h => by cases h), hfirst,
    hlast, h2, fun m l h0 h5 h6 => ?_⟩
  rcases hmid m l h0 h5 h6 with h7 | h7
  · have := List.all_eq_true.1 hq l h7
    simp only [Bool.and_eq_true, Bool.not_eq_true', decide_eq_false_iff_not] at this
    exact this.1
  · exact unasked_touches h7

example : ∃ c : Course env0, c.WeaklyFair (ByEvents · = true) ∧ c.WeaklyFair (ByScheduler · = true) ∧ c.Listening ∧ c.Turning ∧
    c.lab 0 = some (.uSend (.add (every 1 101 5))) ∧ ∃ n1, 0 < n1 ∧ c.lab n1 = some (.uSend (.remove 1)) ∧
      (∀ m l, m ≠ 0 → m ≠ n1 → c.lab m = some l → ¬ Touches 1 l) ∧ ∀ j, alarm j (every 1 101 5) ≠ none := by
  obtain ⟨c, h1, h2, h3, h4, h5, h6, _, h7⟩ := verdict_course (pre := ghostPre)
    (q := ghostPre.tail.dropLast) (op := .remove 1) ghost_run (by simp) rfl (by decide +kernel)
  refine ⟨c, h1, h2, h3, h4, h5, _, Nat.succ_pos _, h6, h7, fun j => ?_⟩
  rw [alarm_seconds_new 0 101 5 (by omega) (by omega) (every 1 101 5) (Or.inl rfl)]
  simp

end DelayTimer.Ex
