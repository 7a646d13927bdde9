import Verif.Proofs.Advancement
import Verif.Props.Removal
import Verif.Props.Advance

/-!
# Exactly what an advance does (C86)

A task is handed in once and advanced once, at any moment. Whether the advance reaches it is decided, like a removal
(C85), by one look at the moment the event thread takes it. If the task does not wait in the slot named by its mark, the
advance changes nothing. If it does, it is lost or brought forward, and which of the two the hand decides that the event
thread reads next.
-/

namespace DelayTimer
open Spec

/-- A task that waits in its slot, on its way through life. -/
theorem at_mark_sched {clock : Nat → Nat} {k D : Nat} {t : Task} {A R : List Nat} {s : St}
    (hl : Life False clock k t D A [] R s) (hm : AtItsMark k s) (hlim : t.maximumParallelRunnableNum = none) :
    ∃ v D', Sched k v D' s ∧ Aged (startTicks k s.log).length (startTicks k s.log).length t v := by
  obtain ⟨m, sl, u, _, hw, hu, hk⟩ := hm
  have hin : inWheel s.wheel k m.slotMark u := ⟨sl, hw, hu, hk⟩
  obtain ⟨⟨ns, ds, _, hS, _, _, _, hP⟩, _⟩ := hl
  rw [List.nil_append] at hS
  cases hP with
  | sched v D' hs _ ha _ hall => exact ⟨v, D', hs, by rw [hS]; rw [← hall hlim] at ha; exact ha⟩
  | fly v ms hf _ _ _ => exact absurd hin (hf.nowhere _ _)
  | gone _ hn _ _ _ _ => exact absurd hin (hn _ _)

/-- **C86** A task without parallel limit is handed in once and advanced once. There is one time table that its starts
follow until the event thread takes the advance. If the task then does not wait in the slot named by its mark, its starts
follow this time table ever after. If it does, then it is not started until it is put back behind the hand that the event
thread has read. If this was the last slot, it is never started again. Otherwise its next start is at the next visit of
the slot behind that hand, and the alarms that follow are those it would have had, with what is left of its count. -/
theorem C86_verdict {env : Env} {k a : Nat} {t : Task} {ls1 ls2 : List Label} {l : Label} {s s1 : St}
    {rest : List TimerEvent} (hin : HandsIn t l) (hk : t.taskId = k) (hv : t.valid = true)
    (hlim : t.maximumParallelRunnableNum = none) (h0 : runsLeft t ≠ some 0) (ha : alarm 0 t = some a)
    (h1 : ∀ l ∈ ls1, ¬ Touches k l) (h2 : ∀ l ∈ ls2, OnlyCalls (.advance k) k l) (hn : callsFor k ls2 ≤ 1)
    (hr : run env (init env) (ls1 ++ l :: ls2) = some s) (hc : s.chan = .advanceTask k :: rest)
    (hs : step env s .eRecv = some s1) :
    ∃ D, (s.tpc ≠ .panicked →
        StartsOnSchedule k (cut (runsLeft t) (timetable env.clock D (fun j => alarm (j + 1) t))) (init env) s) ∧
      (¬ AtItsMark k s → ∀ ls s', (∀ l ∈ ls, ¬ Touches k l) → run env s1 ls = some s' → s'.tpc ≠ .panicked →
        StartsOnSchedule k (cut (runsLeft t) (timetable env.clock D (fun j => alarm (j + 1) t))) (init env) s') ∧
      (AtItsMark k s → ∀ ls s2 u hand s3 ls' s', (∀ l ∈ ls, ¬ Touches k l) → run env s1 ls = some s2 →
        s2.epc = .adv2 u hand → u.taskId = k → step env s2 .eNext = some s3 → (∀ l ∈ ls', ¬ Touches k l) →
        run env s3 ls' = some s' →
        startTicks k s2.log = startTicks k s.log ∧
        (3599 ≤ hand → startTicks k s'.log = startTicks k s.log) ∧
        (hand < 3599 → ∀ n, NextVisit s2 (hand + 1) n → s'.tpc ≠ .panicked →
          StartsOnSchedule k (cut ((runsLeft t).map (· - (startTicks k s.log).length))
            (timetable env.clock n (fun j => alarm ((startTicks k s.log).length + j + 1) t))) s s')) := by
  obtain ⟨D, A, R, hlife, hrest, _⟩ := taken_alive (Or.inr (Or.inl rfl)) hin hk hv ha h1 h2 hn hr hc hs
  have hreach : Reachable env s := ⟨_, hr⟩
  have h0' : runsLeft t.getNextExecTimestamp.2 ≠ some 0 := by rw [runsLeft_ask]; exact h0
  have sched : ∀ s', Life False env.clock k t.getNextExecTimestamp.2 D A [] R s' → s'.tpc ≠ .panicked →
      StartsOnSchedule k (cut (runsLeft t) (timetable env.clock D (fun j => alarm (j + 1) t))) (init env) s' := by
    intro s' h hp
    have := h.starts hlim h0' hp
    rw [runsLeft_ask] at this
    exact this
  refine ⟨D, sched s hlife, fun hm ls s' hl hrun hp => ?_, fun hm ls s2 u hand s3 ls' s' hl hrun he hu hback hl' hrun' => ?_⟩
  · obtain ⟨hi, e1, e2⟩ := advance_misses hc hm (step_act hs)
    exact sched s' (life_run ls (hreach.step hs) ⟨by rw [e1]; exact hrest, by rw [e2]; exact id⟩ (life_idle hi hlife) hl hrun).1 hp
  · obtain ⟨v, D', hsch, hage⟩ := at_mark_sched hlife hm hlim
    obtain ⟨hb, hlog⟩ := advance_finds hc hrest hm hsch (step_act hs)
    rcases borne_run ls hb hl hrun with ⟨hb2, e1, e2, e3⟩ | hq
    · have he' : s2.epc = .adv2 { v with cylinderLine := 0 } hand := by
        rcases hb2.epc with h5 | ⟨hd, h5⟩
        · rw [he] at h5; cases h5
        · rw [he] at h5; cases h5; exact he
      have hr2 : Reachable env s2 := (hreach.step hs).run hrun
      obtain ⟨hq3, hfoot, hlost⟩ := borne_back (wheelOk hr2) hb2 he' hback
      rw [hlog] at e2
      refine ⟨e2, fun hh => ?_, fun hh n hn hp => ?_⟩
      · obtain ⟨f1, f2, f3⟩ := hlost hh
        rw [(gone_run ls' hq3 f2 f1 hl' hrun').2, f3, e2]
      · rw [NextVisit.unique hn (nextVisit_spec hr2 (((wheelOk hr2).shape.1 _).2 (show hand + 1 < 3600 by omega)))]
        have hage0 := hage.cyl 0
        have hruns : runsLeft { v with cylinderLine := 0 } = (runsLeft t).map (· - (startTicks k s.log).length) := by
          cases hx : runsLeft t with
          | none => exact hage0.forever (by rw [runsLeft_ask]; exact hx)
          | some r => exact (hage0.count r (by rw [runsLeft_ask]; exact hx) (fun h => h0 (by rw [hx, h]))).2
        have hne : runsLeft { v with cylinderLine := 0 } ≠ some 0 := by
          cases hx : runsLeft t with
          | none => rw [hruns, hx]; simp
          | some r =>
            obtain ⟨g1, g2⟩ := hage0.count r (by rw [runsLeft_ask]; exact hx) (fun h => h0 (by rw [hx, h]))
            rw [g2]; intro h; injection h; omega
        have hal : (fun j => alarm j { v with cylinderLine := 0 }) =
            fun j => alarm ((startTicks k s.log).length + j + 1) t := by
          funext j; exact hage0.alarms j
        have := (afoot_run rfl ls' (hr2.step hback) hq3 (hfoot hh) hl' hrun').starts rfl (hage0.limit.trans hlim) hne hp
        rw [hruns, hal, e2] at this
        exact this
    · exact absurd hu (by have := hq.epc; rw [he] at this; exact this)

/-! ## In unending executions -/

/-- What the event thread has taken out it puts back. -/
theorem borne_ends {env : Env} (c : Course env) (hfe : c.WeaklyFair (ByEvents · = true)) (hli : c.Listening) {k n : Nat}
    {t : Task} (hb : Borne k t (c.st n)) (hno : ∀ m l, n ≤ m → c.lab m = some l → ¬ Touches k l) :
    ∃ j hand, n ≤ j ∧ c.lab j = some .eNext ∧ (c.st j).epc = .adv2 t hand := by
  obtain ⟨m0, hm0, hq⟩ := C70_settles c hfe hli (k := k) (n := n) hno
  have hbusy : ∀ {s}, Borne k t s → BusyWith k s.epc := by
    intro s h
    rcases h.epc with he | ⟨hand, he⟩ <;> (rw [he]; exact h.id)
  obtain ⟨j, hj, h3, h4⟩ := course_exit c (fun s => BusyWith k s.epc) hm0 (hbusy hb)
    (fun h => (hq m0 (Nat.le_refl _)).epc h)
  obtain ⟨ls, f1, f2, _⟩ := between_mem c (n := n) (m := j) (P := fun l => ¬ Touches k l) hj (fun i l hi h => hno i l hi h)
  rcases borne_run ls hb f1 f2 with ⟨h5, _⟩ | h5
  · cases hl : c.lab j with
    | none => rw [course_rest c hl] at h4; exact absurd h3 h4
    | some l =>
      rcases borne_step h5 (hno j l hj hl) (step_act (course_step c hl)) with ⟨h6, _⟩ | ⟨rfl, hand, h6⟩
      · exact absurd (hbusy h6) h4
      · exact ⟨j, hand, hj, hl, h6⟩
  · exact absurd h3 h5.epc

/-- **C86** In an unending execution a repeating task is handed in once and advanced once. There is a moment at which the
event thread takes the advance. If the task then does not wait in the slot named by its mark, it is started again and
again for ever. If it does, there is a moment at which it is put back, without having been started in between. If the hand
that has been read was at the last slot, the task is never started again; otherwise it is started again and again for
ever. -/
theorem C86_for_ever {env : Env} (c : Course env) (hfe : c.WeaklyFair (ByEvents · = true))
    (hfs : c.WeaklyFair (ByScheduler · = true)) (hli : c.Listening) (htn : c.Turning) {k n0 n1 : Nat} {t : Task} {l : Label}
    (hlab : c.lab n0 = some l) (hin : HandsIn t l) (hk : t.taskId = k) (hv : t.valid = true)
    (hlim : t.maximumParallelRunnableNum = none) (hrep : runsLeft t = none) (ha : ∀ j, alarm j t ≠ none)
    (h01 : n0 < n1) (hadv : c.lab n1 = some (.uSend (.advance k)))
    (hno : ∀ m l, m ≠ n0 → m ≠ n1 → c.lab m = some l → ¬ Touches k l) :
    ∃ n rest, n1 < n ∧ c.lab n = some .eRecv ∧ (c.st n).chan = .advanceTask k :: rest ∧
      (¬ AtItsMark k (c.st n) → ∀ i, ∃ m0, ∀ m, m0 ≤ m → i < (startTicks k (c.st m).log).length) ∧
      (AtItsMark k (c.st n) → ∃ j u hand, n < j ∧ c.lab j = some .eNext ∧ (c.st j).epc = .adv2 u hand ∧ u.taskId = k ∧
        startTicks k (c.st j).log = startTicks k (c.st n).log ∧
        (3599 ≤ hand → ∀ m, j < m → startTicks k (c.st m).log = startTicks k (c.st n).log) ∧
        (hand < 3599 → ∀ i, ∃ m0, ∀ m, m0 ≤ m → i < (startTicks k (c.st m).log).length)) := by
  obtain ⟨n, rest, hn, hrecv, hchan⟩ := op_taken c hfe hli (Or.inr (Or.inl rfl)) hadv (fun m l hm h => hno m l (by omega) (by omega) h)
  cases ha' : alarm 0 t with
  | none => exact absurd ha' (ha 0)
  | some a =>
    obtain ⟨ls2, h2, hcnt, h1, hrun⟩ := called_once c hlab h01 hn hadv hno
    obtain ⟨D, _, hmiss, hhit⟩ := C86_verdict hin hk hv hlim (by rw [hrep]; simp) ha' h1 h2 hcnt hrun hchan
      (course_step c hrecv)
    have later : ∀ b m, n < b → b ≤ m → ∃ ls, (∀ l ∈ ls, ¬ Touches k l) ∧ run env (c.st b) ls = some (c.st m) := by
      intro b m hb hm
      obtain ⟨ls, f1, f2, _⟩ := between_mem c (n := b) (m := m) (P := fun l => ¬ Touches k l) hm
        (fun i l hi h => hno i l (by omega) (by omega) h)
      exact ⟨ls, f1, f2⟩
    -- a time table without end
    have endless : ∀ (b D : Nat) (al : Nat → Option Nat) (s0 : St), (∀ j, al j ≠ none) →
        (∀ m, b ≤ m → StartsOnSchedule k (timetable env.clock D al) s0 (c.st m)) →
        ∀ i, ∃ m0, ∀ m, m0 ≤ m → i < (startTicks k (c.st m).log).length := by
      intro b D al s0 hal hsch i
      obtain ⟨d, hd⟩ := timetable_some (clock := env.clock) (D := D) (alarms := al) i (fun j _ => hal _)
      obtain ⟨j, hj, htick⟩ := C71_turns c hfs htn b (d + 1)
      refine ⟨j, fun m hjm => ?_⟩
      obtain ⟨ns, e1, _, e3⟩ := hsch m (by omega)
      have h3 := course_ticks c hjm
      have h4 : d + 1 ≤ (c.st j).ticks := htick
      have := (List.getElem?_eq_some_iff.1 (e3 i d hd (by omega))).1
      rw [e1, List.length_append]; omega
    refine ⟨n, rest, hn, hrecv, hchan, fun hm => ?_, fun hm => ?_⟩
    · refine endless (n + 1) D _ (init env) (fun j => ha (j + 1)) (fun m hnm => ?_)
      obtain ⟨ls, f1, f2⟩ := later (n + 1) m (by omega) hnm
      have := hmiss hm ls _ f1 f2 (course_turns c htn m).2.1
      rw [hrep] at this; exact this
    · obtain ⟨D', A, R, hlife, hrest, _⟩ := taken_alive (Or.inr (Or.inl rfl)) hin hk hv ha' h1 h2 hcnt hrun hchan (course_step c hrecv)
      obtain ⟨v, D'', hsch, _⟩ := at_mark_sched hlife hm hlim
      obtain ⟨hb, _⟩ := advance_finds hchan hrest hm hsch (step_act (course_step c hrecv))
      obtain ⟨j, hand, hj, hnext, hepc⟩ := borne_ends c hfe hli hb (fun m l hm h => hno m l (by omega) (by omega) h)
      obtain ⟨ls, f1, f2⟩ := later (n + 1) j (by omega) hj
      have hid : ({ v with cylinderLine := 0 } : Task).taskId = k := hb.id
      refine ⟨j, _, hand, by omega, hnext, hepc, hid,
        (hhit hm ls _ _ _ _ [] _ f1 f2 hepc hid (course_step c hnext) (by simp) rfl).1, fun hh m hjm => ?_, fun hh => ?_⟩
      · obtain ⟨ls', g1, g2⟩ := later (j + 1) m (by omega) hjm
        exact (hhit hm ls _ _ _ _ ls' _ f1 f2 hepc hid (course_step c hnext) g1 g2).2.1 hh
      · have hr2 : Reachable env (c.st j) := course_reach c j
        refine endless (j + 1) (nextVisit (base (c.st j)) (hand + 1)) _ (c.st n) (fun i => ha ((startTicks k (c.st n).log).length + i + 1)) (fun m hjm => ?_)
        obtain ⟨ls', g1, g2⟩ := later (j + 1) m (by omega) hjm
        have := (hhit hm ls _ _ _ _ ls' _ f1 f2 hepc hid (course_step c hnext) g1 g2).2.2 hh _
          (nextVisit_spec hr2 (((wheelOk hr2).shape.1 _).2 (show hand + 1 < 3600 by omega))) (course_turns c htn m).2.1
        rw [hrep] at this; exact this

end DelayTimer

namespace DelayTimer.Ex

open Spec

/-- Task 1 is due, the scheduler has its id in its list, and has not taken it out of the wheel; it is advanced. -/
def nickAdv : List Label := add (every 1 101 5) ++ idles 2 ++ [.tLoad, .tStore, .tArrive, .uSend (.advance 1)]

/-- Task 1 is in the hands of the scheduler when it is advanced. -/
def heldAdv : List Label := add (every 1 101 5) ++ idles 2 ++ [.tLoad, .tStore, .tArrive, .tPop 1, .uSend (.advance 1)]

/-- C86, `C86_verdict`: an advance that comes in the nick of time puts the run off: instead of in tick 2, task 1 is started
in tick 3, and the alarms at 106, 111, … follow. -/
example : HandsIn (every 1 101 5) (.uSend (.add (every 1 101 5))) ∧ (every 1 101 5).valid = true ∧
    alarm 0 (every 1 101 5) = some 101 ∧ runsLeft (every 1 101 5) = none ∧
    (every 1 101 5).maximumParallelRunnableNum = none ∧
    nickAdv = [] ++ .uSend (.add (every 1 101 5)) :: nickAdv.tail ∧ (∀ l ∈ nickAdv.tail, OnlyCalls (.advance 1) 1 l) ∧
    callsFor 1 nickAdv.tail ≤ 1 ∧ run env0 (init env0) nickAdv = some (play env0 nickAdv) ∧
    (play env0 nickAdv).chan = .advanceTask 1 :: [] ∧
    step env0 (play env0 nickAdv) .eRecv = some (play env0 (nickAdv ++ [.eRecv])) ∧
    (play env0 nickAdv).tpc = .batch [1] ∧ AtItsMark 1 (play env0 nickAdv) ∧
    (∃ u, (play env0 (nickAdv ++ [.eRecv] ++ [.eNext])).epc = .adv2 u 2 ∧ u.taskId = 1) ∧
    startTicks 1 (play env0 (nickAdv ++ [.eRecv, .eNext, .eNext, .tPop 1, .tLapse] ++ fire 1 1 ++ idles 3 ++ fire 1 2)).log =
      [3, 7] :=
  ⟨Or.inl rfl, rfl, rfl, rfl, rfl, rfl, at_most (q := nickAdv.tail.dropLast) rfl (by decide +kernel), by decide +kernel,
    play_run (by rfl), rfl, rfl, rfl, ⟨_, _, _, rfl, rfl, List.mem_cons_self, rfl⟩, ⟨_, rfl, rfl⟩, by decide +kernel⟩

/-- C86, `C86_verdict`: advancing a task that the scheduler is handling does nothing: the next start is in tick 7. -/
example : (∀ l ∈ heldAdv.tail, OnlyCalls (.advance 1) 1 l) ∧
    callsFor 1 heldAdv.tail ≤ 1 ∧ run env0 (init env0) heldAdv = some (play env0 heldAdv) ∧
    (play env0 heldAdv).chan = .advanceTask 1 :: [] ∧
    step env0 (play env0 heldAdv) .eRecv = some (play env0 (heldAdv ++ [.eRecv])) ∧ ¬ AtItsMark 1 (play env0 heldAdv) ∧
    startTicks 1 (play env0 (heldAdv ++ [.eRecv] ++ [.tCheck 1, .tSpawn false, .tAppend, .tGate, .tSlot, .tMark, .tLapse] ++
      idles 4 ++ fire 1 2)).log = [2, 7] := by
  have hm : ∀ l ∈ heldAdv.tail, OnlyCalls (.advance 1) 1 l := at_most (q := heldAdv.tail.dropLast) rfl (by decide +kernel)
  refine ⟨hm, by decide +kernel, play_run (by rfl), rfl, rfl, ?_, by decide +kernel⟩
  rintro ⟨m, sl, v, hfl, hw, hv, hk⟩
  have := (once_single (ls1 := []) (ls2 := heldAdv.tail) (l := .uSend (.add (every 1 101 5))) (Or.inr rfl) (Or.inl rfl) (by simp)
    hm (play_run (env := env0) (ls := heldAdv) (by rfl))).excl _ _ ⟨sl, hw, hv, hk⟩
  revert this
  decide +kernel

/-- C86, `C86_for_ever`: unending executions that begin in either way. -/
example (pre : List Label) (hp : pre = nickAdv ∨ pre = heldAdv) :
    ∃ c : Course env0, c.WeaklyFair (ByEvents · = true) ∧ c.WeaklyFair (ByScheduler · = true) ∧ c.Listening ∧ c.Turning ∧
    c.st pre.length = play env0 pre ∧
    c.lab 0 = some (.uSend (.add (every 1 101 5))) ∧ ∃ n1, 0 < n1 ∧ c.lab n1 = some (.uSend (.advance 1)) ∧
      (∀ m l, m ≠ 0 → m ≠ n1 → c.lab m = some l → ¬ Touches 1 l) ∧ ∀ j, alarm j (every 1 101 5) ≠ none := by
  have ha : ∀ j, alarm j (every 1 101 5) ≠ none := fun j => by
    rw [alarm_seconds_new 0 101 5 (by omega) (by omega) (every 1 101 5) (Or.inl rfl)]
    simp
  rcases hp with rfl | rfl
  · obtain ⟨c, h1, h2, h3, h4, h5, h6, h8, h7⟩ := verdict_course (pre := nickAdv)
      (q := nickAdv.tail.dropLast) (op := .advance 1) (by rfl) (by simp) rfl (by decide +kernel)
    exact ⟨c, h1, h2, h3, h4, h8, h5, _, Nat.succ_pos _, h6, h7, ha⟩
  · obtain ⟨c, h1, h2, h3, h4, h5, h6, h8, h7⟩ := verdict_course (pre := heldAdv)
      (q := heldAdv.tail.dropLast) (op := .advance 1) (by rfl) (by simp) rfl (by decide +kernel)
    exact ⟨c, h1, h2, h3, h4, h8, h5, _, Nat.succ_pos _, h6, h7, ha⟩

end DelayTimer.Ex
