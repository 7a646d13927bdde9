import Verif.Proofs.Updating
import Verif.Props.Advancement

/-!
# Exactly what an update does (C87)

A task is handed in once and updated once, at any moment. What the update does is decided by one look at the moment the
event thread takes it. If the old task waits in the slot named by its mark, the new one takes its place. If the old task is
over and its mark is left, the new one is put into the slot named by this old mark. If there is no mark, the update does
nothing.
-/

namespace DelayTimer
open Spec

/-- A task alone in its slot: what is started from then on. -/
theorem updated_run {env : Env} {k d : Nat} {u : Task} {s s1 s' : St} {ls : List Label} (hr : Reachable env s1)
    (hq : Quiet k s1) (hsch : Sched k u d s1) (e2 : startTicks k s1.log = startTicks k s.log)
    (e3 : startRoutines k s1.log = startRoutines k s.log) (hlim : u.maximumParallelRunnableNum = none)
    (h0 : runsLeft u ≠ some 0) (hl : ∀ l ∈ ls, ¬ Touches k l) (hrun : run env s1 ls = some s') :
    (∃ rs, startRoutines k s'.log = startRoutines k s.log ++ rs ∧ ∀ r ∈ rs, r = u.routine) ∧
    (s'.tpc ≠ .panicked →
      StartsOnSchedule k (cut (runsLeft u) (timetable env.clock d (fun j => alarm j u))) s s') := by
  have hlife := (life_run ls hr hq (hsch.life (M := False) False.elim rfl e2 e3) hl hrun).1
  refine ⟨?_, fun hp => hlife.starts hlim h0 hp⟩
  obtain ⟨⟨ns, ds, _, _, h2, _⟩, _⟩ := hlife
  refine ⟨_, h2, fun r hr => ?_⟩
  obtain ⟨_, _, rfl⟩ := List.mem_map.1 hr
  rfl

/-- **C87** A task without parallel limit is handed in once and updated once. There is one time table that its starts
follow until the event thread takes the update. If the task then waits in the slot named by its mark, the old body is never
started again; the new one is first started when the old one would have been, or a number of whole revolutions earlier: in
this tick if the scheduler has already listed it, otherwise at the next visit of the slot; then it follows its own alarms,
as often as its own count says. If the task is nowhere any more, its mark is still there, and the new one is first started at
the next visit of the slot that it names. -/
theorem C87_verdict {env : Env} {k a : Nat} {t u : Task} {ls1 ls2 : List Label} {l : Label} {s s1 : St}
    {rest : List TimerEvent} (hin : HandsIn t l) (hk : t.taskId = k) (hv : t.valid = true)
    (hlim : t.maximumParallelRunnableNum = none) (h0 : runsLeft t ≠ some 0) (ha : alarm 0 t = some a)
    (hku : u.taskId = k) (hvu : u.valid = true) (hcy : u.cylinderLine = 0)
    (hlimu : u.maximumParallelRunnableNum = none) (h0u : runsLeft u ≠ some 0)
    (h1 : ∀ l ∈ ls1, ¬ Touches k l) (h2 : ∀ l ∈ ls2, OnlyCalls (.update u) k l) (hn : callsFor k ls2 ≤ 1)
    (hr : run env (init env) (ls1 ++ l :: ls2) = some s) (hc : s.chan = .updateTask u :: rest)
    (hs : step env s .eRecv = some s1) :
    ∃ D, (s.tpc ≠ .panicked →
        StartsOnSchedule k (cut (runsLeft t) (timetable env.clock D (fun j => alarm (j + 1) t))) (init env) s) ∧
      (AtItsMark k s → ∃ d c, (Handling k s.tpc → d = s.ticks ∧ c = 0) ∧
        (¬ Handling k s.tpc → ∀ m, s.flags k = some m → NextVisit s m.slotMark d) ∧
        (s.tpc ≠ .panicked →
          timetable env.clock D (fun j => alarm (j + 1) t) (startTicks k s.log).length = some (d + 3600 * c)) ∧
        ∀ ls s', (∀ l ∈ ls, ¬ Touches k l) → run env s1 ls = some s' →
          (∃ rs, startRoutines k s'.log = startRoutines k s.log ++ rs ∧ ∀ r ∈ rs, r = u.routine) ∧
          (s'.tpc ≠ .panicked →
            StartsOnSchedule k (cut (runsLeft u) (timetable env.clock d (fun j => alarm j u))) s s')) ∧
      (Absent k s → ∃ m d, s.flags k = some m ∧ NextVisit s m.slotMark d ∧
        ∀ ls s', (∀ l ∈ ls, ¬ Touches k l) → run env s1 ls = some s' →
          (∃ rs, startRoutines k s'.log = startRoutines k s.log ++ rs ∧ ∀ r ∈ rs, r = u.routine) ∧
          (s'.tpc ≠ .panicked →
            StartsOnSchedule k (cut (runsLeft u) (timetable env.clock d (fun j => alarm j u))) s s')) := by
  obtain ⟨D, A, R, hlife, hrest, hmark⟩ := taken_alive (Or.inr (Or.inr ⟨u, rfl, hku⟩)) hin hk hv ha h1 h2 hn hr hc hs
  have hreach : Reachable env s := ⟨_, hr⟩
  have h0' : runsLeft t.getNextExecTimestamp.2 ≠ some 0 := by rw [runsLeft_ask]; exact h0
  have sched : ∀ s', Life False env.clock k t.getNextExecTimestamp.2 D A [] R s' → s'.tpc ≠ .panicked →
      StartsOnSchedule k (cut (runsLeft t) (timetable env.clock D (fun j => alarm (j + 1) t))) (init env) s' := by
    intro s' h hp
    have := h.starts hlim h0' hp
    rw [runsLeft_ask] at this
    exact this
  refine ⟨D, sched s hlife, fun hm => ?_, fun hab => ?_⟩
  · obtain ⟨m, sl, v, hfl, hw, hv', hkv⟩ := hm
    have hin' : inWheel s.wheel k m.slotMark v := ⟨sl, hw, hv', hkv⟩
    obtain ⟨⟨ns, ds, _, hS, _, _, _, hP⟩, _⟩ := hlife
    rw [List.nil_append] at hS
    cases hP with
    | fly _ _ hf _ _ _ => exact absurd hin' (hf.nowhere _ _)
    | gone _ hn _ _ _ _ => exact absurd hin' (hn _ _)
    | sched w D' hsch hD _ _ hall =>
      rw [← hall hlim, ← hS] at hD
      obtain ⟨hval, htok, i, c, h3, h4, h5⟩ := hsch
      have hi : m.slotMark = i := (h4 _ _ hin').1
      have hhand : Handling k s.tpc ↔ k ∈ pendingOf s.tpc := by
        revert htok
        cases s.tpc <;> simp [Handling, tpcTok, pendingOf] <;> (intro h1 h2; exact absurd h2 h1)
      have hpend : k ∈ pendingOf s.tpc → m.slotMark = s.secondHand ∧ past s.tpc = true := by
        intro hp
        rcases h5 with ⟨h6, _⟩ | ⟨_, h6, _, _, h7⟩
        · exact absurd hp h6
        · exact ⟨hi.trans h6, h7⟩
      obtain ⟨hs1, e1, e2, e3, e4, e5⟩ := update_puts hc hku hvu hcy hfl hw (fun j v hj => (h4 _ _ hj).1.trans hi.symm) htok
        hpend (step_act hs)
      refine ⟨_, if k ∈ pendingOf s.tpc then 0 else c, fun hp => ?_, fun hp m' hm' => ?_, fun hnp => ?_, fun ls s' hl hrun =>
        updated_run (hreach.step hs) ⟨by rw [e1]; exact hrest, by rw [e2]; exact id⟩ hs1 e4 e5 hlimu h0u hl hrun⟩
      · rw [if_pos (hhand.1 hp), if_pos (hhand.1 hp)]; exact ⟨rfl, rfl⟩
      · rw [hfl] at hm'; cases hm'
        rw [if_neg (fun h => hp (hhand.2 h))]
        exact nextVisit_spec hreach (by rw [hw]; rfl)
      · rw [show (fun j => alarm (j + 1) t) = fun j => alarm j t.getNextExecTimestamp.2 from rfl, hD]
        by_cases hp : k ∈ pendingOf s.tpc
        · rw [if_pos hp, if_pos hp]
          rcases h5 with ⟨h6, _⟩ | ⟨_, _, _, h6, _⟩
          · exact absurd hp h6
          · rw [h6]; rfl
        · rw [if_neg hp, if_neg hp]
          rcases h5 with ⟨_, h6⟩ | ⟨h6, h7, h8, h9, h10⟩
          · rw [h6, hi]
          · exact absurd h6 (not_or.2 ⟨hp, hnp⟩)
  · obtain ⟨m, hf⟩ := Option.ne_none_iff_exists'.1 hmark
    obtain ⟨f1, f2, f3⟩ := absent_iff.1 hab
    have hlt := (marksLow hreach).flags k m hf
    cases hw : s.wheel m.slotMark with
    | none => have := ((wheelOk hreach).shape.1 m.slotMark).2 hlt; rw [hw] at this; cases this
    | some sl =>
      obtain ⟨hs1, e1, e2, e3, e4, e5⟩ := update_puts hc hku hvu hcy hf hw (fun j v hj => absurd hj (f1 _ _)) f2
        (fun h => absurd h f3) (step_act hs)
      rw [if_neg f3] at hs1
      exact ⟨m, _, hf, nextVisit_spec hreach (by rw [hw]; rfl), fun ls s' hl hrun => updated_run (hreach.step hs) ⟨by rw [e1]; exact hrest, by rw [e2]; exact id⟩ hs1 e4 e5
        hlimu h0u hl hrun⟩

/-! ## In unending executions -/

/-- A task whose starts follow an endless time table is started again and again. -/
theorem endless_starts {env : Env} (c : Course env) (hfs : c.WeaklyFair (ByScheduler · = true)) (htn : c.Turning)
    {k b D : Nat} {al : Nat → Option Nat} {s0 : St} (hal : ∀ j, al j ≠ none)
    (hsch : ∀ m, b ≤ m → StartsOnSchedule k (timetable env.clock D al) s0 (c.st m)) (i : Nat) :
    ∃ m0, ∀ m, m0 ≤ m → (startTicks k s0.log).length + i < (startTicks k (c.st m).log).length := by
  obtain ⟨d, hd⟩ := timetable_some (clock := env.clock) (D := D) (alarms := al) i (fun j _ => hal _)
  obtain ⟨j, hj, htick⟩ := C71_turns c hfs htn b (d + 1)
  refine ⟨j, fun m hjm => ?_⟩
  obtain ⟨ns, e1, _, e3⟩ := hsch m (by omega)
  have h3 := course_ticks c hjm
  have h4 : d + 1 ≤ (c.st j).ticks := htick
  have := (List.getElem?_eq_some_iff.1 (e3 i d hd (by omega))).1
  rw [e1, List.length_append]; omega

/-- **C87** In an unending execution a task is handed in once and updated once by a repeating task. There is a moment at
which the event thread takes the update. If the old task then waits in the slot named by its mark, or is nowhere any more,
only the new body is started from then on, and it is started again and again for ever. -/
theorem C87_for_ever {env : Env} (c : Course env) (hfe : c.WeaklyFair (ByEvents · = true))
    (hfs : c.WeaklyFair (ByScheduler · = true)) (hli : c.Listening) (htn : c.Turning) {k n0 n1 a : Nat} {t u : Task}
    {l : Label} (hlab : c.lab n0 = some l) (hin : HandsIn t l) (hk : t.taskId = k) (hv : t.valid = true)
    (hlim : t.maximumParallelRunnableNum = none) (h0 : runsLeft t ≠ some 0) (ha : alarm 0 t = some a)
    (hku : u.taskId = k) (hvu : u.valid = true) (hcy : u.cylinderLine = 0)
    (hlimu : u.maximumParallelRunnableNum = none) (hrep : runsLeft u = none) (hau : ∀ j, alarm j u ≠ none)
    (h01 : n0 < n1) (hupd : c.lab n1 = some (.uSend (.update u)))
    (hno : ∀ m l, m ≠ n0 → m ≠ n1 → c.lab m = some l → ¬ Touches k l) :
    ∃ n rest, n1 < n ∧ c.lab n = some .eRecv ∧ (c.st n).chan = .updateTask u :: rest ∧
      (AtItsMark k (c.st n) ∨ Absent k (c.st n) →
        (∀ m, n < m → ∃ rs, startRoutines k (c.st m).log = startRoutines k (c.st n).log ++ rs ∧ ∀ r ∈ rs, r = u.routine) ∧
        ∀ i, ∃ m0, ∀ m, m0 ≤ m →
          (startTicks k (c.st n).log).length + i < (startTicks k (c.st m).log).length) := by
  obtain ⟨n, rest, hn, hrecv, hchan⟩ := op_taken c hfe hli (Or.inr (Or.inr ⟨u, rfl, hku⟩)) hupd
    (fun m l hm h => hno m l (by omega) (by omega) h)
  obtain ⟨ls2, h2, hcnt, h1, hrun⟩ := called_once c hlab h01 hn hupd hno
  obtain ⟨D, _, hhit, hdead⟩ := C87_verdict hin hk hv hlim h0 ha hku hvu hcy hlimu (by rw [hrep]; simp) h1 h2 hcnt hrun
    hchan (course_step c hrecv)
  refine ⟨n, rest, hn, hrecv, hchan, fun hcase => ?_⟩
  have hboth : ∃ d, ∀ ls s', (∀ l ∈ ls, ¬ Touches k l) → run env (c.st (n + 1)) ls = some s' →
      (∃ rs, startRoutines k s'.log = startRoutines k (c.st n).log ++ rs ∧ ∀ r ∈ rs, r = u.routine) ∧
      (s'.tpc ≠ .panicked →
        StartsOnSchedule k (cut (runsLeft u) (timetable env.clock d (fun j => alarm j u))) (c.st n) s') := by
    rcases hcase with hm | hm
    · obtain ⟨d, _, _, _, _, h⟩ := hhit hm
      exact ⟨d, h⟩
    · obtain ⟨_, d, _, _, h⟩ := hdead hm
      exact ⟨d, h⟩
  obtain ⟨d, hd⟩ := hboth
  have later : ∀ m, n < m → ∃ ls, (∀ l ∈ ls, ¬ Touches k l) ∧ run env (c.st (n + 1)) ls = some (c.st m) := by
    intro m hm
    obtain ⟨ls, f1, f2, _⟩ := between_mem c (n := n + 1) (m := m) (P := fun l => ¬ Touches k l) hm
      (fun i l hi h => hno i l (by omega) (by omega) h)
    exact ⟨ls, f1, f2⟩
  refine ⟨fun m hm => ?_, endless_starts c hfs htn (b := n + 1) (D := d) hau (fun m hm => ?_)⟩
  · obtain ⟨ls, f1, f2⟩ := later m hm
    exact (hd ls _ f1 f2).1
  · obtain ⟨ls, f1, f2⟩ := later m hm
    have := (hd ls _ f1 f2).2 (course_turns c htn m).2.1
    rw [hrep] at this; exact this

end DelayTimer

namespace DelayTimer.Ex

open Spec

/-- The new task: another body, alarms at 110, 113, … -/
def freshT : Task := { every 1 110 3 with routine := 9 }

/-- Task 1 is due, the scheduler has its id in its list, and has not taken it out of the wheel; it is updated. -/
def nickUpd : List Label := add (every 1 101 5) ++ idles 2 ++ [.tLoad, .tStore, .tArrive, .uSend (.update freshT)]

/-- A task that is to run once has run; it is updated. -/
def deadUpd : List Label := add (times 1 1 101 5) ++ idles 2 ++ pop 1 1 ++ [.tLapse, .eRecv] ++ [.uSend (.update freshT)]

/-- C87, `C87_verdict`: an update that comes in the nick of time: the new body is started in tick 2, when the old one was
due, and the alarms at 110, 113, … follow. -/
example : HandsIn (every 1 101 5) (.uSend (.add (every 1 101 5))) ∧ (every 1 101 5).valid = true ∧
    alarm 0 (every 1 101 5) = some 101 ∧ runsLeft (every 1 101 5) = none ∧
    (every 1 101 5).maximumParallelRunnableNum = none ∧ freshT.taskId = 1 ∧ freshT.valid = true ∧
    freshT.cylinderLine = 0 ∧ freshT.maximumParallelRunnableNum = none ∧ runsLeft freshT = none ∧
    nickUpd = [] ++ .uSend (.add (every 1 101 5)) :: nickUpd.tail ∧ (∀ l ∈ nickUpd.tail, OnlyCalls (.update freshT) 1 l) ∧
    callsFor 1 nickUpd.tail ≤ 1 ∧ run env0 (init env0) nickUpd = some (play env0 nickUpd) ∧
    (play env0 nickUpd).chan = .updateTask freshT :: [] ∧
    step env0 (play env0 nickUpd) .eRecv = some (play env0 (nickUpd ++ [.eRecv])) ∧
    (play env0 nickUpd).tpc = .batch [1] ∧ AtItsMark 1 (play env0 nickUpd) ∧
    startTicks 1 (play env0 (nickUpd ++ [.eRecv, .tPop 1, .tCheck 1, .tSpawn false, .tAppend, .tGate, .tSlot, .tMark, .tLapse] ++
      idles 8 ++ fire 1 2)).log = [2, 11] ∧
    startRoutines 1 (play env0 (nickUpd ++ [.eRecv, .tPop 1, .tCheck 1, .tSpawn false, .tAppend, .tGate, .tSlot, .tMark, .tLapse] ++
      idles 8 ++ fire 1 2)).log = [9, 9] :=
  ⟨Or.inl rfl, rfl, rfl, rfl, rfl, rfl, rfl, rfl, rfl, rfl, rfl, at_most (q := nickUpd.tail.dropLast) rfl (by decide +kernel),
    by decide +kernel, play_run (by rfl), rfl, rfl, rfl, ⟨_, _, _, rfl, rfl, List.mem_cons_self, rfl⟩, by decide +kernel,
    by decide +kernel⟩

/-- C87, `C87_verdict`: a task that has had its only run, in tick 2, has left its mark. An update brings it back to life:
but the new body has to wait until the hand comes round to the old slot. -/
example : runsLeft (times 1 1 101 5) = some 1 ∧ alarm 0 (times 1 1 101 5) = some 101 ∧
    deadUpd = [] ++ .uSend (.add (times 1 1 101 5)) :: deadUpd.tail ∧ (∀ l ∈ deadUpd.tail, OnlyCalls (.update freshT) 1 l) ∧
    callsFor 1 deadUpd.tail ≤ 1 ∧ run env0 (init env0) deadUpd = some (play env0 deadUpd) ∧
    (play env0 deadUpd).chan = .updateTask freshT :: [] ∧
    step env0 (play env0 deadUpd) .eRecv = some (play env0 (deadUpd ++ [.eRecv])) ∧
    startTicks 1 (play env0 deadUpd).log = [2] ∧ Absent 1 (play env0 deadUpd) ∧ NextVisit (play env0 deadUpd) 2 3602 ∧
    ((play env0 deadUpd).flags 1).map (·.slotMark) = some 2 := by
  refine ⟨rfl, rfl, rfl, at_most (q := deadUpd.tail.dropLast) rfl (by decide +kernel), by decide +kernel, play_run (by rfl),
    rfl, rfl, by decide +kernel, ?_, ?_, rfl⟩
  · have h1 : (play env0 deadUpd).tpc = .head := by rfl
    exact ⟨not_waiting (play_reachable (by rfl)) (by decide +kernel), by rw [h1]; exact id⟩
  · have h1 : (play env0 deadUpd).tpc = .head := by rfl
    have h2 : (play env0 deadUpd).ticks = 3 := by rfl
    unfold NextVisit
    rw [h1, h2]; decide

/-- C87, `C87_for_ever`: an unending execution that begins like the first one. -/
example : ∃ c : Course env0, c.WeaklyFair (ByEvents · = true) ∧ c.WeaklyFair (ByScheduler · = true) ∧ c.Listening ∧ c.Turning ∧
    c.st nickUpd.length = play env0 nickUpd ∧
    c.lab 0 = some (.uSend (.add (every 1 101 5))) ∧ ∃ n1, 0 < n1 ∧ c.lab n1 = some (.uSend (.update freshT)) ∧
      (∀ m l, m ≠ 0 → m ≠ n1 → c.lab m = some l → ¬ Touches 1 l) ∧ ∀ j, alarm j freshT ≠ none := by
  have ha : ∀ j, alarm j freshT ≠ none := fun j => by
    rw [alarm_seconds_new 0 110 3 (by omega) (by omega) freshT (Or.inl rfl)]
    simp
  obtain ⟨c, h1, h2, h3, h4, h5, h6, h8, h7⟩ := verdict_course (pre := nickUpd)
    (q := nickUpd.tail.dropLast) (op := .update freshT) (by rfl) (by simp) rfl (by decide +kernel)
  exact ⟨c, h1, h2, h3, h4, h8, h5, _, Nat.succ_pos _, h6, h7, ha⟩

end DelayTimer.Ex
