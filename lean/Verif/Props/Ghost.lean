import Verif.Proofs.Forgotten
import Verif.Proofs.Hand
import Verif.Props.Operations
import Verif.Props.FairCourse
import Verif.Props.FairCalls
import Verif.Props.Advance
import Verif.Spec.Ghost

/-!
# Removals that miss (C81)

A removal that is taken while the scheduler has the task in its hands, or while the record of the task points to
another slot, misses it. It drops the record all the same, and so the task goes on for ever by its time table: no
removal, update or advance reaches it any more.
-/

namespace DelayTimer
open Spec

/-- A removal that finds no copy in the recorded slot. -/
theorem removal_misses {env : Env} {k : Nat} {s s1 : St} {rest : List TimerEvent} (hc : s.chan = .removeTask k :: rest)
    (hrest : ∀ e ∈ rest, ¬ EventAdds k e) (hm : ∀ m u, s.flags k = some m → ¬ inWheel s.wheel k m.slotMark u)
    (h1 : Act env s .eRecv s1) : Forgotten k s1 ∧ Idle k s s1 := by
  cases h1
  all_goals (
    have hx := hc.symm.trans ‹s.chan = _›
    injection hx with hx hy
    try (cases hx; done))
  case recv_remove_skip id rest' he hc' hs =>
    cases hx; subst hy
    exact ⟨⟨Or.inr ⟨_, rfl⟩, hrest, trivial⟩, fun _ _ => Iff.rfl, rfl, rfl, rfl, rfl, rfl, rfl⟩
  case recv_remove id rest' m sl he hc' hf hw =>
    cases hx; subst hy
    refine ⟨⟨Or.inr ⟨_, rfl⟩, hrest, trivial⟩, fun j u => ?_, rfl, rfl, rfl, rfl, rfl, rfl⟩
    rw [show St.wheel _ = _ from rfl, inWheel_remove hw]
    refine ⟨fun h => h.1, fun h => ⟨h, ?_⟩⟩
    intro hj
    subst hj
    exact absurd h (hm m u hf)

/-- Who is past the start of a body in this tick has been started in it. -/
def StartedNow (s : St) : Prop :=
  ∀ t, (∃ p b, s.tpc = .append p t b) ∨ (∃ p r, s.tpc = .gate p t r) ∨
      ((∃ p b, s.tpc = .rearm p t b) ∧ t.maximumParallelRunnableNum = none) →
    ∃ S R, startTicks t.taskId s.log = S ++ [s.ticks] ∧ startRoutines t.taskId s.log = R ++ [t.routine]

theorem startedNow {env : Env} {s : St} (h : Reachable env s) : StartedNow s := by
  refine Reachable.induct StartedNow (by rintro t (⟨_, _, h⟩ | ⟨_, _, h⟩ | ⟨⟨_, _, h⟩, _⟩) <;> cases h) ?_ s h
  intro s l s' hr hs h
  by_cases hl : TLabel l
  · cases h
    all_goals try (exact False.elim hl)
    case spawn pending t rec h =>
      rintro u (⟨_, _, h⟩ | ⟨_, _, h⟩ | ⟨⟨_, _, h⟩, _⟩) <;> cases h
      exact ⟨_, _, by simp [startTicks]; rfl, by simp [startRoutines]; rfl⟩
    case append pending t box h =>
      rintro u (⟨_, _, h⟩ | ⟨_, _, h⟩ | ⟨⟨_, _, h⟩, _⟩) <;> cases h
      simpa [startTicks, startRoutines] using hs t (Or.inl ⟨_, _, ‹_›⟩)
    case gate_again pending t t' rec h hd =>
      rintro u (⟨_, _, h⟩ | ⟨_, _, h⟩ | ⟨⟨_, _, h⟩, _⟩) <;> cases h
      obtain ⟨_, _, _, e1, e2, _⟩ := down_runs hd
      rw [e1, e2]
      exact hs t (Or.inr (Or.inl ⟨_, _, ‹_›⟩))
    case check_skip pending t rec k m h hrec hlim hf hn =>
      rintro u (⟨_, _, h⟩ | ⟨_, _, h⟩ | ⟨⟨_, _, h⟩, hu⟩) <;> cases h
      rw [hlim] at hu; cases hu
    all_goals (rintro u (⟨_, _, h⟩ | ⟨_, _, h⟩ | ⟨⟨_, _, h⟩, _⟩) <;> cases h)
  · obtain ⟨e1, e2, _⟩ := other_thread h hl
    intro t ht
    rw [e1] at ht
    rw [e2]
    rcases starts_step t.taskId h with e | ⟨e, _⟩
    · rw [e.1, e.2]; exact hs t ht
    · subst e; exact absurd trivial hl

theorem bump (oc : Bool) {t : Task} (hv : t.valid = true) (h0 : runsLeft t ≠ some 0) :
    ∃ t0 : Task, t0.downCountAndSetValid oc = some (true, t) ∧ runsLeft t0 ≠ some 0 := by
  obtain ⟨id, r, f, m, c, v, p⟩ := t
  cases hv
  cases f with
  | cronRepeated ci => exact ⟨⟨id, r, .cronRepeated ci, m, c, true, p⟩, rfl, by simp [runsLeft]⟩
  | secondsRepeated ci => exact ⟨⟨id, r, .secondsRepeated ci, m, c, true, p⟩, rfl, by simp [runsLeft]⟩
  | cronCountDown n ci =>
    refine ⟨⟨id, r, .cronCountDown (n + 1) ci, m, c, true, p⟩, ?_, by simp [runsLeft]⟩
    cases n with
    | zero => exact absurd rfl h0
    | succ n => rfl
  | secondsCountDown n ci =>
    refine ⟨⟨id, r, .secondsCountDown (n + 1) ci, m, c, true, p⟩, ?_, by simp [runsLeft]⟩
    cases n with
    | zero => exact absurd rfl h0
    | succ n => rfl

theorem timetable_next {clock : Nat → Nat} {n : Nat} {t : Task} (i : Nat) :
    timetable clock n (fun j => alarm j t) (i + 1) = nextTable clock n t i := by
  induction i with
  | zero => rw [nextTable_zero]; simp only [timetable]; cases alarm 0 t <;> rfl
  | succ i ih => rw [nextTable_succ, ← ih]; rfl

/-- The life of a task in the hands of the scheduler, seen from its present run. -/
theorem held_life {env : Env} {k : Nat} {s : St} {t : Task} (hr : Reachable env s) (hh : heldTask s.tpc = some t)
    (hk : t.taskId = k) (hv : t.valid = true) (hw : ¬ Waiting k s) (hlim : t.maximumParallelRunnableNum = none)
    (h0 : runsLeft t ≠ some 0) :
    ∃ t0 A0 S0 R0 c, Life False env.clock k t0 s.ticks A0 S0 R0 s ∧ t0.maximumParallelRunnableNum = none ∧
      runsLeft t0 ≠ some 0 ∧ startTicks k s.log = S0 ++ c ∧
      ∀ i, startsAhead env.clock s.ticks t s.tpc i =
        cut (runsLeft t0) (timetable env.clock s.ticks (fun j => alarm j t0)) (i + c.length) := by
  have htok : tpcTok k s.tpc = [t] := by
    revert hh; cases s.tpc <;> intro hh <;> cases hh <;> simp [tpcTok, hk]
  obtain ⟨A0, hA⟩ := (handOk hr).last k (by rw [htok]; simp)
  have hfly : Fly k t s :=
    ⟨htok, (handOk hr).notPending k (by rw [htok]; simp), fun j u ⟨sl, h⟩ => hw ⟨j, sl, u, h⟩, hv⟩
  have hT : ∀ t0 : Task, ∀ i n, [s.ticks][i]? = some n → timetable env.clock s.ticks (fun j => alarm j t0) i = some n := by
    intro t0 i n hi
    cases i with
    | zero => exact hi
    | succ i => cases hi
  -- before the start
  have early : (∃ p, s.tpc = .check p t) ∨ (∃ p r, s.tpc = .spawn p t r) →
      Life False env.clock k t s.ticks A0 (startTicks k s.log) (startRoutines k s.log) s := by
    intro h
    refine ⟨⟨[s.ticks], [], hA, by simp, by simp, hT t, by simp, .fly t [] hfly rfl rfl ?_⟩, False.elim⟩
    rcases h with ⟨p, h⟩ | ⟨p, r, h⟩ <;> (rw [h]; exact ⟨Aged.refl t, List.Sublist.refl _, fun _ => rfl⟩)
  have now := startedNow hr t
  rw [hk] at now
  have late : (∃ p b, s.tpc = .append p t b) ∨ (∃ p r, s.tpc = .gate p t r) →
      ∃ S R, startTicks k s.log = S ++ [s.ticks] ∧ Life False env.clock k t s.ticks A0 S R s := by
    intro h
    obtain ⟨S, R, hS, hR⟩ := now (h.imp_right Or.inl)
    refine ⟨S, R, hS, ⟨[s.ticks], [s.ticks], hA, hS, hR, hT t, by simp, .fly t [] hfly rfl rfl ?_⟩, False.elim⟩
    rcases h with ⟨p, b, h⟩ | ⟨p, r, h⟩ <;>
      (rw [h]; exact ⟨[], rfl, Aged.refl t, List.Sublist.refl _, fun _ => rfl⟩)
  cases hp : s.tpc with
  | check p u =>
    rw [hp] at hh; cases hh
    exact ⟨t, A0, _, _, [], early (Or.inl ⟨_, hp⟩), hlim, h0, by simp, fun i => rfl⟩
  | spawn p u r =>
    rw [hp] at hh; cases hh
    exact ⟨t, A0, _, _, [], early (Or.inr ⟨_, _, hp⟩), hlim, h0, by simp, fun i => rfl⟩
  | append p u b =>
    rw [hp] at hh; cases hh
    obtain ⟨S, R, h1, h2⟩ := late (Or.inl ⟨_, _, hp⟩)
    exact ⟨t, A0, S, R, [s.ticks], h2, hlim, h0, h1, fun i => rfl⟩
  | gate p u r =>
    rw [hp] at hh; cases hh
    obtain ⟨S, R, h1, h2⟩ := late (Or.inr ⟨_, _, hp⟩)
    exact ⟨t, A0, S, R, [s.ticks], h2, hlim, h0, h1, fun i => rfl⟩
  | rearm p u b =>
    rw [hp] at hh; cases hh
    obtain ⟨S, R, hS, hR⟩ := now (Or.inr (Or.inr ⟨⟨_, _, hp⟩, hlim⟩))
    obtain ⟨t0, hd, hz⟩ := bump false hv h0
    obtain ⟨e1, e2, _, _, e5, e6, _⟩ := down_runs hd
    have ha := ((Aged.refl t0).down hd).1
    refine ⟨t0, A0, S, R, [s.ticks], ⟨⟨[s.ticks], [s.ticks], hA, hS, by simpa [← e5] using hR, hT t0, by simp,
      .fly t [] hfly rfl rfl ?_⟩, False.elim⟩, by rw [← e6]; exact hlim, hz, hS, fun i => ?_⟩
    · rw [hp]; exact ⟨ha, by simp, fun _ => rfl⟩
    · show cut (runsLeft t) (nextTable env.clock s.ticks t) i = _
      have hal : (fun j => alarm j t0) = fun j => alarm j t := by
        funext j; exact (alarm_downCount false j t0 t true hd).symm
      rw [hal]
      simp only [List.length_singleton]
      cases hrt : runsLeft t0 with
      | none => rw [(e1 hrt).2]; exact (timetable_next i).symm
      | some r =>
        cases r with
        | zero => exact absurd hrt hz
        | succ r =>
          rw [(e2 r hrt).1]
          simp only [cut, timetable_next]
          by_cases h : i < r <;> simp [h]
  | _ => rw [hp] at hh; cases hh

/-- What follows from the life of a task about its starts. -/
theorem Life.starts {clock : Nat → Nat} {k : Nat} {t0 : Task} {D0 : Nat} {A0 S0 R0 : List Nat} {s : St}
    (h : Life False clock k t0 D0 A0 S0 R0 s) (hlim : t0.maximumParallelRunnableNum = none)
    (h0 : runsLeft t0 ≠ some 0) (hp : s.tpc ≠ .panicked) :
    ∃ ds, startTicks k s.log = S0 ++ ds ∧
      (∀ i n, ds[i]? = some n → cut (runsLeft t0) (timetable clock D0 (fun j => alarm j t0)) i = some n ∧ n ≤ s.ticks) ∧
      ∀ i n, cut (runsLeft t0) (timetable clock D0 (fun j => alarm j t0)) i = some n → n < s.ticks → ds[i]? = some n := by
  obtain ⟨ns, ds, _, e2, e3, e4, e5⟩ := h.complete (Or.inl hlim) h0 hp
  refine ⟨ds, e2, ?_⟩
  rcases e5 hlim with e | e
  · rw [e]; exact ⟨e3, e4⟩
  · refine ⟨fun i n hi => e3 i n ?_, fun i n hi hn => ?_⟩
    · rw [e, List.getElem?_append_left (List.getElem?_eq_some_iff.1 hi).1]; exact hi
    · have := e4 i n hi hn
      rw [e, List.getElem?_append] at this
      split at this
      · exact this
      · exfalso
        have hm := List.mem_of_getElem? this
        simp at hm
        omega

theorem starts_grow {env : Env} (k : Nat) : ∀ (ls : List Label) {s s' : St}, run env s ls = some s' →
    ∃ ds, startTicks k s'.log = startTicks k s.log ++ ds := by
  intro ls
  induction ls with
  | nil => intro s s' h; cases h; exact ⟨[], by simp⟩
  | cons l ls ih =>
    intro s s' h
    simp only [run] at h
    split at h
    · rename_i s1 h1
      obtain ⟨ds, hd⟩ := ih h
      rcases starts_step k (step_act h1) with ⟨e, _⟩ | ⟨_, _, _, _, _, _, _, _, e⟩
      · exact ⟨ds, by rw [hd, e]⟩
      · exact ⟨s.ticks :: ds, by rw [hd, e]; simp [startTicks]⟩
    · cases h

/-- **C81** A removal that is taken while the scheduler has the task in its hands has no effect on its schedule: whatever
is called for the task from then on, short of adding it again, it is started exactly when it would have been. -/
theorem C81_in_hand {env : Env} {k : Nat} {s s1 s' : St} {t : Task} {rest : List TimerEvent} {ls : List Label}
    (hr : Reachable env s) (hc : s.chan = .removeTask k :: rest) (hrest : ∀ e ∈ rest, ¬ EventAdds k e)
    (hh : heldTask s.tpc = some t) (hk : t.taskId = k) (hv : t.valid = true) (hw : ¬ Waiting k s)
    (hlim : t.maximumParallelRunnableNum = none) (h0 : runsLeft t ≠ some 0)
    (h1 : step env s .eRecv = some s1) (hl : ∀ l ∈ ls, ¬ Adds k l) (hrun : run env s1 ls = some s')
    (hp : s'.tpc ≠ .panicked) :
    StartsOnSchedule k (startsAhead env.clock s.ticks t s.tpc) s s' := by
  obtain ⟨t0, A0, S0, R0, c, hlife, hlim0, h00, hS, hT⟩ := held_life hr hh hk hv hw hlim h0
  obtain ⟨hf, hi⟩ := removal_misses hc hrest (fun m u _ ⟨sl, h⟩ => hw ⟨_, sl, u, h⟩) (step_act h1)
  obtain ⟨ds, e1, e2, e3⟩ := (forgotten_run ls (hr.step h1) hf (life_idle hi hlife) hl hrun).1.starts hlim0 h00 hp
  obtain ⟨ds', e4⟩ := starts_grow (env := env) k (.eRecv :: ls) (s := s) (s' := s') (by simp only [run, h1]; exact hrun)
  have e5 : ds = c ++ ds' := by
    rw [hS, e1, List.append_assoc] at e4
    exact List.append_cancel_left e4
  refine ⟨ds', e4, fun i n hi => ?_, fun i n hi hn => ?_⟩
  · rw [hT]
    refine e2 _ n ?_
    rw [e5, List.getElem?_append_right (by omega), Nat.add_sub_cancel]; exact hi
  · rw [hT] at hi
    have := e3 _ n hi hn
    rwa [e5, List.getElem?_append_right (by omega), Nat.add_sub_cancel] at this

/-- **C81** The same for a removal that looks for the waiting task in the wrong slot, as it does after the task has been
advanced. -/
theorem C81_misplaced {env : Env} {k i D : Nat} {s s1 s' : St} {t : Task} {sl : Slot} {rest : List TimerEvent}
    {ls : List Label} (hr : Reachable env s) (hc : s.chan = .removeTask k :: rest)
    (hrest : ∀ e ∈ rest, ¬ EventAdds k e) (hi : s.wheel i = some sl) (ht : t ∈ sl) (hk : t.taskId = k)
    (hone : ∀ j u, (∃ sl, s.wheel j = some sl ∧ u ∈ sl ∧ u.taskId = k) → j = i ∧ u = t)
    (hh : ¬ Handling k s.tpc) (hm : ∀ m, s.flags k = some m → m.slotMark ≠ i)
    (hv : t.valid = true) (hlim : t.maximumParallelRunnableNum = none) (h0 : runsLeft t ≠ some 0)
    (hD : NextVisit s i D) (h1 : step env s .eRecv = some s1) (hl : ∀ l ∈ ls, ¬ Adds k l)
    (hrun : run env s1 ls = some s') (hp : s'.tpc ≠ .panicked) :
    StartsOnSchedule k (cut (runsLeft t) (timetable env.clock (D + 3600 * t.cylinderLine) (fun j => alarm j t))) s s' := by
  have hn : tpcTok k s.tpc = [] ∧ k ∉ pendingOf s.tpc := by
    cases hp : s.tpc <;> simp_all [Handling, tpcTok, pendingOf]
  have hs : Sched k t (D + 3600 * t.cylinderLine) s := by
    refine ⟨hv, hn.1, i, t.cylinderLine, ⟨sl, hi, ht, hk⟩, hone, Or.inl ⟨hn.2, ?_⟩⟩
    rw [NextVisit.unique hD (nextVisit_spec hr (by rw [hi]; rfl))]
  have hlife : Life False env.clock k t (D + 3600 * t.cylinderLine) (attempts k s.log) (startTicks k s.log)
      (startRoutines k s.log) s := hs.life False.elim rfl rfl rfl
  obtain ⟨hf, hid⟩ := removal_misses hc hrest (fun m u hfl h => hm m hfl (hone _ _ h).1) (step_act h1)
  exact (forgotten_run ls (hr.step h1) hf (life_idle hid hlife) hl hrun).1.starts hlim h0 hp

theorem startsAhead_some {clock : Nat → Nat} {n : Nat} {t : Task} {p : TPC} (hh : heldTask p = some t)
    (hrep : runsLeft t = none) (ha : ∀ j, alarm j t ≠ none) (i : Nat) : ∃ m, startsAhead clock n t p i = some m := by
  have h1 : ∀ i, ∃ m, timetable clock n (fun j => alarm j t) i = some m := fun i => timetable_some i (fun j _ => ha j)
  cases p <;> cases hh <;> simp only [startsAhead, hrep, cut]
  · exact h1 i
  · exact h1 i
  · exact h1 (i + 1)
  · exact h1 (i + 1)
  · rw [← timetable_next]; exact h1 (i + 1)

/-- **C81** In an unending execution, a repeating task that was in the hands of the scheduler when its removal was taken
is started again and again, however often it is removed, updated or advanced. -/
theorem C81_for_ever {env : Env} (c : Course env) (hfs : c.WeaklyFair (ByScheduler · = true)) (htn : c.Turning)
    {k n : Nat} {t : Task} {rest : List TimerEvent} (hc : (c.st n).chan = .removeTask k :: rest)
    (hrest : ∀ e ∈ rest, ¬ EventAdds k e) (hh : heldTask (c.st n).tpc = some t) (hk : t.taskId = k)
    (hv : t.valid = true) (hw : ¬ Waiting k (c.st n)) (hlim : t.maximumParallelRunnableNum = none)
    (hrep : runsLeft t = none) (ha : ∀ j, alarm j t ≠ none) (hlab : c.lab n = some .eRecv)
    (hno : ∀ m l, n < m → c.lab m = some l → ¬ Adds k l) (i : Nat) :
    ∃ m0, ∀ m, m0 ≤ m → i < (startTicks k (c.st m).log).length := by
  obtain ⟨D, hD⟩ := startsAhead_some (clock := env.clock) (n := (c.st n).ticks) hh hrep ha i
  obtain ⟨j, hj, htick⟩ := C71_turns c hfs htn (n + 1) (D + 1)
  refine ⟨j, fun m hm => ?_⟩
  obtain ⟨ls, f1, f2, _⟩ := between_mem c (n := n + 1) (m := m) (P := fun l => ¬ Adds k l) (by omega)
    (fun i l hi h => hno i l (by omega) h)
  obtain ⟨ns, e1, _, e3⟩ := C81_in_hand (course_reach c n) hc hrest hh hk hv hw hlim (by rw [hrep]; simp)
    (course_step c hlab) f1 f2 (course_turns c htn m).2.1
  have h1 := course_ticks c hm
  have h2 : D + 1 ≤ (c.st j).ticks := htick
  have := (List.getElem?_eq_some_iff.1 (e3 i D hD (by omega))).1
  rw [e1]; simp; omega

/-! ## With a parallel limit -/

/-- The copies of `k` in the wheel keep what re-arming keeps. -/
theorem kept_step {env : Env} {k : Nat} {s : St} {l : Label} {s' : St} {P : Task → Prop} (hq : Apart k s l)
    (hcyl : ∀ t c, P t → P { t with cylinderLine := c }) (hask : ∀ t, P t → P t.getNextExecTimestamp.2)
    (hn : ∀ j u, inWheel s.wheel k j u → P u) (ht : ∀ u ∈ tpcTok k s.tpc, P u) (h : Act env s l s') :
    ∀ j u, inWheel s'.wheel k j u → P u := by
  cases h
  all_goals try (exact hn)
  all_goals try (simpa using hn)
  case arrive sl h hw =>
    intro j u hj
    rw [inWheel_arrive hw] at hj
    rcases hj with ⟨_, v, hv, hu⟩ | ⟨_, hj⟩
    · rw [hu]
      unfold Task.checkArrived
      split
      · exact hn _ _ hv
      · exact hcyl _ _ (hn _ _ hv)
    · exact hn _ _ hj
  case pop_hit pending id sl u h hmem hw hr =>
    intro j u hj
    rw [show St.wheel _ = _ from rfl, inWheel_remove hw] at hj
    exact hn _ _ hj.1
  case slot_ok pending t upd exec sl step slot h hx hstep hslot hw =>
    intro j u hj
    rw [show St.wheel _ = _ from rfl, inWheel_add hw] at hj
    rcases hj with ⟨_, e, hj⟩ | hj
    · subst e
      refine hcyl _ _ (hask _ (ht t ?_))
      have hj' : t.taskId = k := hj
      rw [h]; simp [tpcTok, hj']
    · exact hn _ _ hj.1
  case recv_update u rest m sl he hc hf hw =>
    have hk : u.taskId ≠ k := hq.head rfl (.updateTask u) rest hc
    intro j v hj
    rw [done_wheel, inWheel_update hw] at hj
    rcases hj with ⟨_, _, hj⟩ | hj
    · exact absurd hj hk
    · exact hn _ _ hj.1
  case recv_advance id rest m sl u he hc hf hw hr =>
    intro j u hj
    rw [show St.wheel _ = _ from rfl, inWheel_remove hw] at hj
    exact hn _ _ hj.1
  case recv_remove id rest m sl he hc hf hw =>
    intro j u hj
    rw [show St.wheel _ = _ from rfl, inWheel_remove hw] at hj
    exact hn _ _ hj.1
  case next_add2 u chain hand exec ts seed slot sl he hseed hslot hw =>
    have hk : u.taskId ≠ k := by have := hq.epc rfl; rw [he] at this; exact this
    intro j v hj
    rw [show St.wheel _ = _ from rfl, inWheel_add hw] at hj
    rcases hj with ⟨_, _, hj⟩ | hj
    · exact absurd hj hk
    · exact hn _ _ hj.1
  case next_adv2 u hand sl he hw =>
    have hk : u.taskId ≠ k := by have := hq.epc rfl; rw [he] at this; exact this
    intro j v hj
    rw [done_wheel, inWheel_add hw] at hj
    rcases hj with ⟨_, _, hj⟩ | hj
    · exact absurd hj hk
    · exact hn _ _ hj.1

/-- Nobody has a record of `k`, all copies have a limit, and none is about to be started. -/
structure Stalled (k : Nat) (s : St) : Prop where
  forgotten : Forgotten k s
  unknown : s.flags k = none
  wheel : ∀ j u, inWheel s.wheel k j u → u.maximumParallelRunnableNum ≠ none
  hand : ∀ u ∈ tpcTok k s.tpc, u.maximumParallelRunnableNum ≠ none
  idle : ∀ p t r, s.tpc = .spawn p t r → t.taskId ≠ k

theorem unknown_step {env : Env} {k : Nat} {s : St} {l : Label} {s' : St} (hf : Forgotten k s) (h0 : s.flags k = none)
    (h : Act env s l s') : s'.flags k = none := by
  have h3 := hf.epc
  cases h
  all_goals try (exact h0)
  all_goals try (simpa using h0)
  case mark_some pending id slot upd m h hf' =>
    show set s.flags id _ k = none
    rw [set_apply]; split
    · subst_vars; rw [h0] at hf'; cases hf'
    · exact h0
  case recv_cancel id rec rest he hc =>
    rw [done_flags, (cancelTask_flags env true { s with chan := rest } id rec CANCELLED k).isNone]
    exact h0
  case recv_timeout id rec rest he hc =>
    rw [done_flags, (cancelTask_flags env false { s with chan := rest } id rec TIMEOUT k).isNone]
    exact h0
  case recv_finish b rest he hc =>
    rw [done_flags, (finishTask_flags env { s with chan := rest } b.taskId b.recordId k).isNone]
    exact h0
  case recv_append id box rest he hc =>
    rw [done_flags, (maintainTaskStatus_flags { s with chan := rest } id box k).isNone]
    exact h0
  case next_add3 tag m he =>
    rw [he] at h3
    have hm : m.taskId ≠ k := h3
    rw [done_flags]
    show set s.flags m.taskId _ k = none
    rw [set_other _ _ _ (fun h => hm h.symm)]
    exact h0
  case next_remove id ok he =>
    rw [done_flags]
    show set s.flags id _ k = none
    rw [set_apply]; split
    · rfl
    · exact h0

theorem tok_eq' {k : Nat} {t u : Task} (h : t ∈ (if u.taskId = k then [u] else [])) : t = u ∧ u.taskId = k := by
  split at h
  · exact ⟨by simpa using h, ‹_›⟩
  · cases h

theorem stalled_step {env : Env} {k : Nat} {s : St} {l : Label} {s' : St} (hs : Stalled k s) (hl : ¬ Adds k l)
    (h : Act env s l s') : Stalled k s' ∧ startTicks k s'.log = startTicks k s.log := by
  obtain ⟨h1, h2, h3, h4, h5⟩ := hs
  have h1' := forgotten_step h1 hl h
  have h2' := unknown_step h1 h2 h
  have hlog : startTicks k s'.log = startTicks k s.log := by
    rcases starts_step k h with e | ⟨_, p, t, r, b, e1, _, e3, _⟩
    · exact e.1
    · exact absurd e3 (h5 p t r e1)
  refine ⟨?_, hlog⟩
  have h3' : ∀ j u, inWheel s'.wheel k j u → u.maximumParallelRunnableNum ≠ none := by
    rcases forgotten_apart h1 h with ha | hi
    · exact kept_step ha (P := fun u => u.maximumParallelRunnableNum ≠ none) (fun _ _ h => h) (fun _ h => h) h3 h4 h
    · intro j u hj; exact h3 j u ((hi.wheel j u).1 hj)
  by_cases ht : TLabel l
  · have hx : (∀ u ∈ tpcTok k s'.tpc, u.maximumParallelRunnableNum ≠ none) ∧
        ∀ p t r, s'.tpc = .spawn p t r → t.taskId ≠ k := by
      clear h1' h2' hlog h3'
      cases h
      all_goals try (exact False.elim ht)
      all_goals try (refine ⟨?_, ?_⟩ <;> simp [tpcTok] <;> done)
      case pop_hit pending id sl u h hmem hw hr =>
        obtain ⟨g1, g2⟩ := removeTask_some hr
        refine ⟨?_, (fun p t r h => nomatch h)⟩
        intro v hv
        obtain ⟨rfl, hk⟩ := tok_eq' hv
        exact h3 _ _ ⟨sl, hw, g1, hk⟩
      case check_nolimit pending t rec h hrec hmax =>
        have hk : t.taskId ≠ k := fun hk => h4 t (by rw [h]; simp [tpcTok, hk]) hmax
        refine ⟨by simp [tpcTok, hk], ?_⟩
        intro p u r hu; cases hu; exact hk
      case check_ok pending t rec k' m h hrec hmax hf hlt =>
        have hk : t.taskId ≠ k := fun hk => by rw [hk, h2] at hf; cases hf
        refine ⟨by simp [tpcTok, hk], ?_⟩
        intro p u r hu; cases hu; exact hk
      case gate_again pending t t' rec h hd =>
        refine ⟨?_, (fun p t r h => nomatch h)⟩
        intro v hv
        obtain ⟨rfl, hk⟩ := tok_eq' hv
        obtain ⟨_, _, _, e1, _, e2, _⟩ := down_runs hd
        rw [e2]
        exact h4 t (by rw [h]; simp [tpcTok, ← e1, hk])
      all_goals (
        rw [‹s.tpc = _›] at h4
        exact ⟨h4, (fun p t r h => nomatch h)⟩)
    exact ⟨h1', h2', h3', hx.1, hx.2⟩
  · obtain ⟨e1, _, _⟩ := other_thread h ht
    exact ⟨h1', h2', h3', by rw [e1]; exact h4, by rw [e1]; exact h5⟩

/-- **C81** A task with a parallel limit that is left without a record is never started again: the scheduler finds no
count for it and drops it. -/
theorem C81_limited {env : Env} {k : Nat} {s s' : St} {ls : List Label} (hf : s.flags k = none)
    (hc : ∀ e ∈ s.chan, ¬ EventAdds k e) (he : s.epc = .idle)
    (hw : ∀ i sl t, s.wheel i = some sl → t ∈ sl → t.taskId = k → t.maximumParallelRunnableNum ≠ none)
    (hh : ∀ t, heldTask s.tpc = some t → t.taskId = k → t.maximumParallelRunnableNum ≠ none)
    (hsp : ∀ p t r, s.tpc = .spawn p t r → t.taskId ≠ k)
    (hl : ∀ l ∈ ls, ¬ Adds k l) (hrun : run env s ls = some s') :
    startTicks k s'.log = startTicks k s.log := by
  suffices H : ∀ (ls : List Label) (s s' : St), Stalled k s → (∀ l ∈ ls, ¬ Adds k l) → run env s ls = some s' →
      startTicks k s'.log = startTicks k s.log by
    refine H ls s s' ⟨⟨Or.inl hf, hc, by rw [he]; trivial⟩, hf, fun j u ⟨sl, h1, h2, h3⟩ => hw j sl u h1 h2 h3, ?_, hsp⟩ hl hrun
    intro u hu
    cases hp : s.tpc
    all_goals (rw [hp] at hu hh; simp only [tpcTok] at hu)
    all_goals first | cases hu | (obtain ⟨rfl, hk⟩ := tok_eq' hu; exact hh u rfl hk)
  intro ls
  induction ls with
  | nil => intro s s' _ _ h; cases h; rfl
  | cons l ls ih =>
    intro s s' hs hl h
    simp only [run] at h
    split at h
    · rename_i s1 h1
      obtain ⟨g1, g2⟩ := stalled_step hs (hl l List.mem_cons_self) (step_act h1)
      rw [ih s1 s' g1 (fun l h => hl l (List.mem_cons_of_mem _ h)) h, g2]
    · cases h

end DelayTimer

namespace DelayTimer.Ex

open Spec

/-- Task 1 is being run, and its removal is the next event. -/
def ghostPre : List Label := add (every 1 101 5) ++ idles 2 ++ pop 1 1 ++ [.eRecv, .uSend (.remove 1)]

/-- What is put back. -/
def ghostT : Task := (every 1 101 5).getNextExecTimestamp.2

theorem ghost_run : (run env0 (init env0) ghostPre).isSome := by rfl

theorem play_on {env : Env} {a b : List Label} (h : (run env (init env) (a ++ b)).isSome) :
    run env (play env a) b = some (play env (a ++ b)) := by
  have h2 := play_run h
  rw [run_append] at h2
  cases ha : run env (init env) a with
  | none => rw [ha] at h2; cases h2
  | some s => rw [ha] at h2; rw [show play env a = s by unfold play; rw [ha]; rfl]; exact h2

/-- It is removed three times, updated and advanced. -/
def ghostRest : List Label := [.eNext, .tSlot, .tMark, .tLapse, .uSend (.remove 1), .uSend (.update (every 1 900 900)), .eRecv,
    .eNext, .eRecv] ++ idles 4 ++ [.uSend (.advance 1), .eRecv] ++ fire 1 2 ++ [.eRecv, .uSend (.remove 1), .eRecv, .eNext] ++
    idles 4 ++ fire 1 3

/-- C81, `C81_in_hand`: the task is started at tick 2, and then at 7 and 12 in spite of everything. -/
example : Reachable env0 (play env0 ghostPre) ∧ (play env0 ghostPre).chan = .removeTask 1 :: [] ∧
    heldTask (play env0 ghostPre).tpc = some ghostT ∧ ¬ Waiting 1 (play env0 ghostPre) ∧
    ghostT.maximumParallelRunnableNum = none ∧ runsLeft ghostT = none ∧ ghostT.valid = true ∧
    (∀ l ∈ ghostRest, ¬ Adds 1 l) ∧ run env0 (play env0 (ghostPre ++ [.eRecv])) ghostRest =
      some (play env0 (ghostPre ++ [.eRecv] ++ ghostRest)) ∧
    (play env0 (ghostPre ++ [.eRecv] ++ ghostRest)).tpc = .head ∧
    startTicks 1 (play env0 ghostPre).log = [2] ∧
    startTicks 1 (play env0 (ghostPre ++ [.eRecv] ++ ghostRest)).log = [2, 7, 12] := by
  refine ⟨play_reachable ghost_run, rfl, rfl, not_waiting (play_reachable ghost_run) (by decide +kernel), rfl, rfl, rfl,
    ?_, play_on (by decide +kernel), by rfl, by decide +kernel, by decide +kernel⟩
  have : ghostRest.all (fun l => decide (¬ Adds 1 l)) = true := by decide +kernel
  intro l hl
  exact of_decide_eq_true (List.all_eq_true.1 this l hl)

theorem ghostT_alarms (j : Nat) : alarm j ghostT ≠ none := by
  rw [show alarm j ghostT = alarm (j + 1) (every 1 101 5) from rfl,
    alarm_seconds_new 0 101 5 (by omega) (by omega) (every 1 101 5) (Or.inl rfl)]
  simp

/-- C81, `C81_for_ever`: an unending execution in which the removal is taken at that point. -/
example : ∃ c : Course env0, c.WeaklyFair (ByScheduler · = true) ∧ c.Turning ∧
    ∃ n, (c.st n).chan = .removeTask 1 :: [] ∧ heldTask (c.st n).tpc = some ghostT ∧ ¬ Waiting 1 (c.st n) ∧
      c.lab n = some .eRecv ∧ ∀ m l, n < m → c.lab m = some l → ¬ Adds 1 l := by
  obtain ⟨c, h1, h2, h3, _, h4⟩ := fair_course (pre := ghostPre ++ [.eRecv]) (play_run (env := env0) (by rfl))
  have hlast : c.upTo (ghostPre.length + 1) = ghostPre ++ [.eRecv] := by
    have := h1
    rwa [List.length_append, List.length_singleton] at this
  have htake : c.upTo ghostPre.length = ghostPre := by
    rw [(upTo_take (c := c) (n := ghostPre.length + 1) (by rw [hlast]; simp) ghostPre.length (by omega)).1, hlast]; simp
  have hst : c.st ghostPre.length = play env0 ghostPre := by
    have h5 := course_run c ghostPre.length
    rw [htake, play_run ghost_run] at h5
    exact (Option.some.inj h5).symm
  have hlab : c.lab ghostPre.length = some .eRecv := by
    rw [Course.upTo, htake] at hlast
    have := List.append_cancel_left hlast
    cases h : c.lab ghostPre.length with
    | none => rw [h] at this; cases this
    | some l => rw [h] at this; cases this; rfl
  have hall : ∀ n l, c.lab n = some l → l ∈ ghostPre ++ [Label.eRecv] ∨ Unasked l := by
    intro n l h
    by_cases hn : n < (ghostPre ++ [Label.eRecv]).length
    · left; rw [← h1]; exact (mem_upTo c _).2 ⟨n, hn, h⟩
    · exact Or.inr (h4 n l (by omega) h)
  have hpre : ∀ l ∈ ghostPre ++ [Label.eRecv], l ≠ .uSend .stop ∧ l ≠ .tSpawn true := by
    have : (ghostPre ++ [Label.eRecv]).all (fun l => match l with | .uSend .stop => false | .tSpawn true => false | _ => true) = true := by
      decide +kernel
    intro l hl
    have := List.all_eq_true.1 this l hl
    constructor <;> (rintro rfl; cases this)
  refine ⟨c, h3.scheduler, C71_turning c ?_ ?_ (fun n k t _ j h => by cases h), ghostPre.length, by rw [hst]; rfl,
    by rw [hst]; rfl, by rw [hst]; exact not_waiting (play_reachable ghost_run) (by decide +kernel), hlab, ?_⟩
  · intro n h
    rcases hall n _ h with h | h
    · exact (hpre _ h).1 rfl
    · exact h
  · intro n h
    rcases hall n _ h with h | h
    · exact (hpre _ h).2 rfl
    · exact h
  · intro m l hm h
    have := h4 m l (by rw [List.length_append, List.length_singleton]; omega) h
    intro ha
    revert this ha
    cases l <;> simp [Unasked, Adds]

/-- C81, `C81_misplaced`: after an advance, task 1 waits in slot 1, and its record says slot 21. -/
def lostPre : List Label := advanced ++ [.uSend (.remove 1)]

example : Reachable env0 (play env0 lostPre) ∧ (play env0 lostPre).chan = .removeTask 1 :: [] ∧
    (∃ sl, (play env0 lostPre).wheel 1 = some sl ∧ slowT ∈ sl) ∧ slowT.taskId = 1 ∧
    (∀ j u, (∃ sl, (play env0 lostPre).wheel j = some sl ∧ u ∈ sl ∧ u.taskId = 1) → j = 1 ∧ u = slowT) ∧
    (play env0 lostPre).tpc = .head ∧ (∀ m, (play env0 lostPre).flags 1 = some m → m.slotMark ≠ 1) ∧
    slowT.valid = true ∧ slowT.maximumParallelRunnableNum = none ∧ runsLeft slowT = none ∧
    NextVisit (play env0 lostPre) 1 1 ∧
    startTicks 1 (play env0 (lostPre ++ [.eRecv, .eNext] ++ idles 1 ++ fire 1 1)).log = [1] := by
  have hr : Reachable env0 (play env0 lostPre) := play_reachable (by rfl)
  refine ⟨hr, rfl, ⟨_, rfl, List.mem_cons_self⟩, rfl, ?_, rfl, ?_, rfl, rfl, rfl, ?_, by decide +kernel⟩
  · rintro j u ⟨sl, h1, h2, h3⟩
    obtain rfl := only_at hr (i := 1) (by decide +kernel) j sl u h1 h2 h3
    rw [show (play env0 lostPre).wheel 1 = some [slowT] from rfl] at h1
    cases h1
    exact ⟨rfl, by simpa using h2⟩
  · intro m h
    rw [show (play env0 lostPre).flags 1 = some _ from rfl] at h
    cases h; decide
  · unfold NextVisit
    rw [show (play env0 lostPre).tpc = .head from rfl, show (play env0 lostPre).ticks = 0 from rfl]
    decide

/-- C81, `C81_limited`: a task with a limit is removed while it is run; it is put back, and attempted once more. -/
def stuckPre : List Label := add (upTo 2 (every 1 101 5)) ++ idles 2 ++ pop 1 1 ++ [.eRecv, .uSend (.remove 1), .eRecv, .eNext]

def stuckRest : List Label := [.tSlot, .tMark, .tLapse] ++ idles 4 ++ [.tLoad, .tStore, .tArrive, .tPop 1, .tCheck 2, .tLapse] ++
  idles 9

example : (play env0 stuckPre).flags 1 = none ∧ (play env0 stuckPre).chan = [] ∧ (play env0 stuckPre).epc = .idle ∧
    ¬ Waiting 1 (play env0 stuckPre) ∧ heldTask (play env0 stuckPre).tpc = some (upTo 2 ghostT) ∧
    (∀ p t r, (play env0 stuckPre).tpc = .spawn p t r → t.taskId ≠ 1) ∧
    startTicks 1 (play env0 stuckPre).log = [2] ∧
    startTicks 1 (play env0 (stuckPre ++ stuckRest)).log = [2] ∧
    attempts 1 (play env0 (stuckPre ++ stuckRest)).log = [2, 7] := by
  refine ⟨rfl, rfl, rfl, not_waiting (env := env0) (play_reachable (by rfl)) (by decide +kernel), rfl, ?_, by decide +kernel,
    by decide +kernel, by decide +kernel⟩
  intro p t r h; cases h

end DelayTimer.Ex
