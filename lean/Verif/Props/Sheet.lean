import Verif.Proofs.Sheet
import Verif.Examples

/-!
# The timer as a sheet (C79)

An execution in which every operation on `k` is carried out between two ticks is an execution of the
timetable on paper of `Spec/Sheet.lean`: whatever the other tasks, the running bodies, the callers and the
sweeper do, and however long the history of `k` is. What the bodies do matters in one way only: with a parallel
limit, a run can be left out, and the history says which.
-/

namespace DelayTimer
open Spec

/-- **C79** Between two ticks, and with no operation on `k` in progress, the timer agrees with the sheet:
the bodies of `k` that have been started are the runs on the sheet — the same routines at the same ticks in
the same order —, the record says what the sheet says, and in the wheel there is nothing of `k` if the sheet
has no line, and exactly one copy, at the place of its due tick, if it has one. -/
theorem C79 {env : Env} {k : Nat} {ls : List Label} {s : St} {Q : Sheet} (h : OnPaper env k ls s Q)
    (hrest : s.tpc = .batch []) (hidle : ¬ Engaged k s.epc) :
    s.ticks = Q.now ∧
    startTicks k s.log = Q.runs.map Prod.fst ∧ startRoutines k s.log = Q.runs.map Prod.snd ∧
    (s.flags k).map (·.slotMark) = Q.place ∧
    (Q.line = none → Absent k s) ∧
    (∀ e, Q.line = some e → s.ticks < e.due ∧ ∃ sl t, s.wheel (e.due % 3600) = some sl ∧ t ∈ sl ∧ t.taskId = k ∧
      t.routine = e.routine ∧ runsLeft t = e.left ∧ t.maximumParallelRunnableNum.isSome = e.limited ∧
      (∀ j, alarm j t = e.alarms j) ∧
      ∀ i sl' u, s.wheel i = some sl' → u ∈ sl' → u.taskId = k → i = e.due % 3600 ∧ u = t) := by
  have hr : Reachable env s := ⟨ls, h.run⟩
  obtain ⟨R, _, _, hs⟩ := h.sim
  cases hs with
  | fly P sk e t hQ hn hl hd hf hst hm hp _ => rw [hrest] at hst; cases hst
  | marking e p i u hn hl hc hb htpc => rw [hrest] at htpc; cases htpc
  | engaged _ _ _ _ ho => exact absurd ho.engaged hidle
  | dead h' => rw [hrest] at h'; cases h'
  | still P hR hQ hn hc hb hm hp hnm _ =>
    rw [core_rest hc hn hrest] at hQ
    subst hQ
    refine ⟨hn.symm, hb.ticks, hb.routines, hm, ?_, ?_⟩
    · intro hl
      rw [hl] at hc
      exact core_absent hc hrest
    · intro e hl
      rw [hl] at hc
      obtain ⟨t, hsc, hrd⟩ := hc
      obtain ⟨c, ⟨sl, h1, h2, h3⟩, h4⟩ := hsc.slot (wheelOk hr)
      have hrd' := reads_cyl hrd c
      refine ⟨hsc.later hrest, sl, _, h1, h2, h3, hrd'.routine, hrd'.left, hrd'.limit, hrd'.alarms, ?_⟩
      intro i sl' u h5 h6 h7
      exact h4 i u ⟨sl', h5, h6, h7⟩

/-- At any moment, also in the middle of a tick, the starts are those on the sheet, except that the one due in
the current tick may be still to come. -/
theorem C79_always {env : Env} {k : Nat} {ls : List Label} {s : St} {Q : Sheet} (h : OnPaper env k ls s Q) :
    ∃ runs, startTicks k s.log = runs.map Prod.fst ∧ startRoutines k s.log = runs.map Prod.snd ∧ runs <+: Q.runs ∧
      (s.tpc ≠ .panicked → Q.runs = runs ∨ ∃ r, Q.runs = runs ++ [(s.ticks, r)]) := by
  obtain ⟨R, _, _, hs⟩ := h.sim
  cases hs with
  | still P hR hQ hn hc hb hm hp hnm _ =>
    refine ⟨P.runs, hb.ticks, hb.routines, by rw [hQ]; exact fire_prefix _ _ _, fun _ => ?_⟩
    rcases fire_cases env.clock false P with h | ⟨r, h⟩
    · exact Or.inl (hQ ▸ h)
    · exact Or.inr ⟨r, by rw [hQ, h, hn]⟩
  | fly P sk e t hQ hn hl hd hf hst hm hp _ =>
    have h1 : ∀ b : Book k P.runs s, ∃ runs, startTicks k s.log = runs.map Prod.fst ∧
        startRoutines k s.log = runs.map Prod.snd ∧ runs <+: Q.runs ∧
        (s.tpc ≠ .panicked → Q.runs = runs ∨ ∃ r, Q.runs = runs ++ [(s.ticks, r)]) := fun b => by
      refine ⟨P.runs, b.ticks, b.routines, by rw [hQ]; exact fire_prefix _ _ _, fun _ => ?_⟩
      rcases fire_cases env.clock sk P with h | ⟨r, h⟩
      · exact Or.inl (hQ ▸ h)
      · exact Or.inr ⟨r, by rw [hQ, h, hn]⟩
    have h2 : ∀ b : Book k Q.runs s, ∃ runs, startTicks k s.log = runs.map Prod.fst ∧
        startRoutines k s.log = runs.map Prod.snd ∧ runs <+: Q.runs ∧
        (s.tpc ≠ .panicked → Q.runs = runs ∨ ∃ r, Q.runs = runs ++ [(s.ticks, r)]) := fun b =>
      ⟨Q.runs, b.ticks, b.routines, List.prefix_rfl, fun _ => Or.inl rfl⟩
    cases hp : s.tpc <;> rw [hp] at hst h1 h2 <;> simp only [FlyAt] at hst
    · exact h1 hst.2.1
    · exact h1 hst.2.1
    · exact h2 hst.2.1
    · exact h2 hst.2.1
    · exact h2 hst.2.2.1
  | marking e p i u hn hl hc hb htpc hi hdue hm _ =>
    exact ⟨Q.runs, hb.ticks, hb.routines, List.prefix_rfl, fun _ => Or.inl rfl⟩
  | engaged _ _ hb _ _ => exact ⟨Q.runs, hb.ticks, hb.routines, List.prefix_rfl, fun _ => Or.inl rfl⟩
  | dead hd runs hb hpre => exact ⟨runs, hb.ticks, hb.routines, hpre, fun h => absurd hd h⟩

/-- The scheduler leaves a run out only when it is due on the sheet and the task has a limit; what is left out is
noted in the log with the tick. -/
theorem C79_skip {env : Env} {k : Nat} {ls : List Label} {s s' : St} {Q : Sheet} {l : Label} (h : OnPaper env k ls s Q)
    (hl : step env s l = some s') (hsk : sheetEvs k s l = [.skip]) :
    s'.log = .skipped k s.ticks :: s.log ∧ ∃ R e, Sheet.blank.play env.clock k (history env k (init env) ls) = some R ∧
      R.line = some e ∧ e.due = s.ticks ∧ e.limited = true ∧ R.place ≠ none := by
  obtain ⟨R, hR, hQ, hs⟩ := h.sim
  obtain ⟨pending, u, hp, hid, hfull⟩ := skip_check hsk
  have ha := step_act hl
  obtain ⟨rec, rfl⟩ := skip_label hsk
  unfold Full at hfull
  split at hfull
  rotate_left
  · cases hfull
  rename_i lim m hmax hfl
  rw [decide_eq_true_eq] at hfull
  have hlog : s'.log = .skipped k s.ticks :: s.log := by
    cases ha
    all_goals (rw [hp] at ‹s.tpc = _›; cases ‹TPC.check _ _ = _›)
    · rw [hmax] at *; simp_all
    · rw [hfl] at *; simp_all
    · rw [hid]
    · rw [hfl] at *; rw [hmax] at *; simp_all; omega
  refine ⟨hlog, R, ?_⟩
  cases hs with
  | still P hR hQ hn hc => have := core_tok hc; rw [hp] at this; simp [tpcTok, hid] at this
  | marking e p i u hn hl hc hb htpc => rw [hp] at htpc; cases htpc
  | engaged h' => rw [hp] at h'; cases h'
  | dead h' => rw [hp] at h'; cases h'
  | fly P sk e t hQ hn hl hd hf hst hm hpl he =>
    rw [hp] at hst
    obtain ⟨hrd, hb, rfl, rfl⟩ := hst
    obtain ⟨rfl, _⟩ := tok_eq (by have := hf.tok; rw [hp] at this; exact this)
    refine ⟨e, hR, hl, hd.trans hn, by rw [← hrd.limit, hmax]; rfl, ?_⟩
    rw [← hm]; unfold markOf; rw [← hid, hfl]; exact fun h => nomatch h

/-! ### What the sheet says about operations -/

theorem right_fire {clock : Nat → Nat} {sk : Bool} {P : Sheet} (h : Right P) : Right (P.fire clock sk) := by
  cases hl : P.line with
  | none => rw [fire_none hl]; exact h
  | some e =>
    have hp := h.2 e hl
    by_cases hd : e.due = P.now
    · have hg : Goes P e := fun hx => by rw [hp] at hx; cases hx.2
      rw [fire_goes hl hd hg]
      split
      · exact ⟨h.1, fun e' he => nomatch he⟩
      · refine ⟨fun i hi => ?_, fun e' he => ?_⟩
        · change Option.map _ P.place = _ at hi
          rw [hp] at hi
          injection hi with hi
          rw [← hi]; exact Nat.mod_lt _ (by decide)
        · injection he with he
          change Option.map _ P.place = _
          rw [hp, he]; rfl
    · rw [fire_other hl hd]; exact h

theorem visit_mod (n i : Nat) (hi : i < 3600) : visit n i % 3600 = i := by
  unfold visit; omega

theorem right_apply {clock : Nat → Nat} {k : Nat} {P Q : Sheet} {o : SheetOp} (h : Right P)
    (hna : o ≠ .advance) (ha : P.apply clock k o = some Q) : Right Q := by
  refine ⟨(apply_facts ha h.1).2.2, ?_⟩
  intro e he
  cases o with
  | advance => exact absurd rfl hna
  | add t =>
    simp only [Sheet.apply] at ha
    split at ha <;> simp only [Option.some.injEq, reduceCtorEq] at ha
    · subst ha; exact h.2 e he
    · subst ha; injection he with he; rw [← he]
  | update t =>
    simp only [Sheet.apply] at ha
    split at ha
    · simp only [Option.some.injEq] at ha; subst ha; exact h.2 e he
    · rename_i i hp hl
      simp only [Option.some.injEq] at ha; subst ha; injection he with he
      rw [← he]
      show P.place = some (visit P.now i % 3600)
      rw [hp, visit_mod _ _ (h.1 i hp)]
    · rename_i i e' hp hl
      split at ha
      · simp only [Option.some.injEq] at ha; subst ha; injection he with he
        rw [← he]
        show P.place = some (visit P.now i % 3600)
        rw [hp, visit_mod _ _ (h.1 i hp)]
      · cases ha
  | remove =>
    simp only [Sheet.apply] at ha
    split at ha <;> simp only [Option.some.injEq] at ha <;> subst ha
    · rename_i hl; change P.line = some e at he; rw [hl] at he; cases he
    · rename_i e' hl
      rw [if_pos (h.2 e' hl)] at he; cases he

theorem right_play {clock : Nat → Nat} {k : Nat} : ∀ (es : List SheetEv) {P Q : Sheet}, Right P →
    (.op .advance ∉ es) → P.play clock k es = some Q → Right Q
  | [], P, Q, h, _, hp => by simp only [Sheet.play, Option.some.injEq] at hp; subst hp; exact h
  | .tick :: es, P, Q, h, hn, hp => by
    have h1 : Right { P.fire clock false with now := P.now + 1 } := right_fire h
    exact right_play es h1 (fun hm => hn (List.mem_cons_of_mem _ hm)) hp
  | .skip :: es, P, Q, h, hn, hp => right_play es (right_fire h) (fun hm => hn (List.mem_cons_of_mem _ hm)) hp
  | .op o :: es, P, Q, h, hn, hp => by
    simp only [Sheet.play] at hp
    split at hp
    · cases hp
    · rename_i R hR
      exact right_play es (right_apply (right_fire h) (fun ho => hn (by rw [ho]; exact List.mem_cons_self)) hR)
        (fun hm => hn (List.mem_cons_of_mem _ hm)) hp

theorem after_play {clock : Nat → Nat} {k : Nat} {es : List SheetEv} {Q : Sheet} (h : Sheet.after clock k es = some Q) :
    ∃ R, Sheet.blank.play clock k es = some R ∧ Q = R.fire clock false := by
  unfold Sheet.after at h
  cases hR : Sheet.blank.play clock k es with
  | none => rw [hR] at h; cases h
  | some R => rw [hR] at h; injection h with h; exact ⟨R, rfl, h.symm⟩

/-- As long as `k` is never advanced, the timer looks for it where it is. -/
theorem C79_right {clock : Nat → Nat} {k : Nat} {es : List SheetEv} {Q : Sheet}
    (hn : .op .advance ∉ es) (hp : Sheet.after clock k es = some Q) : Right Q := by
  obtain ⟨R, hR, rfl⟩ := after_play hp
  exact right_fire (right_play es (P := Sheet.blank) ⟨(fun i h => nomatch h), (fun e h => nomatch h)⟩ hn hR)

/-- Then the only operation the sheet does not cover is adding `k` while it is scheduled. -/
theorem C79_covered {clock : Nat → Nat} {k : Nat} {P : Sheet} {o : SheetOp} (h : Right P)
    (hno : P.apply clock k o = none) : ∃ t, o = .add t ∧ P.line ≠ none := by
  cases o with
  | add t =>
    refine ⟨t, rfl, fun hl => ?_⟩
    simp only [Sheet.apply, hl] at hno
    split at hno <;> simp_all
  | update t =>
    exfalso
    simp only [Sheet.apply] at hno
    split at hno
    · cases hno
    · cases hno
    · rename_i i e hp hl
      have := h.2 e hl
      rw [hp] at this; injection this with this
      rw [if_pos this.symm] at hno; cases hno
  | remove => simp only [Sheet.apply] at hno; split at hno <;> cases hno
  | advance => simp only [Sheet.apply] at hno; (repeat' split at hno) <;> cases hno

/-- A sheet without line and place runs nothing until `k` is added. -/
theorem empty_play {clock : Nat → Nat} {k : Nat} : ∀ (es : List SheetEv) {P Q : Sheet}, P.line = none →
    P.place = none → (∀ t, .op (.add t) ∉ es) → P.play clock k es = some Q →
    Q.runs = P.runs ∧ Q.line = none ∧ Q.place = none
  | [], P, Q, h1, h2, _, hp => by simp only [Sheet.play, Option.some.injEq] at hp; subst hp; exact ⟨rfl, h1, h2⟩
  | .tick :: es, P, Q, h1, h2, hn, hp => by
    simp only [Sheet.play, fire_none h1] at hp
    exact empty_play es (P := { P with now := P.now + 1 }) h1 h2 (fun t hm => hn t (List.mem_cons_of_mem _ hm)) hp
  | .skip :: es, P, Q, h1, h2, hn, hp => by
    simp only [Sheet.play, fire_none h1] at hp
    exact empty_play es h1 h2 (fun t hm => hn t (List.mem_cons_of_mem _ hm)) hp
  | .op o :: es, P, Q, h1, h2, hn, hp => by
    have hR : ∃ R, P.apply clock k o = some R ∧ R.line = none ∧ R.place = none ∧ R.runs = P.runs := by
      cases o with
      | add t => exact absurd List.mem_cons_self (hn t)
      | update t => exact ⟨P, by simp [Sheet.apply, h2], h1, h2, rfl⟩
      | remove => exact ⟨{ P with place := none }, by simp [Sheet.apply, h1], h1, rfl, rfl⟩
      | advance => exact ⟨P, by simp [Sheet.apply, h1], h1, h2, rfl⟩
    obtain ⟨R, hR, r1, r2, r3⟩ := hR
    simp only [Sheet.play, fire_none h1, hR] at hp
    obtain ⟨a, b, c⟩ := empty_play es r1 r2 (fun t hm => hn t (List.mem_cons_of_mem _ hm)) hp
    exact ⟨a.trans r3, b, c⟩

/-- **Removal, over whole histories.** In an execution on paper of any length — any number of additions, updates,
removals and ticks, but no advance before it — a removal of `k` is final: the bodies started by the end are
those started before it, and `k` is not scheduled, unless it is added again. -/
theorem C79_removed {env : Env} {k : Nat} {ls : List Label} {s : St} {Q : Sheet} (h : OnPaper env k ls s Q)
    {h1 h2 : List SheetEv} (hh : history env k (init env) ls = h1 ++ .op .remove :: h2)
    (hadv : .op .advance ∉ h1) (hadd : ∀ t, .op (.add t) ∉ h2)
    (hrest : s.tpc = .batch []) (hidle : ¬ Engaged k s.epc) :
    Absent k s ∧ s.flags k = none ∧ ∃ P, Sheet.after env.clock k h1 = some P ∧
      startTicks k s.log = P.runs.map Prod.fst ∧ startRoutines k s.log = P.runs.map Prod.snd := by
  obtain ⟨R0, hp, hQ, _⟩ := h.sim
  rw [hh, play_append] at hp
  cases hP : Sheet.blank.play env.clock k h1 with
  | none => rw [hP] at hp; cases hp
  | some P0 =>
    rw [hP] at hp
    have hafter : Sheet.after env.clock k h1 = some (P0.fire env.clock false) := by unfold Sheet.after; rw [hP]; rfl
    have hright := C79_right hadv hafter
    have hp' : (match (P0.fire env.clock false).apply env.clock k .remove with
      | none => none
      | some Q => Q.play env.clock k h2) = some R0 := hp
    generalize P0.fire env.clock false = P at hright hafter hp'
    obtain ⟨R, hR, r1, r2, r3⟩ : ∃ R, P.apply env.clock k .remove = some R ∧ R.line = none ∧ R.place = none ∧
        R.runs = P.runs := by
      cases hl : P.line with
      | none => exact ⟨{ P with place := none }, by simp only [Sheet.apply, hl], hl, rfl, rfl⟩
      | some e =>
        exact ⟨{ P with line := none, place := none },
          by simp only [Sheet.apply, hl, hright.2 e hl, if_true], rfl, rfl, rfl⟩
    rw [hR] at hp'
    obtain ⟨a, b, c⟩ := empty_play h2 r1 r2 hadd hp'
    rw [fire_none b] at hQ
    subst hQ
    obtain ⟨_, q2, q3, q4, q5, _⟩ := C79 h hrest hidle
    refine ⟨q5 b, ?_, P, hafter, by rw [q2, a, r3], by rw [q3, a, r3]⟩
    rw [c] at q4
    cases hx : s.flags k with
    | none => rfl
    | some m => rw [hx] at q4; cases q4

end DelayTimer
