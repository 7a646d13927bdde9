import Verif.Proofs.Advance
import Verif.Proofs.Place
import Verif.Proofs.LifeFacts
import Verif.Proofs.Hand
import Verif.Spec.Sheet

/-! The timer, seen from one task whose operations are carried out between ticks, is a sheet. -/

namespace DelayTimer
open Spec

/-- The task `t` is what the line says, the due tick aside. -/
structure Reads (t : Task) (e : Line) : Prop where
  routine : t.routine = e.routine
  left : runsLeft t = e.left
  alarms : ∀ j, alarm j t = e.alarms j
  limit : t.maximumParallelRunnableNum.isSome = e.limited
  runs : e.left ≠ some 0

/-- The wheel holds what the sheet's line says. -/
def Core (k : Nat) (L : Option Line) (s : St) : Prop :=
  match L with
  | none => tpcTok k s.tpc = [] ∧ ∀ j u, ¬ inWheel s.wheel k j u
  | some e => ∃ t, Sched k t e.due s ∧ Reads t e

/-- The log has the sheet's runs. -/
structure Book (k : Nat) (runs : List (Nat × Nat)) (s : St) : Prop where
  ticks : startTicks k s.log = runs.map Prod.fst
  routines : startRoutines k s.log = runs.map Prod.snd

/-- Where the record says that `k` is. -/
def markOf (k : Nat) (s : St) : Option Nat := (s.flags k).map (·.slotMark)

theorem SameMark.slot {a b : Option TaskMark} (h : SameMark a b) :
    a.map (·.slotMark) = b.map (·.slotMark) := by
  cases a <;> cases b <;> simp_all [SameMark]

/-- The line is not struck off. -/
def Goes (P : Sheet) (e : Line) : Prop := ¬ (e.limited = true ∧ P.place = none)

/-- A turn in progress: how far it is; `sk`: the run has been left out. Up to the decision nothing has happened on
the sheet `R` yet. -/
def FlyAt (k : Nat) (R P Q : Sheet) (sk : Bool) (e : Line) (t : Task) (s : St) : TPC → Prop
  | .check _ _ => Reads t e ∧ Book k P.runs s ∧ sk = false ∧ P = R
  | .spawn _ _ _ => Reads t e ∧ Book k P.runs s ∧ sk = false ∧ Goes P e
  | .append _ _ _ => Reads t e ∧ Book k Q.runs s ∧ sk = false ∧ Goes P e
  | .gate _ _ _ => Reads t e ∧ Book k Q.runs s ∧ sk = false ∧ Goes P e
  | .rearm _ _ _ => (sk = false → e.left ≠ some 1) ∧
      Reads t { e with left := if sk then e.left else e.left.map (· - 1) } ∧ Book k Q.runs s ∧ Goes P e
  | _ => False

/-- An operation in progress. -/
inductive Opened (clock : Nat → Nat) (k : Nat) (Q : Sheet) (s : St) : Prop
  | add1 (t : Task) (c : Option Nat) (P : Sheet) (he : s.epc = .add1 t c s.secondHand) (ht : t.taskId = k)
      (hpl : Built t) (hQ : P.apply clock k (.add t) = some Q) (hn : P.now = s.ticks)
      (hc : Core k P.line s) (hm : markOf k s = P.place)
  | add2 (t : Task) (c : Option Nat) (exec : Nat)
      (he : s.epc = .add2 t c s.secondHand exec (clock s.ticks)) (ht : t.taskId = k)
      (hv : t.valid = true) (hc : Core k none s) (e : Line) (hr : Reads t e) (hl : Q.line = some e)
      (hd : e.due = firstDue s.ticks (if clock s.ticks ≤ exec then exec - clock s.ticks else k % 3600) false)
      (hp : Q.place = some (e.due % 3600))
  | add3 (tag : Tag) (m : TaskMark) (he : s.epc = .add3 tag m) (ht : m.taskId = k) (hc : Core k Q.line s)
      (hp : Q.place = some m.slotMark)
  | remove (ok : Bool) (he : s.epc = .remove k ok) (hc : Core k Q.line s) (hp : Q.place = none)
  | adv1 (t : Task) (he : s.epc = .adv1 t) (ht : t.taskId = k) (hv : t.valid = true) (hcy : t.cylinderLine = 0)
      (hc : Core k none s) (e : Line) (hr : Reads t e)
      (hl : Q.line = if Q.now % 3600 = 3599 then none else some { e with due := Q.now + 1 })
      (hm : markOf k s = Q.place)
  | adv2 (t : Task) (he : s.epc = .adv2 t s.secondHand) (ht : t.taskId = k) (hv : t.valid = true)
      (hcy : t.cylinderLine = 0) (hc : Core k none s) (e : Line) (hr : Reads t e)
      (hl : Q.line = if Q.now % 3600 = 3599 then none else some { e with due := Q.now + 1 })
      (hm : markOf k s = Q.place)

theorem Opened.engaged {clock : Nat → Nat} {k : Nat} {Q : Sheet} {s : St} (h : Opened clock k Q s) :
    Engaged k s.epc := by
  cases h <;> rw [‹s.epc = _›] <;> first | assumption | rfl

/-- Nothing is due now. -/
def Rest (P : Sheet) : Prop := ∀ e, P.line = some e → e.due ≠ P.now

/-- The state is what the sheet says: `R` with the run that is due still open, `Q` with it written down. -/
inductive Sim (clock : Nat → Nat) (k : Nat) (R Q : Sheet) (s : St) : Prop
  | still (P : Sheet) (hR : P = R ∨ Rest P) (hQ : Q = P.fire clock false) (hn : P.now = s.ticks) (hc : Core k P.line s)
      (hb : Book k P.runs s) (hm : markOf k s = P.place) (hp : ∀ i, P.place = some i → i < 3600)
      (hnm : ∀ p i u, s.tpc ≠ .mark p k i u) (he : ¬ Engaged k s.epc)
  | fly (P : Sheet) (sk : Bool) (e : Line) (t : Task) (hQ : Q = P.fire clock sk) (hn : P.now = s.ticks)
      (hl : P.line = some e) (hd : e.due = P.now) (hf : Fly k t s) (hst : FlyAt k R P Q sk e t s s.tpc)
      (hm : markOf k s = P.place) (hp : ∀ i, P.place = some i → i < 3600) (he : ¬ Engaged k s.epc)
  | marking (e : Line) (p : List Nat) (i : Nat) (u : Bool) (hn : Q.now = s.ticks) (hl : Q.line = some e)
      (hc : Core k Q.line s) (hb : Book k Q.runs s) (htpc : s.tpc = .mark p k i u) (hi : i = e.due % 3600)
      (hdue : e.due ≠ s.ticks) (hm : Q.place = (markOf k s).map (fun _ => i)) (he : ¬ Engaged k s.epc)
  | engaged (h : s.tpc = .batch []) (hn : Q.now = s.ticks) (hb : Book k Q.runs s)
      (hp : ∀ i, Q.place = some i → i < 3600) (ho : Opened clock k Q s)
  | dead (h : s.tpc = .panicked) (runs : List (Nat × Nat)) (hb : Book k runs s) (hpre : runs <+: Q.runs)

/-! ### The sheet itself -/

theorem fire_none {clock : Nat → Nat} {sk : Bool} {P : Sheet} (h : P.line = none) : P.fire clock sk = P := by
  unfold Sheet.fire; rw [h]

theorem fire_other {clock : Nat → Nat} {sk : Bool} {P : Sheet} {e : Line} (h : P.line = some e) (hd : e.due ≠ P.now) :
    P.fire clock sk = P := by
  unfold Sheet.fire; rw [h]; exact if_neg hd

theorem fire_rest {clock : Nat → Nat} {sk : Bool} {P : Sheet} (h : Rest P) : P.fire clock sk = P := by
  cases hl : P.line with
  | none => exact fire_none hl
  | some e => exact fire_other hl (h e hl)

theorem fire_struck {clock : Nat → Nat} {sk : Bool} {P : Sheet} {e : Line} (h : P.line = some e) (hd : e.due = P.now)
    (hg : ¬ Goes P e) : P.fire clock sk = { P with line := none } := by
  have hg : e.limited = true ∧ P.place = none := Decidable.byContradiction hg
  unfold Sheet.fire; rw [h]; simp [hd, hg]

theorem fire_goes {clock : Nat → Nat} {sk : Bool} {P : Sheet} {e : Line} (h : P.line = some e) (hd : e.due = P.now)
    (hg : Goes P e) : P.fire clock sk = match e.next clock P.now sk with
      | none => { P with line := none, runs := if sk then P.runs else P.runs ++ [(P.now, e.routine)] }
      | some e' => { P with
          line := some e', place := P.place.map (fun _ => e'.due % 3600),
          runs := if sk then P.runs else P.runs ++ [(P.now, e.routine)] } := by
  have hg : ¬ (e.limited = true ∧ P.place = none) := hg
  unfold Sheet.fire; rw [h]; simp only [hd, if_true, if_neg hg]; rfl

theorem fire_runs {clock : Nat → Nat} {sk : Bool} {P : Sheet} {e : Line} (h : P.line = some e) (hd : e.due = P.now)
    (hg : Goes P e) : (P.fire clock sk).runs = if sk then P.runs else P.runs ++ [(P.now, e.routine)] := by
  rw [fire_goes h hd hg]; split <;> rfl

theorem fire_cases (clock : Nat → Nat) (sk : Bool) (P : Sheet) :
    (P.fire clock sk).runs = P.runs ∨ ∃ r, (P.fire clock sk).runs = P.runs ++ [(P.now, r)] := by
  cases hl : P.line with
  | none => left; rw [fire_none hl]
  | some e =>
    by_cases hd : e.due = P.now
    · by_cases hg : Goes P e
      · rw [fire_runs hl hd hg]
        cases sk
        · exact Or.inr ⟨_, rfl⟩
        · exact Or.inl rfl
      · left; rw [fire_struck hl hd hg]
    · left; rw [fire_other hl hd]

theorem fire_prefix (clock : Nat → Nat) (sk : Bool) (P : Sheet) : P.runs <+: (P.fire clock sk).runs := by
  rcases fire_cases clock sk P with h | ⟨r, h⟩ <;> rw [h]
  · exact List.prefix_rfl
  · exact List.prefix_append _ _

theorem fire_now (clock : Nat → Nat) (sk : Bool) (P : Sheet) : (P.fire clock sk).now = P.now := by
  cases hl : P.line with
  | none => rw [fire_none hl]
  | some e =>
    by_cases hd : e.due = P.now
    · by_cases hg : Goes P e
      · rw [fire_goes hl hd hg]; split <;> rfl
      · rw [fire_struck hl hd hg]
    · rw [fire_other hl hd]

/-- A line that has had its turn is not due again in the same tick. -/
theorem fired_rest (clock : Nat → Nat) (sk : Bool) (P : Sheet) : Rest (P.fire clock sk) := by
  intro e' he'
  rw [fire_now]
  cases hl : P.line with
  | none => rw [fire_none hl, hl] at he'; cases he'
  | some e =>
    by_cases hd : e.due = P.now
    · by_cases hg : Goes P e
      · rw [fire_goes hl hd hg] at he'
        unfold Line.next at he'
        split at he'
        · cases he'
        · rename_i e1 h1
          injection he' with he'
          subst he'
          split at h1
          · cases h1
          · split at h1
            · cases h1
            · injection h1 with h1
              rw [← h1]
              show rearm clock P.now _ ≠ P.now
              unfold rearm; split <;> omega
      · rw [fire_struck hl hd hg] at he'; cases he'
    · rw [fire_other hl hd, hl] at he'; injection he' with he'; rw [← he']; exact hd

/-- The slot of a waiting task is its due tick on the dial. -/
theorem Sched.slot {k : Nat} {t : Task} {D : Nat} {s : St} (hwo : WheelOk s) (h : Sched k t D s) :
    ∃ c, inWheel s.wheel k (D % 3600) { t with cylinderLine := c } ∧
      ∀ j u, inWheel s.wheel k j u → j = D % 3600 ∧ u = { t with cylinderLine := c } := by
  obtain ⟨i, c, h1, h2, h3⟩ := h.place
  have hi : i < 3600 := by
    obtain ⟨sl, hsl, _⟩ := h1
    exact (hwo.shape.1 i).1 (by rw [hsl]; rfl)
  have hD : i = D % 3600 := by
    rcases h3 with ⟨_, h3⟩ | ⟨_, h4, _, h5, _⟩
    · have := nextVisit_mod (base s) i hi
      rw [h3]; omega
    · rw [h4, h5, hwo.hand]
  subst hD
  exact ⟨c, h1, h2⟩

/-- While the scheduler sleeps, nothing is due before the next tick. -/
theorem Sched.later {k : Nat} {t : Task} {D : Nat} {s : St} (h : Sched k t D s) (ht : s.tpc = .batch []) :
    s.ticks < D := by
  obtain ⟨i, c, _, _, h3⟩ := h.place
  rcases h3 with ⟨_, h3⟩ | ⟨h4, _⟩
  · rw [h3, base, ht]; simp only [past, if_true]; unfold nextVisit; omega
  · rw [ht] at h4; rcases h4 with h4 | h4 <;> cases h4

theorem core_rest {clock : Nat → Nat} {k : Nat} {P : Sheet} {s : St} (hc : Core k P.line s) (hn : P.now = s.ticks)
    (ht : s.tpc = .batch []) : P.fire clock false = P :=
  fire_rest fun e hl => by
    rw [hl] at hc
    obtain ⟨t, hs, _⟩ := hc
    have := hs.later ht
    omega

theorem core_later {k : Nat} {P : Sheet} {s : St} (hc : Core k P.line s) (hn : P.now = s.ticks)
    (ht : s.tpc = .batch []) : ∀ e, P.line = some e → P.now < e.due := by
  intro e hl
  rw [hl] at hc
  obtain ⟨t, hs, _⟩ := hc
  have := hs.later ht
  omega

theorem core_tok {k : Nat} {L : Option Line} {s : St} (hc : Core k L s) : tpcTok k s.tpc = [] := by
  cases L with
  | none => exact hc.1
  | some e => obtain ⟨t, hs, _⟩ := hc; exact hs.tpc

/-! ### Steps that are not operations on `k` -/

theorem engaged_apart {env : Env} {k : Nat} {s : St} {l : Label} {s' : St}
    (ha : l = .eRecv → ∀ e rest, s.chan = e :: rest → ¬ EventTouches k e) (he : ¬ Engaged k s.epc)
    (h : Act env s l s') : ¬ Engaged k s'.epc := by
  cases h
  all_goals try (exact he)
  all_goals try (simpa using he)
  all_goals try (simp only [‹s.epc = _›, Engaged, BusyWith] at he)
  all_goals try (exact he)
  all_goals try (exact ha rfl _ _ ‹s.chan = _›)
  all_goals try (simp [Engaged, BusyWith]; done)
  case recv_advance id rest m sl t he' hc hf hw hr =>
    have := ha rfl _ _ hc
    show ¬ t.taskId = k
    rw [(removeTask_some hr).2]; exact this

theorem mark_apart {env : Env} {k : Nat} {s : St} {l : Label} {s' : St} (he : ¬ Engaged k s.epc)
    (h : Act env s l s') :
    markOf k s' = markOf k s ∨
    ∃ p i u, s.tpc = .mark p k i u ∧ l = .tMark ∧ markOf k s' = some i ∧ s.flags k ≠ none := by
  rcases flag_step k h with h1 | ⟨p, i, u, m, h1, h2, h3, h4, h5⟩ | ⟨tag, m, h1, _, h2, _⟩ | ⟨ok, h1, _⟩
  · exact Or.inl h1.slot
  · exact Or.inr ⟨p, i, u, h1, h2, by rw [markOf, h3, ← h4]; rfl, h5⟩
  · rw [h1] at he; exact absurd h2 he
  · rw [h1] at he; exact absurd rfl he

theorem book_same {env : Env} {k : Nat} {runs : List (Nat × Nat)} {s : St} {l : Label} {s' : St} (hb : Book k runs s)
    (ht : tpcTok k s.tpc = [] ∨ s'.tpc = s.tpc) (h : Act env s l s') : Book k runs s' := by
  rcases starts_step k h with ⟨h1, h2⟩ | ⟨_, p, t, rec, box, e1, e2, e3, _⟩
  · exact ⟨by rw [h1]; exact hb.ticks, by rw [h2]; exact hb.routines⟩
  · rcases ht with ht | ht
    · rw [e1] at ht; simp [tpcTok, e3] at ht
    · rw [e1, e2] at ht; cases ht

/-- Nobody but the scheduler, holding `k`, can come to note a slot of `k`. -/
theorem noMark_step {env : Env} {k : Nat} {s : St} {l : Label} {s' : St} (ht : tpcTok k s.tpc = [])
    (hnm : ∀ p i u, s.tpc ≠ .mark p k i u) (h : Act env s l s') : ∀ p i u, s'.tpc ≠ .mark p k i u := by
  by_cases hl : TLabel l
  · cases h
    all_goals try (exact False.elim hl)
    all_goals try (intro p i u hx; cases hx; done)
    all_goals try (exact hnm)
    case slot_ok pending t upd exec sl step slot h hx hstep hslot hw =>
      intro p i u hx
      injection hx with _ hx
      rw [h] at ht; simp [tpcTok, hx] at ht
  · rw [(other_thread h hl).1]; exact hnm

theorem ticks_apart {env : Env} {s : St} {l : Label} {s' : St} (h : Act env s l s') (hl : l ≠ .tLapse) :
    s'.ticks = s.ticks := by
  cases h
  all_goals first | rfl | (simp; done) | exact absurd rfl hl

theorem dead_step {env : Env} {s : St} {l : Label} {s' : St} (h : Act env s l s') (hp : s.tpc = .panicked) :
    s'.tpc = .panicked := by
  by_cases hl : TLabel l
  · cases h <;> first | exact False.elim hl | simp_all
  · rw [(other_thread h hl).1]; exact hp

theorem reads_down {oc : Bool} {t t' : Task} {e : Line} {b : Bool} (hr : Reads t e)
    (hd : t.downCountAndSetValid oc = some (b, t')) :
    (b = true ↔ e.left ≠ some 1) ∧ t'.valid = b ∧
      (b = true → Reads t' { e with left := e.left.map (· - 1) }) := by
  obtain ⟨h1, h2, h3, h4, h5, h6, h7, h8⟩ := down_runs hd
  have hx : (b = true ↔ e.left ≠ some 1) ∧ runsLeft t' = e.left.map (· - 1) := by
    cases hl : e.left with
    | none => obtain ⟨h9, h10⟩ := h1 (by rw [hr.left, hl]); simp [h9, h10]
    | some r =>
      have : r ≠ 0 := by intro h0; exact hr.runs (by rw [hl, h0])
      obtain ⟨h9, h10⟩ := h2 (r - 1) (by rw [hr.left, hl]; congr 1; omega)
      rw [h9, h10]
      refine ⟨?_, rfl⟩
      simp only [ne_eq, Option.some.injEq]; omega
  refine ⟨hx.1, h3, fun hb => ⟨h5.trans hr.routine, hx.2, ?_, by rw [h6]; exact hr.limit, ?_⟩⟩
  · intro j; subst hb; rw [alarm_downCount oc j t t' true hd]; exact hr.alarms j
  · have := hx.1.1 hb
    cases hl : e.left with
    | none => simp
    | some r =>
      rw [hl] at this
      simp only [ne_eq, Option.some.injEq] at this
      have h0 : r ≠ 0 := by intro h0; exact hr.runs (by rw [hl, h0])
      simp only [Option.map_some, ne_eq, Option.some.injEq]; omega

theorem reads_cyl {t : Task} {e : Line} (hr : Reads t e) (c : Nat) : Reads { t with cylinderLine := c } e := by
  refine ⟨hr.routine, hr.left, fun j => ?_, hr.limit, hr.runs⟩
  rw [← hr.alarms j]
  apply alarm_congr <;> intros <;> simp_all

theorem sim_apart {env : Env} {k : Nat} {R Q : Sheet} {s : St} {l : Label} {s' : St} (hwo : WheelOk s) (hpo : PendOk s)
    (ha : l = .eRecv → ∀ e rest, s.chan = e :: rest → ¬ EventTouches k e) (he : ¬ Engaged k s.epc)
    (hnl : l ≠ .tLapse) (hns : sheetEvs k s l = []) (hs : Sim env.clock k R Q s) (h : Act env s l s') :
    Sim env.clock k R Q s' := by
  have hap : Apart k s l := by
    refine ⟨ha, fun _ hb => he ?_⟩
    revert hb; cases s.epc <;> simp [Engaged, BusyWith]
  have he' := engaged_apart ha he h
  have htk := ticks_apart h hnl
  have hmk := mark_apart he h
  cases hs with
  | still P hR hQ hn hc hb hm hp hnm _ =>
    have hm' : markOf k s' = P.place := by
      rcases hmk with h1 | ⟨p, i, u, h1, _⟩
      · rw [h1]; exact hm
      · exact absurd h1 (hnm _ _ _)
    have htok := core_tok hc
    have hnm' := noMark_step htok hnm h
    have hb' := book_same hb (Or.inl htok) h
    cases hl : P.line with
    | none =>
      rw [hl] at hc
      refine .still P hR hQ (hn.trans htk.symm) ?_ hb' hm' hp hnm' he'
      rw [hl]
      refine ⟨?_, ?_⟩
      · rcases tok_step htok h with h1 | ⟨u, h1⟩
        · exact h1
        · exact absurd h1 (hc.2 _ _)
      · rcases nowhere_step hap hc.2 h with h1 | ⟨_, p, t, upd, h1, h2⟩
        · exact h1
        · rw [h1] at htok; simp [tpcTok, h2] at htok
    | some e =>
      rw [hl] at hc
      obtain ⟨t, hsc, hr⟩ := hc
      rcases sched_step hap hwo hpo hsc h with h1 | ⟨_, hD, _, _, ⟨p, hpp, htpc⟩, hno⟩
      · refine .still P hR hQ (hn.trans htk.symm) ?_ hb' hm' hp hnm' he'
        rw [hl]; exact ⟨t, h1, hr⟩
      · have hid : t.taskId = k := by
          obtain ⟨i, c, h1, _⟩ := hsc.place
          exact (inWheel_id h1 :)
        refine .fly P false e { t with cylinderLine := 0 } hQ (hn.trans htk.symm) hl (hD.trans hn.symm)
          ⟨?_, ?_, hno, hsc.valid⟩ ?_ hm' hp he'
        · rw [htpc]; simp [tpcTok, hid]
        · rw [htpc]; exact hpp
        · rw [htpc]; exact ⟨reads_cyl hr 0, hb', rfl, hR.resolve_right fun h => h e hl (hD.trans hn.symm)⟩
  | fly P sk e t hQ hn hl hd hf hst hm hp _ =>
    have hnm : ∀ p i u, s.tpc ≠ .mark p k i u := by
      intro p i u hx; have := hf.tok; rw [hx] at this; cases this
    have hm' : markOf k s' = P.place := by
      rcases hmk with h1 | ⟨p, i, u, h1, _⟩
      · rw [h1]; exact hm
      · exact absurd h1 (hnm _ _ _)
    by_cases hT : TLabel l
    · have hno := hf.nowhere
      have hnp := hf.notPending
      have hpre : P.runs <+: Q.runs := by rw [hQ]; exact fire_prefix _ _ _
      have hstarts := starts_step k h
      cases h
      all_goals try (exact False.elim hT)
      all_goals try (have htok := hf.tok; rw [‹s.tpc = _›] at htok; cases htok; done)
      case check_nolimit pending u rec h hrec hmax =>
        obtain ⟨rfl, hid⟩ := tok_eq (by have := hf.tok; rw [h] at this; exact this)
        rw [h] at hnp hst
        refine .fly P sk e _ hQ hn hl hd ⟨by simp [tpcTok, hid], hnp, hno, hf.valid⟩
          ⟨hst.1, ⟨hst.2.1.1, hst.2.1.2⟩, hst.2.2.1, fun hx => ?_⟩ hm' hp he'
        have := hst.1.limit
        rw [hmax, hx.1] at this; cases this
      case check_ok pending u rec lim m h hrec hmax hfl hlt =>
        obtain ⟨rfl, hid⟩ := tok_eq (by have := hf.tok; rw [h] at this; exact this)
        rw [h] at hnp hst
        refine .fly P sk e _ hQ hn hl hd ⟨by simp [tpcTok, hid], hnp, hno, hf.valid⟩
          ⟨hst.1, ⟨hst.2.1.1, hst.2.1.2⟩, hst.2.2.1, fun hx => ?_⟩ hm' hp he'
        have h1 := hm.trans hx.2
        rw [hid] at hfl
        rw [show markOf k _ = Option.map _ _ from rfl, hfl] at h1; cases h1
      case check_nomark pending u rec lim h hrec hmax hfl =>
        obtain ⟨rfl, hid⟩ := tok_eq (by have := hf.tok; rw [h] at this; exact this)
        rw [h] at hnp hst
        have hg : ¬ Goes P e := by
          refine fun hg => hg ⟨?_, ?_⟩
          · rw [← hst.1.limit, hmax]; rfl
          · rw [hid] at hfl
            rw [← hm]; unfold markOf; rw [hfl]; rfl
        have hfire := hQ.trans (fire_struck hl hd hg)
        refine .still Q (Or.inr ?_) (fire_none (by rw [hfire])).symm (by rw [hfire]; exact hn) ?_
          (by rw [hfire]; exact ⟨hst.2.1.1, hst.2.1.2⟩) (by rw [hfire]; exact hm') (by rw [hfire]; exact hp)
          (by intro p i u hx; cases hx) he'
        · rw [hfire]; exact fun e h => nomatch h
        · rw [show Q.line = none by rw [hfire]]; exact ⟨rfl, hno⟩
      case check_skip pending u rec lim m h hrec hmax hfl hle2 =>
        obtain ⟨rfl, hid⟩ := tok_eq (by have := hf.tok; rw [h] at this; exact this)
        exfalso
        simp [sheetEvs, h, hid, Full, hmax, hid ▸ hfl, hle2] at hns
      case spawn_panic pending u rec h =>
        obtain ⟨rfl, hid⟩ := tok_eq (by have := hf.tok; rw [h] at this; exact this)
        rw [h] at hnp hst
        exact .dead rfl P.runs ⟨hst.2.1.1, hst.2.1.2⟩ hpre
      case spawn pending u rec h =>
        obtain ⟨rfl, hid⟩ := tok_eq (by have := hf.tok; rw [h] at this; exact this)
        rw [h] at hnp hst
        obtain ⟨hr1, hb1, rfl, hg⟩ := hst
        have hruns := fire_runs (clock := env.clock) (sk := false) hl hd hg
        rw [← hQ, if_neg (by simp)] at hruns
        refine .fly P false e _ hQ hn hl hd ⟨by simp [tpcTok, hid], hnp, hno, hf.valid⟩ ⟨hr1, ⟨?_, ?_⟩, rfl, hg⟩ hm' hp he'
        · rw [hruns]; simp [startTicks, hid, hb1.ticks, hn]
        · rw [hruns]; simp [startRoutines, hid, hb1.routines, hr1.routine]
      case append pending u box h =>
        obtain ⟨rfl, hid⟩ := tok_eq (by have := hf.tok; rw [h] at this; exact this)
        rw [h] at hnp hst
        refine .fly P sk e _ hQ hn hl hd ⟨by simp [tpcTok, hid], hnp, hno, hf.valid⟩ ⟨hst.1, ?_, hst.2.2⟩ hm' hp he'
        rcases hstarts with ⟨h1, h2⟩ | ⟨h1, _⟩
        · exact ⟨h1.trans hst.2.1.ticks, h2.trans hst.2.1.routines⟩
        · cases h1
      case gate_panic pending u rec h hd' =>
        obtain ⟨rfl, hid⟩ := tok_eq (by have := hf.tok; rw [h] at this; exact this)
        rw [h] at hnp hst
        have := down_panic hd'
        rw [hst.1.left] at this; exact absurd this hst.1.runs
      case gate_again pending u u' rec h hd' =>
        obtain ⟨rfl, hid⟩ := tok_eq (by have := hf.tok; rw [h] at this; exact this)
        rw [h] at hnp hst
        obtain ⟨h1, h2, h3⟩ := reads_down hst.1 hd'
        obtain ⟨_, hb1, rfl, hg⟩ := hst
        exact .fly P false e u' hQ hn hl hd ⟨by simp [tpcTok, hid, down_taskId hd'], hnp, hno, h2⟩
          ⟨fun _ => h1.1 rfl, h3 rfl, ⟨hb1.1, hb1.2⟩, hg⟩ hm' hp he'
      case gate_last pending u u' rec h hd' =>
        obtain ⟨rfl, hid⟩ := tok_eq (by have := hf.tok; rw [h] at this; exact this)
        rw [h] at hnp hst
        obtain ⟨h1, h2, h3⟩ := reads_down hst.1 hd'
        have h4 : e.left = some 1 := Decidable.byContradiction fun h => by have := h1.2 h; cases this
        obtain ⟨_, hb1, rfl, hg⟩ := hst
        have hfire : Q = { P with line := none, runs := P.runs ++ [(P.now, e.routine)] } := by
          rw [hQ, fire_goes hl hd hg]; simp [Line.next, h4]
        refine .still Q (Or.inr (by rw [hQ]; exact fired_rest _ _ _)) (fire_none (by rw [hfire])).symm
          (by rw [hfire]; exact hn) ?_ ⟨hb1.1, hb1.2⟩ (by rw [hfire]; exact hm') (by rw [hfire]; exact hp) (by intro p i u hx; cases hx) he'
        rw [show Q.line = none by rw [hfire]]; exact ⟨rfl, hno⟩
      case slot_none pending u upd h hx =>
        obtain ⟨rfl, hid⟩ := tok_eq (by have := hf.tok; rw [h] at this; exact this)
        rw [h] at hnp hst
        have h5 : e.alarms 0 = none := by rw [← hst.2.1.alarms 0]; exact hx
        have hfire : Q = { P with line := none, runs := if sk then P.runs else P.runs ++ [(P.now, e.routine)] } := by
          rw [hQ, fire_goes hl hd hst.2.2.2]; simp [Line.next, h5]
        refine .still Q (Or.inr (by rw [hQ]; exact fired_rest _ _ _)) (fire_none (by rw [hfire])).symm
          (by rw [hfire]; exact hn) ?_ ⟨hst.2.2.1.1, hst.2.2.1.2⟩ (by rw [hfire]; exact hm') (by rw [hfire]; exact hp) (by intro p i u hx; cases hx) he'
        rw [show Q.line = none by rw [hfire]]; exact ⟨rfl, hno⟩
      case slot_missing pending u upd exec h hx hw =>
        obtain ⟨rfl, hid⟩ := tok_eq (by have := hf.tok; rw [h] at this; exact this)
        rw [h] at hnp hst
        exfalso
        have := (hwo.shape.1 (((checkedSub exec (env.clock s.ticks)).getD 1 + nextSecondHand s) % SLOT_COUNT)).2
          (Nat.mod_lt _ (by decide))
        rw [hw] at this; cases this
      case slot_ok pending u upd exec sl step slot h hx hstep hslot hw =>
        obtain ⟨rfl, hid⟩ := tok_eq (by have := hf.tok; rw [h] at this; exact this)
        rw [h] at hnp hst
        have h5 : e.alarms 0 = some exec := by rw [← hst.2.1.alarms 0]; exact hx
        obtain ⟨e', he1⟩ : ∃ e' : Line, e' = ⟨e.routine, if sk then e.left else e.left.map (· - 1), e.limited, fun j => e.alarms (j + 1),
          rearm env.clock P.now exec⟩ := ⟨_, rfl⟩
        have hfire : Q = { P with
            line := some e', place := P.place.map (fun _ => e'.due % 3600),
            runs := if sk then P.runs else P.runs ++ [(P.now, e.routine)] } := by
          have hne : ¬ (sk = false ∧ e.left = some 1) := fun h => hst.1 h.1 h.2
          rw [hQ, fire_goes hl hd hst.2.2.2]; simp [Line.next, h5, hne, he1]
        have hdue : e'.due = rearm env.clock s.ticks exec := by rw [he1, ← hn]
        have hsd := rearm_sched (env := env) hwo hf h hstep hslot hw
        rw [← hdue] at hsd
        have hQl : Q.line = some e' := by rw [hfire]
        refine .marking e' pending slot upd (by rw [hfire]; exact hn) hQl ?_ ⟨hst.2.2.1.1, hst.2.2.1.2⟩
          (by rw [hid]) ?_ ?_ ?_ he'
        · rw [hQl]
          refine ⟨_, hsd, ?_⟩
          rw [he1]
          refine ⟨hst.2.1.routine, ?_, ?_, hst.2.1.limit, hst.2.1.runs⟩
          · rw [runsLeft_ask]; exact hst.2.1.left
          · intro j; exact hst.2.1.alarms (j + 1)
        · have hr : rearm env.clock s.ticks exec = s.ticks + 1 + step := by
            rw [hstep]; unfold rearm checkedSub
            split <;> simp <;> omega
          rw [hdue, hr, hslot, nextSecondHand, hwo.hand]
          have : SLOT_COUNT = 3600 := rfl
          omega
        · show e'.due ≠ s.ticks
          rw [hdue]; unfold rearm; split <;> omega
        · rw [hm', hfire]
          have : slot = e'.due % 3600 := by
            have hr : rearm env.clock s.ticks exec = s.ticks + 1 + step := by
              rw [hstep]; unfold rearm checkedSub
              split <;> simp <;> omega
            rw [hdue, hr, hslot, nextSecondHand, hwo.hand]
            have : SLOT_COUNT = 3600 := rfl
            omega
          rw [this]
    · obtain ⟨e1, e2, e3⟩ := other_thread h hT
      refine .fly P sk e t hQ (hn.trans htk.symm) hl hd ⟨by rw [e1]; exact hf.tok, by rw [e1]; exact hf.notPending, ?_, hf.valid⟩
        ?_ hm' hp he'
      · rcases nowhere_step hap hf.nowhere h with h1 | ⟨h1, _⟩
        · exact h1
        · subst h1; exact absurd trivial hT
      · have hbk : ∀ runs, Book k runs s → Book k runs s' := fun runs hb => book_same hb (Or.inr e1) h
        rw [e1]
        cases hp : s.tpc <;> rw [hp] at hst <;> simp only [FlyAt] at hst ⊢
        · exact ⟨hst.1, hbk _ hst.2.1, hst.2.2⟩
        · exact ⟨hst.1, hbk _ hst.2.1, hst.2.2⟩
        · exact ⟨hst.1, hbk _ hst.2.1, hst.2.2⟩
        · exact ⟨hst.1, hbk _ hst.2.1, hst.2.2⟩
        · exact ⟨hst.1, hst.2.1, hbk _ hst.2.2.1, hst.2.2.2⟩
  | marking e p i u hn hl hc hb htpc hi hdue hm _ =>
    have htok := core_tok hc
    have hb' := book_same hb (Or.inl htok) h
    rw [hl] at hc
    obtain ⟨t, hsc, hr⟩ := hc
    have hsc' : Sched k t e.due s' := by
      rcases sched_step hap hwo hpo hsc h with h1 | ⟨h1, _⟩
      · exact h1
      · subst h1
        cases h <;> (rw [htpc] at *; rename_i hx; first | cases hx | skip)
        all_goals simp_all
    by_cases hT : l = .tMark
    · subst hT
      have hpl : markOf k s' = Q.place := by
        rcases hmk with h1 | ⟨p', i', u', h1, _, h2, h3⟩
        · cases h
          · rename_i pending id slot upd h' hf
            rw [htpc] at h'; cases h'
            rw [h1, hm]
            simp [markOf, hf]
          · rename_i pending id slot upd m h' hf
            rw [htpc] at h'; cases h'
            rw [hm]
            simp [markOf, set_same, hf]
        · rw [htpc] at h1; cases h1
          rw [h2, hm]
          unfold markOf
          cases hx : s.flags k with
          | none => exact absurd hx h3
          | some m => rfl
      refine .still Q (Or.inr fun e' he' => by rw [hl] at he'; cases he'; rw [hn]; exact hdue)
        (fire_other hl (by rw [hn]; exact hdue)).symm (hn.trans htk.symm) ?_ hb' hpl ?_ ?_ he'
      · rw [hl]; exact ⟨t, hsc', hr⟩
      · intro j hj
        rw [hm] at hj
        cases hx : markOf k s with
        | none => rw [hx] at hj; cases hj
        | some m => rw [hx] at hj; cases hj; rw [hi]; exact Nat.mod_lt _ (by decide)
      · cases h <;> (intro p i u hx; cases hx)
    · have htp : s'.tpc = s.tpc := by
        by_cases hT' : TLabel l
        · exfalso
          cases h <;> first | exact hT' | (rw [htpc] at *; simp_all; done) | exact hT rfl
        · exact (other_thread h hT').1
      have hm' : markOf k s' = markOf k s := by
        rcases hmk with h1 | ⟨_, _, _, _, h1, _⟩
        · exact h1
        · exact absurd h1 hT
      refine .marking e p i u (hn.trans htk.symm) hl ?_ hb' (htp.trans htpc) hi (by rw [htk]; exact hdue)
        (by rw [hm']; exact hm) he'
      rw [hl]; exact ⟨t, hsc', hr⟩
  | engaged _ _ _ _ ho => exact absurd ho.engaged he
  | dead h' runs hb hpre =>
    exact .dead (dead_step h h') runs (book_same hb (Or.inl (by rw [h']; rfl)) h) hpre

/-! ### Ticks -/

theorem sim_lapse {env : Env} {k : Nat} {R Q : Sheet} {s : St} {s' : St} (hwo : WheelOk s) (hpo : PendOk s)
    (he : ¬ Engaged k s.epc) (hs : Sim env.clock k R Q s) (h : Act env s .tLapse s') :
    Sim env.clock k { Q with now := Q.now + 1 } (Q.turn env.clock) s' := by
  have ht : s.tpc = .batch [] := by cases h; assumption
  have hap : Apart k s .tLapse := by
    refine ⟨(fun h => nomatch h), fun _ hb => he ?_⟩
    revert hb; cases s.epc <;> simp [Engaged, BusyWith]
  cases hs with
  | still P hR hQ hn hc hb hm hp hnm _ =>
    rw [core_rest hc hn ht] at hQ
    subst hQ
    have htok := core_tok hc
    have hb' := book_same hb (Or.inl htok) h
    have hm' : markOf k s' = markOf k s := by
      rcases mark_apart he h with h1 | ⟨_, _, _, _, h1, _⟩
      · exact h1
      · cases h1
    refine .still { Q with now := Q.now + 1 } (Or.inl rfl) rfl ?_ ?_ hb' (hm'.trans hm) hp (noMark_step htok hnm h)
      (engaged_apart hap.head he h)
    · cases h; simp [hn]
    · show Core k Q.line s'
      cases hl : Q.line with
      | none =>
        rw [hl] at hc
        cases h
        exact ⟨rfl, hc.2⟩
      | some e =>
        rw [hl] at hc
        obtain ⟨t, hsc, hr⟩ := hc
        rcases sched_step hap hwo hpo hsc h with h1 | ⟨h1, _⟩
        · exact ⟨t, h1, hr⟩
        · cases h1
  | fly P sk e t hQ hn hl hd hf hst hm hp _ => rw [ht] at hst; cases hst
  | marking e p i u hn hl hc hb htpc => rw [ht] at htpc; cases htpc
  | engaged _ _ _ _ ho => exact absurd ho.engaged he
  | dead h' => rw [ht] at h'; cases h'

/-! ### Operations on `k` -/

theorem timeNow {env : Env} {s : St} (h : Reachable env s) {p : List Nat} (ht : s.tpc = .batch p) :
    s.globalTime = env.clock s.ticks := by
  have := (Reachable.induct (fun s => TimeOk env s ∧ (s.tpc = .head ∨ s.tpc = .store ∨
    s.globalTime = env.clock s.ticks ∨ s.tpc = .halted)) ⟨Or.inl ⟨rfl, rfl⟩, Or.inl rfl⟩
    (fun s l s' hr hs h => timeOk_step hs.2 hs.1 h) s h).2
  rw [ht] at this
  rcases this with h | h | h | h
  · cases h
  · cases h
  · exact h
  · cases h

/-- What the threads other than the scheduler and the event thread leave alone. -/
theorem bystander {env : Env} {s : St} {l : Label} {s' : St} (hT : ¬ TLabel l) (h1 : l ≠ .eRecv) (h2 : l ≠ .eNext)
    (h : Act env s l s') : s'.wheel = s.wheel ∧ s'.flags = s.flags ∧ s'.epc = s.epc := by
  cases h
  all_goals try (exact absurd trivial hT)
  all_goals try (exact absurd rfl h1)
  all_goals try (exact absurd rfl h2)
  all_goals first | exact ⟨rfl, rfl, rfl⟩ | simp

theorem Core.frame {k : Nat} {L : Option Line} {s s' : St} (h : Core k L s)
    (hw : ∀ j u, inWheel s'.wheel k j u ↔ inWheel s.wheel k j u) (ht : s'.tpc = s.tpc) (htk : s'.ticks = s.ticks)
    (hh : s'.secondHand = s.secondHand) : Core k L s' := by
  cases L with
  | none => exact ⟨by rw [ht]; exact h.1, fun j u hj => h.2 j u ((hw j u).1 hj)⟩
  | some e =>
    obtain ⟨t, hs, hr⟩ := h
    exact ⟨t, hs.frame hw (by rw [ht]; exact hs.tpc) (Or.inl ⟨by rw [ht], fun h => by rw [ht]; exact h⟩)
      (by rw [ht]) htk hh, hr⟩

theorem rest_still {clock : Nat → Nat} {k : Nat} {R Q : Sheet} {s : St} (ht : s.tpc = .batch []) (hn : Q.now = s.ticks)
    (hc : Core k Q.line s) (hb : Book k Q.runs s) (hm : markOf k s = Q.place)
    (hp : ∀ i, Q.place = some i → i < 3600) (he : ¬ Engaged k s.epc) : Sim clock k R Q s :=
  .still Q (Or.inr fun e hl => Nat.ne_of_gt (core_later hc hn ht e hl)) (core_rest hc hn ht).symm hn hc hb hm hp (by intro p i u hx; rw [ht] at hx; cases hx) he

/-- The others act while an operation on `k` is in progress. -/
theorem sim_others {env : Env} {k : Nat} {R Q : Sheet} {s : St} {l : Label} {s' : St}
    (ht : s.tpc = .batch []) (hn : Q.now = s.ticks) (hb : Book k Q.runs s)
    (hp : ∀ i, Q.place = some i → i < 3600) (ho : Opened env.clock k Q s) (hnl : l ≠ .tLapse) (hne : l ≠ .eNext)
    (h : Act env s l s') : Sim env.clock k R Q s' := by
  have hT : ¬ TLabel l := by
    intro hT
    cases h
    all_goals try (exact False.elim hT)
    all_goals try (have hx := ht.symm.trans ‹s.tpc = _›; cases hx; done)
    all_goals try (have hx := ht.symm.trans ‹s.tpc = _›; cases hx; cases ‹_ ∈ []›; done)
    exact hnl rfl
  have hnr : l ≠ .eRecv := by
    intro hl; subst hl
    have he : s.epc = .idle := by cases h <;> assumption
    have := ho.engaged
    rw [he] at this; exact this
  obtain ⟨e1, e2, e3⟩ := other_thread h hT
  obtain ⟨w1, w2, w3⟩ := bystander hT hnr hne h
  have hcf : ∀ L, Core k L s → Core k L s' := fun L hc => hc.frame (fun j u => by rw [w1]) e1 e2 e3
  have hmf : markOf k s' = markOf k s := by unfold markOf; rw [w2]
  refine .engaged (e1.trans ht) (hn.trans e2.symm) (book_same hb (Or.inr e1) h) hp ?_
  cases ho with
  | add1 t c P he htk hpl hQ hn' hc hm =>
    exact .add1 t c P (by rw [w3, e3]; exact he) htk hpl hQ (hn'.trans e2.symm) (hcf _ hc) (hmf.trans hm)
  | add2 t c exec he htk hv hc e hr hl hd hpp =>
    exact .add2 t c exec (by rw [w3, e3, e2]; exact he) htk hv (hcf _ hc) e hr hl (by rw [e2]; exact hd) hpp
  | add3 tag m he htk hc hpp => exact .add3 tag m (w3.trans he) htk (hcf _ hc) hpp
  | remove ok he hc hpp => exact .remove ok (w3.trans he) (hcf _ hc) hpp
  | adv1 t he htk hv hcy hc e hr hl hm => exact .adv1 t (w3.trans he) htk hv hcy (hcf _ hc) e hr hl (hmf.trans hm)
  | adv2 t he htk hv hcy hc e hr hl hm =>
    exact .adv2 t (by rw [w3, e3]; exact he) htk hv hcy (hcf _ hc) e hr hl (hmf.trans hm)

theorem core_absent {k : Nat} {s : St} (hc : Core k none s) (ht : s.tpc = .batch []) : Absent k s :=
  absent_iff.2 ⟨hc.2, hc.1, by rw [ht]; simp [pendingOf]⟩

/-- The event thread goes on with an operation on `k`. -/
theorem sim_next {env : Env} {k : Nat} {R Q : Sheet} {s : St} {s' : St} (hre : Reachable env s)
    (ht : s.tpc = .batch []) (hn : Q.now = s.ticks) (hb : Book k Q.runs s)
    (hp : ∀ i, Q.place = some i → i < 3600) (ho : Opened env.clock k Q s) (hstep : step env s .eNext = some s') :
    Sim env.clock k R Q s' := by
  have hwo := wheelOk hre
  have h := step_act hstep
  obtain ⟨e1, e2, e3⟩ := other_thread h (by simp [TLabel])
  have ht' := e1.trans ht
  have hn' := hn.trans e2.symm
  have hb' := book_same hb (Or.inr e1) h
  have hSC : SLOT_COUNT = 3600 := rfl
  cases ho with
  | add1 t c P he htk hpl hQ hnP hc hm =>
    cases h
    all_goals try (have hx := he.symm.trans ‹s.epc = _›; cases hx; done)
    case next_add1_err t' c' hand he' hnone =>
      have hx := he.symm.trans he'; cases hx
      have hal : alarm 0 t = none := hnone
      simp only [Sheet.apply, hal, Option.some.injEq] at hQ
      subst hQ
      refine rest_still ht' hn' (hc.frame (fun j u => by simp) e1 e2 e3) hb' ?_ hp (by simp [Engaged, BusyWith])
      rw [← hm]; unfold markOf; simp
    case next_add1 t' c' hand exec he' hsome =>
      have hx := he.symm.trans he'; cases hx
      have hal : alarm 0 t = some exec := hsome
      cases hl : P.line with
      | some e => simp [Sheet.apply, hal, hl] at hQ
      | none =>
        simp only [Sheet.apply, hal, hl, Option.some.injEq] at hQ
        subst hQ
        rw [hl] at hc
        refine .engaged ht' hn' hb' hp (.add2 t.getNextExecTimestamp.2 c exec ?_ htk hpl.valid
          (hc.frame (fun _ _ => Iff.rfl) rfl rfl rfl) _ ?_ rfl ?_ rfl)
        · show EPC.add2 _ _ _ _ _ = _
          rw [timeNow hre ht]
        · refine ⟨rfl, runsLeft_ask t, fun j => rfl, rfl, hpl.runs⟩
        · show firstDue _ _ _ = _
          rw [hnP]
  | add2 t c exec he htk hv hc e hr hl hd hpp =>
    have i1 := (insert_sched hwo he htk hv (core_absent hc ht) hstep).1
    have hdue : nextVisit (base s) (((checkedSub exec (env.clock s.ticks)).getD (k % SLOT_COUNT) + s.secondHand + 1) % SLOT_COUNT) +
      3600 * (((checkedSub exec (env.clock s.ticks)).getD (k % SLOT_COUNT) + s.secondHand + 1) / SLOT_COUNT) = e.due ∧
      ((checkedSub exec (env.clock s.ticks)).getD (k % SLOT_COUNT) + s.secondHand + 1) % SLOT_COUNT = e.due % 3600 := by
      have hbase : base s = s.ticks + 1 := by simp [base, ht, past]
      have hd' : (checkedSub exec (env.clock s.ticks)).getD (k % SLOT_COUNT) =
          if env.clock s.ticks ≤ exec then exec - env.clock s.ticks else k % 3600 := by
        unfold checkedSub; split <;> simp
      rw [hd, hd', hbase, hwo.hand, hSC]
      generalize (if env.clock s.ticks ≤ exec then exec - env.clock s.ticks else k % 3600) = d
      unfold firstDue nextVisit
      simp only [Bool.false_eq_true, and_false, or_false]
      split <;> omega
    rw [hdue.1] at i1
    cases h
    all_goals try (have hx := he.symm.trans ‹s.epc = _›; cases hx; done)
    case next_add2 t' c' hand exec' ts seed slot sl he' hseed hslot hw =>
      have hx := he.symm.trans he'; cases hx
      refine .engaged ht' hn' hb' hp (.add3 _ _ rfl htk ?_ ?_)
      · rw [hl]; exact ⟨t, i1, hr⟩
      · rw [hpp, ← hdue.2, hslot, hseed, htk]
    case next_add2_missing t' c' hand exec' ts seed slot he' hseed hslot hw =>
      exfalso
      have := (hwo.shape.1 slot).2 (by rw [hslot]; exact Nat.mod_lt _ (by decide))
      rw [hw] at this; cases this
  | add3 tag m he htk hc hpp =>
    cases h
    all_goals try (have hx := he.symm.trans ‹s.epc = _›; cases hx; done)
    case next_add3 tag' m' he' =>
      have hx := he.symm.trans he'; cases hx
      refine rest_still ht' hn' (hc.frame (fun j u => by simp) e1 e2 e3) hb' ?_ hp (by simp [Engaged, BusyWith])
      rw [hpp]; unfold markOf
      rw [done_flags]
      show (set s.flags m.taskId (some m) k).map _ = _
      rw [htk, set_same]; rfl
  | remove ok he hc hpp =>
    cases h
    all_goals try (have hx := he.symm.trans ‹s.epc = _›; cases hx; done)
    case next_remove id' ok' he' =>
      have hx := he.symm.trans he'; cases hx
      refine rest_still ht' hn' (hc.frame (fun j u => by simp) e1 e2 e3) hb' ?_ hp (by simp [Engaged, BusyWith])
      rw [hpp]; unfold markOf
      rw [done_flags]
      show (set s.flags k none k).map _ = _
      rw [set_same]; rfl
  | adv1 t he htk hv hcy hc e hr hl hm =>
    cases h
    all_goals try (have hx := he.symm.trans ‹s.epc = _›; cases hx; done)
    case next_adv1 t' he' =>
      have hx := he.symm.trans he'; cases hx
      exact .engaged ht' hn' hb' hp (.adv2 t rfl htk hv hcy (hc.frame (fun _ _ => Iff.rfl) rfl rfl rfl) e hr hl hm)
  | adv2 t he htk hv hcy hc e hr hl hm =>
    have hh := hwo.hand
    by_cases h99 : s.ticks % 3600 = 3599
    · rw [hn, if_pos h99] at hl
      cases h
      all_goals try (have hx := he.symm.trans ‹s.epc = _›; cases hx; done)
      case next_adv2 t' hand sl he' hw =>
        exfalso
        have hx := he.symm.trans he'; cases hx
        have := (hwo.shape.1 (s.secondHand + 1)).1 (by rw [hw]; rfl)
        rw [hh, h99] at this
        exact absurd this (by decide)
      case next_adv2_missing t' hand he' hw =>
        refine rest_still ht' hn' ?_ hb' ?_ hp (by simp [Engaged, BusyWith])
        · rw [hl]; exact hc.frame (fun j u => by simp) e1 e2 e3
        · rw [← hm]; unfold markOf; simp
    · rw [hn, if_neg h99] at hl
      obtain ⟨a1, _, _, _, a2, _, a3, _⟩ := advance_sched hwo he (by rw [hh]; omega) htk hcy hv (core_absent hc ht) hstep
      refine rest_still ht' hn' ?_ hb' ?_ hp (by rw [a3]; simp [Engaged, BusyWith])
      · rw [hl]
        refine ⟨t, ?_, hr.routine, hr.left, hr.alarms, hr.limit, hr.runs⟩
        have : nextVisit (base s) (s.secondHand + 1) = s.ticks + 1 := by
          have hbase : base s = s.ticks + 1 := by simp [base, ht, past]
          rw [hbase]; exact nextVisit_self _ _ (by omega)
        rw [← this]; exact a1
      · rw [← hm]; unfold markOf; rw [a2]

theorem apply_facts {clock : Nat → Nat} {k : Nat} {P Q : Sheet} {o : SheetOp} (h : P.apply clock k o = some Q)
    (hp : ∀ i, P.place = some i → i < 3600) :
    Q.now = P.now ∧ Q.runs = P.runs ∧ ∀ i, Q.place = some i → i < 3600 := by
  cases o <;> simp only [Sheet.apply] at h <;> (repeat' split at h) <;>
    simp only [Option.some.injEq, reduceCtorEq] at h <;> subst h <;>
    first
    | exact ⟨rfl, rfl, hp⟩
    | (refine ⟨rfl, rfl, fun i hi => ?_⟩; cases hi; done)
    | (refine ⟨rfl, rfl, fun i hi => ?_⟩; injection hi with hi; rw [← hi]; exact Nat.mod_lt _ (by decide))

theorem apply_later {clock : Nat → Nat} {k : Nat} {P Q : Sheet} {o : SheetOp} (h : P.apply clock k o = some Q)
    (hp : ∀ e, P.line = some e → P.now < e.due) : ∀ e, Q.line = some e → Q.now < e.due := by
  have hf : ∀ d, P.now < firstDue P.now d false := by
    intro d; unfold firstDue; simp only [Bool.false_eq_true, and_false, or_false]; split <;> omega
  have hv : ∀ i, P.now < visit P.now i := by intro i; unfold visit; omega
  intro e he
  cases o <;> simp only [Sheet.apply] at h <;> (repeat' split at h) <;>
    simp only [Option.some.injEq, reduceCtorEq] at h <;> subst h <;>
    first
    | exact hp e he
    | (injection he with he; rw [← he]; exact hf _)
    | (injection he with he; rw [← he]; exact hv _)
    | skip
  all_goals
    first
    | (cases he; done)
    | (injection he with he; rw [← he]; exact Nat.lt_succ_self _)
    | (injection he with he; rw [← he]; exact hp _ ‹_›)

theorem skip_label {k : Nat} {s : St} {l : Label} (hns : sheetEvs k s l = [.skip]) : ∃ rec, l = .tCheck rec := by
  cases l <;> simp only [sheetEvs] at hns <;> first | exact ⟨_, rfl⟩ | (cases hns; done) | skip
  split at hns
  · cases hns
  · rename_i e _ _
    cases e <;> simp only [opOf] at hns <;> (try split at hns) <;> cases hns

theorem skip_check {k : Nat} {s : St} {l : Label} (hns : sheetEvs k s l = [.skip]) :
    ∃ pending u, s.tpc = .check pending u ∧ u.taskId = k ∧ Full s u = true := by
  obtain ⟨rec, rfl⟩ := skip_label hns
  simp only [sheetEvs] at hns
  split at hns
  · rename_i p u hp
    split at hns
    · exact ⟨p, u, hp, ‹_ ∧ _›.1, ‹_ ∧ _›.2⟩
    · cases hns
  · cases hns

/-- The scheduler leaves a run of `k` out. -/
theorem sim_skip {env : Env} {k : Nat} {R Q : Sheet} {s : St} {l : Label} {s' : St}
    (hns : sheetEvs k s l = [.skip]) (hs : Sim env.clock k R Q s) (h : Act env s l s') :
    Sim env.clock k (R.fire env.clock true) (R.fire env.clock true) s' := by
  obtain ⟨pending, u, hp, hid, hfull⟩ := skip_check hns
  obtain ⟨rec, rfl⟩ := skip_label hns
  cases hs with
  | still P hR hQ hn hc => have := core_tok hc; rw [hp] at this; simp [tpcTok, hid] at this
  | marking e p i u hn hl hc hb htpc => rw [hp] at htpc; cases htpc
  | engaged h' => rw [hp] at h'; cases h'
  | dead h' => rw [hp] at h'; cases h'
  | fly P sk e t hQ hn hl hd hf hst hm hpl he =>
    rw [hp] at hst
    obtain ⟨hrd, hb, rfl, rfl⟩ := hst
    have hnp := hf.notPending
    rw [hp] at hnp
    cases h
    case check_nolimit pending' u' h hmax hrec =>
      rw [hp] at h; cases h
      simp [Full, hmax] at hfull
    case check_nomark pending' u' lim h hmax hfl hrec =>
      rw [hp] at h; cases h
      simp [Full, hmax, hfl] at hfull
    case check_ok pending' u' lim m h hmax hfl hlt hrec =>
      rw [hp] at h; cases h
      simp only [Full, hmax, hfl, decide_eq_true_eq] at hfull
      omega
    case check_skip pending' u' lim m h hmax hfl hle hrec =>
      rw [hp] at h; cases h
      obtain ⟨rfl, _⟩ := tok_eq (by have := hf.tok; rw [hp] at this; exact this)
      have hg : Goes P e := by
        intro hx
        have h1 := hm.trans hx.2
        rw [hid] at hfl
        unfold markOf at h1
        rw [hfl] at h1; cases h1
      have hruns := fire_runs (clock := env.clock) (sk := true) hl hd hg
      rw [if_pos rfl] at hruns
      refine .fly P true e t rfl hn hl hd ⟨by simp [tpcTok, hid], hnp, hf.nowhere, hf.valid⟩
        ⟨(fun h => nomatch h), ?_, ?_, hg⟩ hm hpl he
      · exact hrd
      · rw [hruns]
        exact ⟨by simp [startTicks]; exact hb.ticks, by simp [startRoutines]; exact hb.routines⟩

/-- An event on `k` is taken up while the scheduler sleeps. -/
theorem sim_recv {env : Env} {k : Nat} {R R' Q Q' : Sheet} {o : SheetOp} {s : St} {s' : St} {ev : TimerEvent}
    {rest : List TimerEvent} (hre : Reachable env s) (ht : s.tpc = .batch []) (hch : s.chan = ev :: rest)
    (hop : opOf k ev = [.op o]) (hpl : SheetEv.Built (.op o)) (hap : Q.apply env.clock k o = some Q')
    (hs : Sim env.clock k R Q s) (h : Act env s .eRecv s') : Sim env.clock k R' Q' s' ∧ Rest Q' := by
  have hwo := wheelOk hre
  have hidle : s.epc = .idle := by cases h <;> assumption
  obtain ⟨e1, e2, e3⟩ := other_thread h (by simp [TLabel])
  have ht' := e1.trans ht
  have hbase : base s = s.ticks + 1 := by simp [base, ht, past]
  cases hs with
  | fly P sk e t hQ hn hl hd hf hst hm hp _ => rw [ht] at hst; cases hst
  | marking e p i u hn hl hc hb htpc => rw [ht] at htpc; cases htpc
  | engaged _ _ _ _ ho => have := ho.engaged; rw [hidle] at this; exact absurd this id
  | dead h' => rw [ht] at h'; cases h'
  | still P hR hQ hn hc hb hm hp hnm _ =>
    rw [core_rest hc hn ht] at hQ
    subst hQ
    refine ⟨?_, fun e hl => Nat.ne_of_gt (apply_later hap (core_later hc hn ht) e hl)⟩
    have hb' := book_same hb (Or.inr e1) h
    obtain ⟨q1, q2, q3⟩ := apply_facts hap hp
    have hn' : Q'.now = s'.ticks := by rw [q1, e2]; exact hn
    rw [← q2] at hb'
    cases h
    all_goals try (have hx := hch.symm.trans ‹s.chan = _›; cases hx; simp [opOf] at hop; done)
    case recv_add t rest' he' hc' =>
      have hx := hch.symm.trans hc'; cases hx
      simp only [opOf] at hop
      split at hop
      · rename_i hk
        cases hop
        exact .engaged ht' hn' hb' q3 (.add1 t none Q rfl hk hpl hap hn (hc.frame (fun _ _ => Iff.rfl) rfl rfl rfl) hm)
      · cases hop
    case recv_insert t c rest' he' hc' =>
      have hx := hch.symm.trans hc'; cases hx
      simp only [opOf] at hop
      split at hop
      · rename_i hk
        cases hop
        exact .engaged ht' hn' hb' q3
          (.add1 t (some c) Q rfl hk hpl hap hn (hc.frame (fun _ _ => Iff.rfl) rfl rfl rfl) hm)
      · cases hop
    case recv_update_skip u rest' he' hc' hsk =>
      have hx := hch.symm.trans hc'; cases hx
      simp only [opOf] at hop
      split at hop
      rotate_left
      · cases hop
      rename_i hk
      cases hop
      have hpn : Q.place = none := by
        rw [← hm]; unfold markOf
        cases hfl : s.flags k with
        | none => rfl
        | some m =>
          exfalso
          have hlt := hp m.slotMark (by rw [← hm]; unfold markOf; rw [hfl]; rfl)
          have := (hwo.shape.1 m.slotMark).2 hlt
          rw [show s.wheel m.slotMark = none from hsk m (by rw [hk]; exact hfl)] at this; cases this
      simp only [Sheet.apply, hpn, Option.some.injEq] at hap
      subst hap
      refine rest_still ht' hn' (hc.frame (fun j u => by simp) e1 e2 e3) hb' ?_ hp (by simp [Engaged, BusyWith])
      rw [← hm]; unfold markOf; simp
    case recv_update u rest' m sl he' hc' hf hw =>
      have hx := hch.symm.trans hc'; cases hx
      simp only [opOf] at hop
      split at hop
      rotate_left
      · cases hop
      rename_i hk
      cases hop
      have hfl : s.flags k = some m := hk ▸ hf
      have hpn : Q.place = some m.slotMark := by rw [← hm]; unfold markOf; rw [hfl]; rfl
      have hold : ∀ j v, inWheel s.wheel k j v → j = m.slotMark := by
        intro j v hj
        cases hl : Q.line with
        | none => rw [hl] at hc; exact absurd hj (hc.2 j v)
        | some e =>
          rw [hl] at hc
          obtain ⟨t, hsc, _⟩ := hc
          obtain ⟨c, _, hu⟩ := hsc.slot hwo
          rw [(hu j v hj).1]
          simp only [Sheet.apply, hpn, hl] at hap
          split at hap
          · assumption
          · cases hap
      have hQ' : Q' = { Q with line := some ⟨u.routine, runsLeft u, u.maximumParallelRunnableNum.isSome, fun j => alarm j u, visit Q.now m.slotMark⟩ } := by
        cases hl : Q.line with
        | none =>
          simp only [Sheet.apply, hpn, hl, Option.some.injEq] at hap
          rw [hpn]; exact hap.symm
        | some e =>
          simp only [Sheet.apply, hpn, hl] at hap
          split at hap
          · simp only [Option.some.injEq] at hap; rw [hpn]; exact hap.symm
          · cases hap
      have hin : ∀ j v, inWheel (set s.wheel m.slotMark (some (sl.updateTask u))) k j v ↔ j = m.slotMark ∧ v = u := by
        intro j v
        rw [inWheel_update hw]
        constructor
        · rintro (⟨h6, h7, _⟩ | ⟨h6, h7⟩)
          · exact ⟨h6, h7⟩
          · exact absurd hk (h7 (hold j v h6))
        · rintro ⟨h6, h7⟩; exact Or.inl ⟨h6, h7, hk⟩
      have hcy : { u with cylinderLine := 0 } = u := by rw [← hpl.cylinder]
      have hle : Q'.line = some ⟨u.routine, runsLeft u, u.maximumParallelRunnableNum.isSome, fun j => alarm j u, visit Q.now m.slotMark⟩ := by rw [hQ']
      refine rest_still ht' hn' ?_ hb' ?_ q3 (by simp [Engaged, BusyWith])
      · rw [hle]
        refine ⟨u, ⟨hpl.valid, by rw [ht']; rfl, m.slotMark, 0, ?_, ?_, Or.inl ⟨by rw [ht']; simp [pendingOf], ?_⟩⟩,
          rfl, rfl, fun _ => rfl, rfl, hpl.runs⟩
        · rw [done_wheel, hcy]; exact (hin _ _).2 ⟨rfl, rfl⟩
        · intro j v hj
          rw [done_wheel] at hj
          rw [hcy]; exact (hin _ _).1 hj
        · unfold base
          rw [ht', e2, hn]
          simp only [past, if_true, visit, nextVisit, Nat.mul_zero, Nat.add_zero]
      · rw [hQ', ← hm]; unfold markOf; simp
    case recv_advance_err id' rest' he' hc' hsk =>
      have hx := hch.symm.trans hc'; cases hx
      simp only [opOf] at hop
      split at hop
      rotate_left
      · cases hop
      rename_i hk
      cases hop
      subst hk
      have hQ' : Q' = Q := by
        cases hl : Q.line with
        | none => simp only [Sheet.apply, hl, Option.some.injEq] at hap; exact hap.symm
        | some e =>
          simp only [Sheet.apply, hl] at hap
          split at hap
          · rename_i hpe
            exfalso
            rw [hl] at hc
            obtain ⟨t, hsc, _⟩ := hc
            obtain ⟨c, hin, _⟩ := hsc.slot hwo
            obtain ⟨sl, h1, h2, h3⟩ := hin
            rw [← hm] at hpe
            unfold markOf at hpe
            cases hfl : s.flags id' with
            | none => rw [hfl] at hpe; cases hpe
            | some m =>
              rw [hfl] at hpe
              injection hpe with hpe
              have hpe : m.slotMark = e.due % 3600 := hpe
              have := hsk m sl hfl (by rw [hpe]; exact h1)
              exact removeTask_none this _ h2 h3
          · simp only [Option.some.injEq] at hap; exact hap.symm
      subst hQ'
      refine rest_still ht' hn' (hc.frame (fun j u => by simp) e1 e2 e3) hb' ?_ hp (by simp [Engaged, BusyWith])
      rw [← hm]; unfold markOf; simp
    case recv_advance id' rest' m sl t he' hc' hf hw hr =>
      have hx := hch.symm.trans hc'; cases hx
      simp only [opOf] at hop
      split at hop
      rotate_left
      · cases hop
      rename_i hk
      cases hop
      subst hk
      obtain ⟨r1, r2⟩ := removeTask_some hr
      have hfl : s.flags id' = some m := hf
      have hpn : Q.place = some m.slotMark := by rw [← hm]; unfold markOf; rw [hfl]; rfl
      have hinw : inWheel s.wheel id' m.slotMark t := ⟨sl, hw, r1, r2⟩
      cases hl : Q.line with
      | none => rw [hl] at hc; exact absurd hinw (hc.2 _ _)
      | some e =>
        rw [hl] at hc
        obtain ⟨t0, hsc, hrd⟩ := hc
        obtain ⟨c, _, hu⟩ := hsc.slot hwo
        have h1 := hu _ _ hinw
        simp only [Sheet.apply, hl, hpn] at hap
        rw [if_pos (by rw [h1.1])] at hap
        simp only [Option.some.injEq] at hap
        subst hap
        refine .engaged ht' hn' hb' q3 (.adv1 _ rfl r2 ?_ rfl ⟨hsc.tpc, ?_⟩ e ?_ rfl (hm.trans hpn))
        · rw [h1.2]; exact hsc.valid
        · intro j v hj
          rw [show St.wheel _ = _ from rfl, inWheel_remove hw] at hj
          exact hj.2 ((hu j v hj.1).1.trans h1.1.symm) rfl
        · rw [h1.2]; exact reads_cyl (reads_cyl hrd c) 0
    case recv_remove_skip id' rest' he' hc' hsk =>
      have hx := hch.symm.trans hc'; cases hx
      simp only [opOf] at hop
      split at hop
      rotate_left
      · cases hop
      rename_i hk
      cases hop
      subst hk
      have hpn : Q.place = none := by
        rw [← hm]; unfold markOf
        cases hfl : s.flags id' with
        | none => rfl
        | some m =>
          exfalso
          have hlt := hp m.slotMark (by rw [← hm]; unfold markOf; rw [hfl]; rfl)
          have := (hwo.shape.1 m.slotMark).2 hlt
          rw [show s.wheel m.slotMark = none from hsk m hfl] at this; cases this
      refine .engaged ht' hn' hb' q3 (.remove false rfl ?_ ?_)
      · have : Q'.line = Q.line := by
          cases hl : Q.line with
          | none => simp only [Sheet.apply, hl, Option.some.injEq] at hap; subst hap; rfl
          | some e =>
            simp only [Sheet.apply, hl, hpn, reduceCtorEq, if_false, Option.some.injEq] at hap
            subst hap; rfl
        rw [this]; exact hc.frame (fun _ _ => Iff.rfl) rfl rfl rfl
      · simp only [Sheet.apply] at hap
        split at hap <;> (simp only [Option.some.injEq] at hap; subst hap; rfl)
    case recv_remove id' rest' m sl he' hc' hf hw =>
      have hx := hch.symm.trans hc'; cases hx
      simp only [opOf] at hop
      split at hop
      rotate_left
      · cases hop
      rename_i hk
      cases hop
      subst hk
      have hfl : s.flags id' = some m := hf
      have hpn : Q.place = some m.slotMark := by rw [← hm]; unfold markOf; rw [hfl]; rfl
      refine .engaged ht' hn' hb' q3 (.remove true rfl ?_ ?_)
      · cases hl : Q.line with
        | none =>
          simp only [Sheet.apply, hl, Option.some.injEq] at hap
          rw [hl] at hc
          subst hap
          refine ⟨hc.1, fun j v hj => ?_⟩
          rw [show St.wheel _ = _ from rfl, inWheel_remove hw] at hj
          exact hc.2 _ _ hj.1
        | some e =>
          simp only [Sheet.apply, hl, hpn, Option.some.injEq] at hap
          rw [hl] at hc
          obtain ⟨t0, hsc, hrd⟩ := hc
          obtain ⟨c, _, hu⟩ := hsc.slot hwo
          subst hap
          show Core id' (if m.slotMark = e.due % 3600 then none else some e) _
          split
          · rename_i heq
            refine ⟨hsc.tpc, fun j v hj => ?_⟩
            rw [show St.wheel _ = _ from rfl, inWheel_remove hw] at hj
            exact hj.2 ((hu j v hj.1).1.trans heq.symm) rfl
          · rename_i heq
            refine Core.frame (s := s) ⟨t0, hsc, hrd⟩ (fun j v => ?_) rfl rfl rfl
            rw [show St.wheel _ = _ from rfl, inWheel_remove hw]
            exact ⟨fun h => h.1, fun h => ⟨h, fun hj => absurd (hj.symm.trans (hu j v h).1) heq⟩⟩
      · simp only [Sheet.apply] at hap
        split at hap <;> (simp only [Option.some.injEq] at hap; subst hap; rfl)

/-- The sheet keeps up with every step. -/
theorem sim_step {env : Env} {k : Nat} {R R' : Sheet} {s s' : St} {l : Label} (hre : Reachable env s)
    (h1 : l = .eRecv → ∀ e rest, s.chan = e :: rest → EventTouches k e → s.tpc = .batch [])
    (h2 : l = .tLapse → ¬ Engaged k s.epc) (hpl : ∀ ev ∈ sheetEvs k s l, ev.Built)
    (hplay : R.play env.clock k (sheetEvs k s l) = some R') (hs : Sim env.clock k R (R.fire env.clock false) s)
    (h : step env s l = some s') : Sim env.clock k R' (R'.fire env.clock false) s' := by
  have ha := step_act h
  have hwo := wheelOk hre
  have hpo := pendOk hre
  by_cases hl : l = .tLapse
  · subst hl
    simp only [sheetEvs, Sheet.play, Option.some.injEq] at hplay
    subst hplay
    have := sim_lapse hwo hpo (h2 rfl) hs ha
    rw [fire_now] at this
    unfold Sheet.turn at this
    rw [fire_now] at this
    exact this
  by_cases hop : sheetEvs k s l = []
  · have hns := hop
    rw [hop] at hplay
    simp only [Sheet.play, Option.some.injEq] at hplay
    subst hplay
    have hap : l = .eRecv → ∀ e rest, s.chan = e :: rest → ¬ EventTouches k e := by
      intro hl e rest hc ht
      subst hl
      simp only [sheetEvs, hc] at hop
      cases e <;> simp_all [opOf, EventTouches]
    by_cases he : Engaged k s.epc
    · cases hs with
      | engaged ht hn hb hp ho =>
        by_cases hn' : l = .eNext
        · subst hn'; exact sim_next hre ht hn hb hp ho h
        · exact sim_others ht hn hb hp ho hl hn' ha
      | still P hR hQ hn hc hb hm hp hnm he' => exact absurd he he'
      | fly P sk e t hQ hn hl hd hf hst hm hp he' => exact absurd he he'
      | marking e p i u hn hl hc hb htpc hi hdue hm he' => exact absurd he he'
      | dead hd runs hb hpre =>
        exact .dead (dead_step ha hd) runs (book_same hb (Or.inl (by rw [hd]; rfl)) ha) hpre
    · exact sim_apart hwo hpo hap he hl hns hs ha
  by_cases hsk : sheetEvs k s l = [.skip]
  · have := sim_skip hsk hs ha
    rw [hsk] at hplay
    simp only [Sheet.play, Option.some.injEq] at hplay
    subst hplay
    rw [fire_rest (fired_rest _ _ _)]
    exact this
  · have hl : l = .eRecv := by
      cases l <;> first | rfl | exact absurd rfl hop | exact absurd rfl hl | skip
      exfalso
      simp only [sheetEvs] at hop hsk
      split at hop
      · rename_i p u hp
        simp only [hp] at hsk
        split at hop
        · rename_i h; exact hsk (if_pos h)
        · exact hop rfl
      · exact hop rfl
    subst hl
    cases hch : s.chan with
    | nil => simp [sheetEvs, hch] at hop
    | cons ev rest =>
      simp only [sheetEvs, hch] at hop hplay hpl
      obtain ⟨o, ho, htch⟩ : ∃ o, opOf k ev = [.op o] ∧ EventTouches k ev := by
        cases ev <;> simp only [opOf] at hop ⊢ <;> (try (exact absurd trivial hop)) <;> split at hop <;>
          first
          | (rename_i hk; rw [if_pos hk]; exact ⟨_, rfl, hk⟩)
          | exact absurd rfl hop
      rw [ho] at hplay hpl
      simp only [Sheet.play] at hplay
      split at hplay
      · cases hplay
      · rename_i Q1 hap
        simp only [Option.some.injEq] at hplay
        subst hplay
        obtain ⟨hsim, hrest⟩ := sim_recv (R' := Q1) hre (h1 rfl _ _ hch htch) hch ho (hpl _ List.mem_cons_self) hap hs ha
        rw [fire_rest hrest]
        exact hsim

theorem play_append {clock : Nat → Nat} {k : Nat} : ∀ (es fs : List SheetEv) (P : Sheet),
    P.play clock k (es ++ fs) = (P.play clock k es).bind fun Q => Q.play clock k fs
  | [], fs, P => rfl
  | .tick :: es, fs, P => by simp only [List.cons_append, Sheet.play]; exact play_append es fs _
  | .skip :: es, fs, P => by simp only [List.cons_append, Sheet.play]; exact play_append es fs _
  | .op o :: es, fs, P => by
    simp only [List.cons_append, Sheet.play]
    split
    · rfl
    · exact play_append es fs _

theorem sim_run {env : Env} {k : Nat} : ∀ (ls : List Label) {s s' : St} {R R' : Sheet}, Reachable env s →
    BetweenTicks env k s ls → (∀ ev ∈ history env k s ls, ev.Built) →
    R.play env.clock k (history env k s ls) = some R' → Sim env.clock k R (R.fire env.clock false) s →
    run env s ls = some s' → Sim env.clock k R' (R'.fire env.clock false) s'
  | [], s, s', R, R', _, _, _, hplay, hs, hr => by
    simp only [run, Option.some.injEq] at hr
    simp only [history, Sheet.play, Option.some.injEq] at hplay
    subst hr; subst hplay; exact hs
  | l :: ls, s, s', R, R', hre, hbt, hpl, hplay, hs, hr => by
    simp only [run] at hr
    split at hr
    rotate_left
    · cases hr
    rename_i s1 h1
    simp only [history, h1] at hpl hplay
    rw [play_append] at hplay
    cases hq : R.play env.clock k (sheetEvs k s l) with
    | none => rw [hq] at hplay; cases hplay
    | some R1 =>
      rw [hq] at hplay
      exact sim_run ls (hre.step h1) (hbt.2.2 s1 h1) (fun ev hev => hpl ev (List.mem_append_right _ hev)) hplay
        (sim_step hre hbt.1 hbt.2.1 (fun ev hev => hpl ev (List.mem_append_left _ hev)) hq hs h1) hr

theorem sim_init (env : Env) (k : Nat) :
    Sim env.clock k Sheet.blank (Sheet.blank.fire env.clock false) (init env) := by
  refine .still Sheet.blank (Or.inl rfl) rfl rfl ?_ ⟨rfl, rfl⟩ rfl (fun i h => nomatch h) (fun _ _ _ h => nomatch h) id
  exact ⟨rfl, fun j u h => (Unborn.init env k).absent.1 ⟨j, h.choose, u, h.choose_spec⟩⟩

/-- The sheet of an execution on paper. -/
theorem Spec.OnPaper.sim {env : Env} {k : Nat} {ls : List Label} {s : St} {Q : Sheet} (h : OnPaper env k ls s Q) :
    ∃ R, Sheet.blank.play env.clock k (history env k (init env) ls) = some R ∧ Q = R.fire env.clock false ∧
      Sim env.clock k R Q s := by
  have hs := h.sheet
  unfold Sheet.after at hs
  cases hR : Sheet.blank.play env.clock k (history env k (init env) ls) with
  | none => rw [hR] at hs; cases hs
  | some R =>
    rw [hR] at hs
    injection hs with hs
    refine ⟨R, rfl, hs.symm, ?_⟩
    rw [← hs]
    exact sim_run ls ⟨[], rfl⟩ h.between h.built hR (sim_init env k) h.run

end DelayTimer
