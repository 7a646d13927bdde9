import Verif.Proofs.Forgotten
import Verif.Proofs.Hand
import Verif.Props.Ghost
import Verif.Proofs.Place
import Verif.Spec.Removal

/-!
# A task that is handed in once and then removed or advanced

Its story: it is on its way to the wheel, then it lives by its time table, until the first removal or advance is taken. A
removal makes it vanish, or misses it and leaves it living without a record.
-/

namespace DelayTimer
open Spec

/-- A removal or an advance. -/
def Takes (k : Nat) (op : UserOp) : Prop := op = .remove k ∨ op = .advance k

/-- A removal, an advance or an update. -/
def Concerns (k : Nat) (op : UserOp) : Prop := op = .remove k ∨ op = .advance k ∨ ∃ u, op = .update u ∧ u.taskId = k

theorem Takes.concerns {k : Nat} {op : UserOp} (h : Takes k op) : Concerns k op := h.elim Or.inl (fun h => Or.inr (Or.inl h))

/-- All that the channel says about `k` is `op`. -/
def Only (op : UserOp) (k : Nat) (c : List TimerEvent) : Prop := ∀ e ∈ c, EventTouches k e → e = op.event

/-- `t` has been handed to the timer and is on its way to the wheel; nothing but `op` follows. -/
inductive OnItsWay (op : UserOp) (k : Nat) (t : Task) (c : Option Nat) (s : St) : Prop
  | queued (hb : Bare k s) (A B : List TimerEvent) (e : TimerEvent) (he : BringsIn t c e)
      (hc : s.chan = A ++ e :: B) (hA : ∀ e ∈ A, ¬ EventTouches k e) (hB : Only op k B)
      (hbusy : ¬ BusyWith k s.epc)
  | reading (hb : Bare k s) (hc : Only op k s.chan) (hand : Nat) (he : s.epc = .add1 t c hand)
  | inserting (hb : Bare k s) (hc : Only op k s.chan) (hand exec ts : Nat)
      (he : s.epc = .add2 t.getNextExecTimestamp.2 c hand exec ts) (ha : alarm 0 t = some exec)

theorem OnItsWay.bare {op : UserOp} {k : Nat} {t : Task} {c : Option Nat} {s : St} (h : OnItsWay op k t c s) : Bare k s := by
  cases h <;> assumption

theorem only_event {op : UserOp} {k : Nat} {s : St} {l : Label} {e : TimerEvent} (hl : OnlyCalls op k l)
    (h : (∀ k, ¬ EventTouches k e) ∨ (∃ op, l = .uSend op ∧ e = op.event) ∨
       ∃ t, l = .uInsert t ∧ e = .insertTask t s.nextChain) (ht : EventTouches k e) : e = op.event := by
  rcases h with h | ⟨op', rfl, rfl⟩ | ⟨t, rfl, rfl⟩
  · exact absurd ht (h k)
  · have : Touches k (.uSend op') := by cases op' <;> exact ht
    have := hl this
    cases this; rfl
  · cases hl ht

theorem only_push {op : UserOp} {k : Nat} {s : St} {l : Label} {e : TimerEvent} {c : List TimerEvent} (hl : OnlyCalls op k l)
    (hc : Only op k c)
    (h : (∀ k, ¬ EventTouches k e) ∨ (∃ op, l = .uSend op ∧ e = op.event) ∨
       ∃ t, l = .uInsert t ∧ e = .insertTask t s.nextChain) : Only op k (c ++ [e]) := by
  intro x hx ht
  rcases List.mem_append.1 hx with hx | hx
  · exact hc x hx ht
  · rw [List.mem_singleton] at hx; subst hx; exact only_event hl h ht

theorem onItsWay_step {env : Env} {op : UserOp} {k a : Nat} {t : Task} {c : Option Nat} {s : St} {l : Label} {s' : St}
    (ha0 : alarm 0 t = some a) (hs : OnItsWay op k t c s) (hl : OnlyCalls op k l) (h : Act env s l s') :
    OnItsWay op k t c s' ∨ (l = .eNext ∧ Only op k s.chan ∧ Absent k s ∧
      ∃ hand ts, s.epc = .add2 t.getNextExecTimestamp.2 c hand a ts) := by
  cases hs with
  | queued hb A B e he hc hA hB hbusy =>
    have hu : ∀ u rest, s.chan = .updateTask u :: rest → u.taskId ≠ k := by
      intro u rest hx
      rw [hc] at hx
      cases A with
      | nil =>
        injection hx with hx _
        subst hx
        cases c <;> (simp only [BringsIn] at he; cases he)
      | cons a A =>
        injection hx with hx _
        subst hx
        exact hA _ List.mem_cons_self
    have hb' := bare_step hb (fun _ => hu) (by
      intro _ u c' a b d hx; rw [hx] at hbusy; exact hbusy) h
    rcases chan_step h with ⟨h1, h2 | ⟨e', h2, h3⟩⟩ | ⟨rfl, h1, e', h2⟩ | ⟨rfl, h1⟩
    · exact Or.inl (.queued hb' A B e he (by rw [h2, hc]) hA hB (by rw [h1]; exact hbusy))
    · exact Or.inl (.queued hb' A (B ++ [e']) e he (by rw [h2, hc]; simp) hA (only_push hl hB h3)
        (by rw [h1]; exact hbusy))
    · cases A with
      | nil =>
        left
        rw [hc] at h2
        simp only [List.nil_append] at h2
        obtain ⟨rfl, h3⟩ := List.cons.inj h2
        refine .reading hb' (by rw [← h3]; exact hB) s.secondHand ?_
        cases c with
        | none =>
          simp only [BringsIn] at he
          subst he
          clear hb hb'
          cases h
          all_goals try (have hx := hc.symm.trans ‹s.chan = _›; simp only [List.nil_append] at hx; injection hx with hx; cases hx; done)
          rename_i u rest he hc'
          have hx := hc.symm.trans hc'
          injection hx with hx; cases hx; rfl
        | some ch =>
          simp only [BringsIn] at he
          subst he
          clear hb hb'
          cases h
          all_goals try (have hx := hc.symm.trans ‹s.chan = _›; simp only [List.nil_append] at hx; injection hx with hx; cases hx; done)
          rename_i u c' rest he hc'
          have hx := hc.symm.trans hc'
          injection hx with hx; cases hx; rfl
      | cons a' A =>
        rw [hc, List.cons_append] at h2
        obtain ⟨rfl, h3⟩ := List.cons.inj h2
        refine Or.inl (.queued hb' A B e he h3.symm (fun e he => hA e (List.mem_cons_of_mem _ he)) hB ?_)
        have hna := hA a' List.mem_cons_self
        clear hb hb' h2 h3
        cases h
        case recv_advance id rest m sl u he' hc' hf hw hr =>
          have hx := hc.symm.trans hc'
          injection hx with hx hx'
          subst hx
          intro hk'
          exact hna (show id = k from (removeTask_some hr).2.symm.trans hk')
        all_goals
          have hx := hc.symm.trans ‹s.chan = _›
          first
          | exact id
          | (injection hx with hx hx'; subst hx; exact hna)
    · refine Or.inl (.queued hb' A B e he (by rw [h1, hc]) hA hB ?_)
      clear hb hb'
      cases h <;> simp_all [BusyWith]
  | reading hb hc hand he =>
    have hb' := bare_step hb (by rintro rfl; cases h <;> simp_all) (by intro _ u c' a b d hx; rw [he] at hx; cases hx) h
    rcases chan_step h with ⟨h1, h2 | ⟨e', h2, h3⟩⟩ | ⟨rfl, h1, e', h2⟩ | ⟨rfl, h1⟩
    · exact Or.inl (.reading hb' (by rw [h2]; exact hc) hand (by rw [h1, he]))
    · exact Or.inl (.reading hb' (by rw [h2]; exact only_push hl hc h3) hand (by rw [h1, he]))
    · rw [he] at h1; cases h1
    · cases h
      all_goals try (have hx := he.symm.trans ‹s.epc = _›; cases hx; done)
      case next_add1_err u ch hd he' hn =>
        have hx := he.symm.trans he'
        cases hx
        rw [show alarm 0 t = none from hn] at ha0; cases ha0
      case next_add1 u ch hd exec he' hn =>
        have hx := he.symm.trans he'
        cases hx
        exact Or.inl (.inserting hb' hc hand exec s.globalTime rfl hn)
  | inserting hb hc hand exec ts he ha =>
    by_cases hn : l = .eNext
    · rw [ha] at ha0; cases ha0
      exact Or.inr ⟨hn, hc, hb.absent, hand, ts, he⟩
    · have hb' : Bare k s' := bare_step hb (by rintro rfl; cases h <;> simp_all) (fun h => absurd h hn) h
      rcases chan_step h with ⟨h1, h2 | ⟨e', h2, h3⟩⟩ | ⟨rfl, h1, e', h2⟩ | ⟨rfl, h1⟩
      · exact Or.inl (.inserting hb' (by rw [h2]; exact hc) hand exec ts (by rw [h1, he]) ha)
      · exact Or.inl (.inserting hb' (by rw [h2]; exact only_push hl hc h3) hand exec ts (by rw [h1, he]) ha)
      · rw [he] at h1; cases h1
      · exact absurd rfl hn

/-! ## Vanished -/

/-- `k` has no record and no copy of it is left; the scheduler may still have its id in its list. -/
structure Vanished (k : Nat) (s : St) : Prop where
  forgotten : Forgotten k s
  wheel : ∀ j u, ¬ inWheel s.wheel k j u
  hand : tpcTok k s.tpc = []

theorem vanished_step {env : Env} {k : Nat} {s : St} {l : Label} {s' : St} (hs : Vanished k s) (hl : ¬ Adds k l)
    (h : Act env s l s') : Vanished k s' ∧ startTicks k s'.log = startTicks k s.log := by
  obtain ⟨h1, h2, h3⟩ := hs
  have hf := forgotten_step h1 hl h
  rcases forgotten_apart h1 h with ha | hi
  · have ht : tpcTok k s'.tpc = [] := by
      rcases tok_step h3 h with h4 | ⟨u, h4⟩
      · exact h4
      · exact absurd h4 (h2 _ _)
    refine ⟨⟨hf, fun j u hj => ?_, ht⟩, ?_⟩
    · exact kept_step (P := fun _ => False) ha (fun _ _ h => h) (fun _ h => h) (fun j u h => h2 j u h)
        (by rw [h3]; simp) h j u hj
    · rcases starts_step k h with e | ⟨_, p, t, r, b, e1, _, e3, _⟩
      · exact e.1
      · rw [e1] at h3; simp [tpcTok, e3] at h3
  · exact ⟨⟨hf, fun j u hj => h2 j u ((hi.wheel j u).1 hj), by rw [hi.tpc]; exact h3⟩, hi.starts⟩

theorem vanished_run {env : Env} {k : Nat} : ∀ (ls : List Label) {s s' : St}, Vanished k s → (∀ l ∈ ls, ¬ Adds k l) →
    run env s ls = some s' → Vanished k s' ∧ startTicks k s'.log = startTicks k s.log := by
  intro ls
  induction ls with
  | nil => intro s s' h _ hr; cases hr; exact ⟨h, rfl⟩
  | cons l ls ih =>
    intro s s' h hl hr
    obtain ⟨s1, h1, h2⟩ := run_cons hr
    obtain ⟨e1, e2⟩ := vanished_step h (hl l List.mem_cons_self) (step_act h1)
    obtain ⟨e3, e4⟩ := ih e1 (fun l hx => hl l (List.mem_cons_of_mem _ hx)) h2
    exact ⟨e3, e4.trans e2⟩

/-- A removal that finds the only copy. -/
theorem removal_finds {env : Env} {k : Nat} {s s1 : St} {rest : List TimerEvent} (hsing : Single k s)
    (hc : s.chan = .removeTask k :: rest) (hrest : ∀ e ∈ rest, ¬ EventAdds k e) (hm : AtItsMark k s)
    (h1 : Act env s .eRecv s1) : Vanished k s1 ∧ startTicks k s1.log = startTicks k s.log := by
  obtain ⟨m, sl, t, hfl, hw, ht, hk⟩ := hm
  have hin : inWheel s.wheel k m.slotMark t := ⟨sl, hw, ht, hk⟩
  have htok : tpcTok k s.tpc = [] := by
    have := hsing.excl _ _ hin
    unfold looseN at this
    exact List.length_eq_zero_iff.1 (by omega)
  cases h1
  all_goals (
    have hx := hc.symm.trans ‹s.chan = _›
    injection hx with hx hy
    try (cases hx; done))
  case recv_remove_skip id rest' he hc' hs =>
    cases hx
    rw [hs m hfl] at hw; cases hw
  case recv_remove id rest' m' sl' he hc' hf hw' =>
    cases hx; subst hy
    rw [hfl] at hf; cases hf
    refine ⟨⟨⟨Or.inr ⟨_, rfl⟩, hrest, trivial⟩, fun j u hj => ?_, htok⟩, rfl⟩
    rw [show St.wheel _ = _ from rfl, inWheel_remove hw'] at hj
    obtain ⟨e1, e2⟩ := hsing.uniq _ _ _ _ hj.1 hin
    obtain ⟨_, hj⟩ := hj
    first | exact hj ⟨e1, rfl⟩ | exact hj e1 | exact hj ⟨rfl, e1⟩ | simp_all

/-! ## The story -/

theorem only_unadded {op : UserOp} {k : Nat} {c : List TimerEvent} (hop : Takes k op) (h : Only op k c) :
    ∀ e ∈ c, ¬ EventAdds k e := by
  intro e he ha
  have : EventTouches k e := by cases e <;> first | exact ha | exact False.elim ha
  rw [h e he this] at ha
  rcases hop with rfl | rfl <;> exact ha

theorem only_step {env : Env} {op : UserOp} {k : Nat} {s : St} {l : Label} {s' : St} (hc : Only op k s.chan)
    (hb : ¬ BusyWith k s.epc) (hl : OnlyCalls op k l) (hh : l = .eRecv → ∀ e rest, s.chan = e :: rest → ¬ EventTouches k e)
    (h : Act env s l s') : Only op k s'.chan ∧ ¬ BusyWith k s'.epc := by
  rcases chan_step h with ⟨h1, h2 | ⟨e', h2, h3⟩⟩ | ⟨rfl, h1, e', h2⟩ | ⟨rfl, h1⟩
  · exact ⟨by rw [h2]; exact hc, by rw [h1]; exact hb⟩
  · exact ⟨by rw [h2]; exact only_push hl hc h3, by rw [h1]; exact hb⟩
  · refine ⟨fun e he => hc e (by rw [h2]; exact List.mem_cons_of_mem _ he), ?_⟩
    have hna := hh rfl _ _ h2
    have hd : s.chan.head? = some e' := by rw [h2]; rfl
    clear hh hc h2
    cases h
    case recv_advance id rest m sl u he' hc' hf hw hr =>
      rw [hc'] at hd
      cases hd
      intro hk'
      exact hna (show id = k from (removeTask_some hr).2.symm.trans hk')
    all_goals
      rw [‹s.chan = _›] at hd
      cases hd
      first
      | exact id
      | exact hna
  · refine ⟨by rw [h1]; exact hc, ?_⟩
    cases h <;> simp_all [BusyWith]

/-- A removal, an advance or an update of `k`. -/
def asksFor (k : Nat) : TimerEvent → Bool
  | .removeTask id => id == k
  | .advanceTask id => id == k
  | .updateTask t => t.taskId == k
  | _ => false

/-- How many of these wait in the channel. -/
def askedIn (k : Nat) (c : List TimerEvent) : Nat := c.countP (asksFor k)

theorem asked_step {env : Env} {k : Nat} {s : St} {l : Label} {s' : St} (h : Act env s l s') :
    askedIn k s'.chan ≤ askedIn k s.chan + (if Touches k l then 1 else 0) := by
  have hx : ∀ e, asksFor k e = true → EventTouches k e := by
    intro e he
    cases e <;> first | exact beq_iff_eq.1 he | cases he
  rcases chan_step h with ⟨h1, h2 | ⟨e', h2, h3⟩⟩ | ⟨rfl, h1, e', h2⟩ | ⟨rfl, h1⟩
  · rw [h2]; omega
  · rw [h2]
    unfold askedIn
    rw [List.countP_append, List.countP_singleton]
    by_cases ht : Touches k l
    · rw [if_pos ht]; split <;> omega
    · rw [if_neg ht, if_neg (fun he => not_touches_event ht h3 (hx _ he))]
  · rw [h2]; unfold askedIn; rw [List.countP_cons]; omega
  · rw [h1]; omega

theorem recv_chan {env : Env} {s s' : St} (h : Act env s .eRecv s') : s'.chan = s.chan.tail := by
  cases h
  all_goals (first | (rw [‹s.chan = _›]; rfl) | simp [‹s.chan = _›])

/-- What has become of a task that was handed in once and then only removed or advanced, by `n` calls so far. -/
inductive Story (clock : Nat → Nat) (op : UserOp) (k : Nat) (t : Task) (n : Nat) (s : St) : Prop
  | way (c : Option Nat) (h : OnItsWay op k t c s) (hs : startTicks k s.log = []) (hn : askedIn k s.chan ≤ n)
  | alive (D : Nat) (A R : List Nat) (hl : Life False clock k t.getNextExecTimestamp.2 D A [] R s)
      (hc : Only op k s.chan) (hb : ¬ BusyWith k s.epc) (hn : askedIn k s.chan ≤ n)
      (hf : s.flags k ≠ none ∨ ∃ tag m, s.epc = .add3 tag m ∧ m.taskId = k)
  | taken (hn : askedIn k s.chan < n)

theorem add2_add3 {env : Env} {k hand exec ts : Nat} {t : Task} {c : Option Nat} {s s' : St}
    (he : s.epc = .add2 t.getNextExecTimestamp.2 c hand exec ts) (hk : t.taskId = k) (h : Act env s .eNext s') :
    ∃ tag m, s'.epc = .add3 tag m ∧ m.taskId = k := by
  cases h
  all_goals try (have hx := he.symm.trans ‹s.epc = _›; cases hx; done)
  all_goals (
    have hx := he.symm.trans ‹s.epc = _›
    cases hx
    exact ⟨_, _, rfl, hk⟩)

/-- A mark that is there or about to be written stays, unless the event thread is at a removal. -/
theorem noted_step {env : Env} {k : Nat} {s : St} {l : Label} {s' : St} (hb : ¬ BusyWith k s.epc)
    (hs : s.flags k ≠ none ∨ ∃ tag m, s.epc = .add3 tag m ∧ m.taskId = k) (h : Act env s l s') :
    s'.flags k ≠ none ∨ ∃ tag m, s'.epc = .add3 tag m ∧ m.taskId = k := by
  rcases hs with hs | ⟨tag, m, he, hk⟩
  · left
    rcases flag_step k h with e | ⟨p, i, u, m', _, _, e2, _, _⟩ | ⟨tag, m', _, _, _, e2⟩ | ⟨ok, e1, _, e⟩
    · rw [Ne, e.isNone]; exact hs
    · rw [e2]; simp
    · rw [e2]; simp
    · rw [e1] at hb; exact absurd rfl hb
  · rcases chan_step h with ⟨h1, _⟩ | ⟨_, h1, _⟩ | ⟨rfl, _⟩
    · exact Or.inr ⟨tag, m, by rw [h1]; exact he, hk⟩
    · rw [he] at h1; cases h1
    · left
      cases h
      all_goals try (have hx := he.symm.trans ‹s.epc = _›; cases hx; done)
      case next_add3 tag' m' he' _ =>
        have hx := he.symm.trans he'
        cases hx
        rw [done_flags, ← hk]
        simp [set]

theorem story_step {env : Env} {op : UserOp} {k a n : Nat} {t : Task} {s : St} {l : Label} {s' : St}
    (hr : Reachable env s) (hop : Concerns k op) (hk : t.taskId = k) (hv : t.valid = true) (ha : alarm 0 t = some a)
    (hs : Story env.clock op k t n s) (hl : OnlyCalls op k l) (h : step env s l = some s') :
    Story env.clock op k t (n + if Touches k l then 1 else 0) s' := by
  have hact := step_act h
  have hcnt := asked_step (k := k) hact
  cases hs with
  | way c hw h0 hn =>
    rcases onItsWay_step ha hw hl hact with h1 | ⟨rfl, h1, h2, hand, ts, h3⟩
    · refine .way c h1 ?_ (by omega)
      rcases starts_step k hact with e | ⟨_, p, u, r, b, e1, _, e3, _⟩
      · rw [e.1]; exact h0
      · have := (absent_iff.1 hw.bare.absent).2.1
        rw [e1] at this; simp [tpcTok, e3] at this
    · obtain ⟨f1, _, _, f4, f5, f6⟩ := insert_sched (wheelOk hr) h3 (show t.getNextExecTimestamp.2.taskId = k from hk) hv h2 h
      exact .alive _ _ _ (f1.life (M := False) False.elim rfl (by rw [f4]; exact h0) rfl) (by rw [f5]; exact h1) f6 (by omega)
        (Or.inr (add2_add3 h3 hk hact))
  | alive D A R hlife hc hb hn hf =>
    by_cases hh : l = .eRecv → ∀ e rest, s.chan = e :: rest → ¬ EventTouches k e
    · obtain ⟨h1, h2⟩ := only_step hc hb hl hh hact
      exact .alive D A R (life_step ⟨hh, fun _ => hb⟩ (wheelOk hr) (pendOk hr) hlife hact) h1 h2 (by omega)
        (noted_step hb hf hact)
    · have : l = .eRecv ∧ ∃ e rest, s.chan = e :: rest ∧ EventTouches k e := by
        refine Classical.byContradiction fun hn => hh fun h1 e rest h2 h3 => hn ⟨h1, e, rest, h2, h3⟩
      obtain ⟨rfl, e, rest, h1, h2⟩ := this
      have h3 : asksFor k e = true := by
        have := hc e (by rw [h1]; exact List.mem_cons_self) h2
        rcases hop with rfl | rfl | ⟨u, rfl, hu⟩ <;> (subst this; first | exact beq_self_eq_true k | exact beq_iff_eq.2 hu)
      refine .taken ?_
      have h4 : s'.chan = rest := by rw [recv_chan hact, h1]; rfl
      rw [h4]
      rw [h1] at hn
      simp only [askedIn, List.countP_cons, h3, if_true] at hn
      simp only [askedIn]
      omega
  | taken hn => exact .taken (by omega)

theorem story_run {env : Env} {op : UserOp} {k a : Nat} {t : Task} (hop : Concerns k op) (hk : t.taskId = k)
    (hv : t.valid = true) (ha : alarm 0 t = some a) :
    ∀ (ls : List Label) {s s' : St} {n : Nat}, Reachable env s → Story env.clock op k t n s →
      (∀ l ∈ ls, OnlyCalls op k l) → run env s ls = some s' → Story env.clock op k t (n + callsFor k ls) s' := by
  intro ls
  induction ls with
  | nil => intro s s' n _ hs _ h; cases h; exact hs
  | cons l ls ih =>
    intro s s' n hr hs hl h
    obtain ⟨s1, h1, h2⟩ := run_cons h
    have := ih (hr.step h1) (story_step hr hop hk hv ha hs (hl l List.mem_cons_self) h1)
      (fun l hx => hl l (List.mem_cons_of_mem _ hx)) h2
    rw [show n + callsFor k (l :: ls) = n + (if Touches k l then 1 else 0) + callsFor k ls by
      simp only [callsFor, List.countP_cons, decide_eq_true_eq]; omega]
    exact this

theorem handed_story {env : Env} {op : UserOp} {k a : Nat} {t : Task} {ls1 ls2 : List Label} {l : Label} {s : St}
    (hop : Concerns k op) (hl : HandsIn t l) (hk : t.taskId = k) (hv : t.valid = true) (ha : alarm 0 t = some a)
    (h1 : ∀ l ∈ ls1, ¬ Touches k l) (h2 : ∀ l ∈ ls2, OnlyCalls op k l)
    (hr : run env (init env) (ls1 ++ l :: ls2) = some s) : Story env.clock op k t (callsFor k ls2) s := by
  obtain ⟨s1, h3, h4⟩ := run_app hr
  obtain ⟨s2, h5, h6⟩ := run_cons h4
  rw [← Nat.zero_add (callsFor k ls2)]
  refine story_run hop hk hv ha ls2 (Reachable.step ⟨_, h3⟩ h5) ?_ h2 h6
  obtain ⟨f5, f6⟩ := unborn_run ls1 (Unborn.init env k) ⟨by simp [init], by simp [init, BusyWith]⟩ h1 h3
  have h7 := step_act h5
  have h0 : attempts k s1.log = [] := (gone_run ls1 (Quiet.mk (by simp [init]) (by simp [init, BusyWith]))
      (absent_iff.1 (Unborn.init env k).absent).2.1 (absent_iff.1 (Unborn.init env k).absent).1 h1 h3).1
  have hs0 : startTicks k s1.log = [] := by
    have := starts_attempts ⟨_, h3⟩ k
    rw [h0] at this
    exact List.sublist_nil.1 this
  have hb : Unborn k s2 := unborn_step f5 (by
    rintro u rfl; rcases hl with h | h <;> cases h) (by
    intro h; subst h; rcases hl with h | h <;> cases h) h7
  have hz : askedIn k s1.chan = 0 := by
    unfold askedIn
    rw [List.countP_eq_zero]
    intro e he hr
    refine f6.chan e he ?_
    cases e <;> first | cases hr | exact beq_iff_eq.1 hr
  rcases hl with rfl | rfl
  · cases h7
    refine .way none (.queued hb.bare s1.chan [] _ rfl rfl f6.chan (fun e he => by cases he) f6.epc) hs0 ?_
    simp only [push_chan, askedIn, List.countP_append, UserOp.event] at hz ⊢
    rw [hz]; simp [asksFor]
  · cases h7
    refine .way (some s1.nextChain) (.queued hb.bare s1.chan [] _ rfl rfl f6.chan (fun e he => by cases he) f6.epc) hs0 ?_
    simp only [uInsert, push_chan, askedIn, List.countP_append] at hz ⊢
    rw [hz]; simp [asksFor]

/-- The only call that concerns a task, besides handing it in, is taken: up to here it has lived by its time table. -/
theorem taken_alive {env : Env} {op : UserOp} {k a : Nat} {t : Task} {ls1 ls2 : List Label} {l : Label} {s s1 : St}
    {rest : List TimerEvent} (hop : Concerns k op) (hin : HandsIn t l) (hk : t.taskId = k) (hv : t.valid = true)
    (ha : alarm 0 t = some a) (h1 : ∀ l ∈ ls1, ¬ Touches k l) (h2 : ∀ l ∈ ls2, OnlyCalls op k l) (hn : callsFor k ls2 ≤ 1)
    (hr : run env (init env) (ls1 ++ l :: ls2) = some s) (hc : s.chan = op.event :: rest)
    (hs : step env s .eRecv = some s1) :
    ∃ D A R, Life False env.clock k t.getNextExecTimestamp.2 D A [] R s ∧ (∀ e ∈ rest, ¬ EventTouches k e) ∧
      s.flags k ≠ none := by
  have hasks : ∀ e, e = op.event → asksFor k e = true := by
    rintro e rfl
    rcases hop with rfl | rfl | ⟨u, rfl, hu⟩ <;> first | exact beq_self_eq_true k | exact beq_iff_eq.2 hu
  have htouch : EventTouches k op.event := by rcases hop with rfl | rfl | ⟨u, rfl, hu⟩ <;> first | rfl | exact hu
  have hone : askedIn k s.chan = askedIn k rest + 1 := by
    rw [hc]; simp only [askedIn, List.countP_cons, hasks _ rfl, if_true]
  cases handed_story hop hin hk hv ha h1 h2 hr with
  | alive D A R hl hx hb hle hf =>
    refine ⟨D, A, R, hl, fun e he ht => ?_, ?_⟩
    rotate_left
    · rcases hf with hf | ⟨tag, m, hf, _⟩
      · exact hf
      · simp [step, eRecv, hf] at hs
    have h3 := hasks e (hx e (by rw [hc]; exact List.mem_cons_of_mem _ he) ht)
    have h4 : askedIn k rest = 0 := by omega
    exact List.countP_eq_zero.1 h4 e he h3
  | taken hx => omega
  | way c hw _ _ =>
    exfalso
    cases hw with
    | queued hb A B e he hc' hA hB hbusy =>
      rw [hc] at hc'
      cases A with
      | nil =>
        injection hc' with hx _
        subst hx
        rcases hop with rfl | rfl | ⟨u, rfl, hu⟩ <;> cases c <;> (simp only [BringsIn] at he; cases he)
      | cons x A =>
        injection hc' with hx _
        subst hx
        exact hA _ List.mem_cons_self htouch
    | reading hb hc' hand he => simp [step, eRecv, he] at hs
    | inserting hb hc' hand exec ts he ha => simp [step, eRecv, he] at hs

theorem once_single {env : Env} {op : UserOp} {k : Nat} {t : Task} {ls1 ls2 : List Label} {l : Label} {s : St}
    (hop : Takes k op) (hin : HandsIn t l) (h1 : ∀ l ∈ ls1, ¬ Touches k l) (h2 : ∀ l ∈ ls2, OnlyCalls op k l)
    (hr : run env (init env) (ls1 ++ l :: ls2) = some s) : Single k s := by
  have hb : ∀ l, Brings k l → Touches k l := by
    intro l h
    unfold Brings at h
    split at h <;> first | exact h | exact False.elim h
  refine single_once hin (fun l hl h => h1 l hl (hb l h)) (fun l hl h => ?_) hr
  have := h2 l hl (hb l h)
  subst this
  rcases hop with rfl | rfl <;> exact h

end DelayTimer
