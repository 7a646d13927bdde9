import Verif.Proofs.PartRuns
import Verif.Props.Fair
import Verif.Proofs.Death

/-!
Executions without end of a part of the ids.
-/

namespace DelayTimer

open Spec

/-! ## Histories -/

theorem queuedTags_seen (K : Nat → Bool) (a : Bool) (log : List Obs) :
    queuedTags (log.filter (seen K a)) = (queuedTags log).filter (aboutTag K) := by
  induction log with
  | nil => rfl
  | cons o log ih =>
    rw [List.filter_cons]
    cases o with
    | queued t =>
      by_cases h : aboutTag K t = true
      · simp [seen, h, queuedTags, ih]
      · have h' : aboutTag K t = false := by simpa using h
        simp [seen, h', queuedTags, ih]
    | _ => split <;> simp [queuedTags, ih]

theorem dispatchedTags_seen (K : Nat → Bool) (a : Bool) (log : List Obs) :
    dispatchedTags (log.filter (seen K a)) = (dispatchedTags log).filter (aboutTag K) := by
  induction log with
  | nil => rfl
  | cons o log ih =>
    rw [List.filter_cons]
    cases o with
    | dispatched t r =>
      by_cases h : aboutTag K t = true
      · simp [seen, h, dispatchedTags, ih]
      · have h' : aboutTag K t = false := by simpa using h
        simp [seen, h', dispatchedTags, ih]
    | _ => split <;> simp [dispatchedTags, ih]

/-- Only the event thread dispatches. -/
theorem dispatched_other {env : Env} {s s' : St} {l : Label} (hl : ByEvents l = false) (h : Act env s l s') :
    dispatchedTags s'.log = dispatchedTags s.log := by
  cases h
  all_goals try (cases hl; done)
  all_goals first | rfl | simp [dispatchedTags, push, uInsert]

/-! ## One moment -/

/-- `p` is the part of `s`; `own`: the sweeper has to do with `K` only; `a`: the chains have to do with `K` only. -/
def Linked (K : Nat → Bool) (own a : Bool) (s p : St) : Prop :=
  ∃ b : Side, b.sweeper.isNone = own ∧ b.chains = a ∧ Part K b s p

theorem sweeper_next {env : Env} (s : St) : Enabled env (ByRounds · = true) s := by
  cases h : s.spc with
  | idle w => exact ⟨.sWake w, _, rfl, by simp only [step, sWake, h, Nat.le_refl, if_true]; rfl⟩
  | active now n => exact rounds_next h

/-- A sweeper without deadlines. -/
theorem lazy_sweeper {env : Env} {K : Nat → Bool} {a : Bool} {w : SPC} {s p : St} (hU : Units K ⟨a, some w⟩ s) (hp : Part K ⟨a, some w⟩ s p) :
    ∃ l w' p', ByRounds l = true ∧ calledId l = none ∧ step env p l = some p' ∧ Part K ⟨a, some w'⟩ s p' := by
  obtain ⟨r, x, rfl, hr, hx⟩ := hp
  have hh : partU K s.heap = [] := units_none hU.2
  cases w with
  | idle w => exact ⟨.sWake w, .active w 200, _, rfl, rfl, by simp [step, sWake, part], r, x, rfl, hr, hx⟩
  | active now n =>
    refine ⟨.sRest, .idle (now + 3), _, rfl, rfl, ?_, r, x, rfl, hr, hx⟩
    cases n with
    | zero => simp [step, sRest, part]
    | succ n => simp [step, sRest, part, hh, heapMin]

/-- What the timer for `K` alone does at a moment at which the timer does `o`. -/
structure Follows (K : Nat → Bool) (own : Bool) (o o' : Option Label) : Prop where
  calls : ∀ l, (calledId l).any K = true → (o' = some l ↔ o = some l)
  none : ∀ l, o' = some l → ¬ ForOthers K l
  kind : o' = o ∨ o' = .none ∨ own = false ∧ (∃ l, o = some l ∧ ByRounds l = true) ∧ ∃ l, o' = some l ∧ ByRounds l = true
  rounds : own = false → ∀ l, o = some l → ByRounds l = true → ∃ l', o' = some l' ∧ ByRounds l' = true

theorem called_rounds {l : Label} (h : ByRounds l = true) : calledId l = .none := by
  cases l <;> first | rfl | cases h

theorem follow {env : Env} {K : Nat → Bool} {own a : Bool} {s s' p : St} {l : Label} (hre : Reachable env s)
    (hL : Lone K a s)
    (hU : ∀ b : Side, b.sweeper.isNone = own → Units K b s) (hU' : ∀ b : Side, b.sweeper.isNone = own → Units K b s')
    (hi : ∀ t, l = .uInsert t → K t.taskId = a)
    (hc : ∀ w i, l = .uCancel w i → K i.taskId = a) (hst : step env s l = some s') (hp : Linked K own a s p) :
    ∃ o' p', Linked K own a s' p' ∧ (match o' with | some l' => step env p l' = some p' | .none => p' = p) ∧
      Follows K own (some l) o' := by
  obtain ⟨b, hb, rfl, hp⟩ := hp
  by_cases hr : own = false ∧ ByRounds l = true
  · obtain ⟨hown, hr⟩ := hr
    obtain ⟨a, sw⟩ := b
    obtain ⟨w, rfl⟩ : ∃ w, sw = some w := by
      cases sw with
      | none => rw [hown] at hb; cases hb
      | some w => exact ⟨w, rfl⟩
    have hp' : Part K ⟨a, some w⟩ s' p := by
      obtain ⟨r, x, rfl, hr', hx⟩ := hp
      cases step_act hst
      all_goals try (cases hr; done)
      case swake => exact ⟨r, x, rfl, hr', hx⟩
      case srest => exact ⟨r, x, rfl, hr', hx⟩
      case spop u now n h1 hu h3 h4 =>
        have h0 : ∀ v ∈ s.heap, K v.taskId = false := (hU _ hb).2
        have he : ∀ v ∈ s.heap.erase u, K v.taskId = false := fun v hv => h0 v (List.mem_of_mem_erase hv)
        refine ⟨r, x, ?_, hr', hx⟩
        simp [part, push, units_none h0, units_none he, seen, aboutTag, TimerEvent.tag, h0 u hu]
    obtain ⟨l', w', p', h1, h2, h3, h4⟩ := lazy_sweeper (env := env) (hU' _ hb) hp'
    refine ⟨some l', p', ⟨⟨a, some w'⟩, by rw [← hb]; rfl, rfl, h4⟩, h3, ?_, ?_, ?_, ?_⟩
    · intro l0 h0
      constructor
      · rintro ⟨⟩; rw [h2] at h0; cases h0
      · rintro ⟨⟩; rw [called_rounds hr] at h0; cases h0
    · rintro _ ⟨⟩ ⟨id, h5, _⟩
      rw [h2] at h5; cases h5
    · exact Or.inr (Or.inr ⟨hown, ⟨l, rfl, hr⟩, l', rfl, h1⟩)
    · intro _ _ _ _; exact ⟨l', rfl, h1⟩
  · have hr' : own = false → ∀ l0, some l = some l0 → ByRounds l0 = true → False := by
      rintro h1 _ ⟨⟩ h2; exact hr ⟨h1, h2⟩
    rcases part_step hre hL (hU b hb) hi hc hst hp with ⟨h6, h7⟩ | ⟨⟨p', h6, h7⟩, h8⟩
    · refine ⟨.none, p, ⟨b, hb, rfl, h6⟩, rfl, ?_, ?_, Or.inr (Or.inl rfl), fun h1 l0 h2 h3 => (hr' h1 l0 h2 h3).elim⟩
      · intro l0 h0
        constructor
        · intro h; cases h
        · rintro ⟨⟩; rw [h7] at h0; cases h0
      · intro _ h; cases h
    · refine ⟨some l, p', ⟨b, hb, rfl, h7⟩, h6, fun _ _ => Iff.rfl, ?_, Or.inl rfl, fun h1 l0 h2 h3 => (hr' h1 l0 h2 h3).elim⟩
      rintro _ ⟨⟩; exact h8

/-! ## All moments -/

/-- Choosing one after the other. -/
theorem one_by_one {α β : Type} {R : Nat → α → Prop} {S : Nat → α → β → α → Prop} {a : α} (h0 : R 0 a)
    (hs : ∀ n x, R n x → ∃ b y, R (n + 1) y ∧ S n x b y) :
    ∃ (f : Nat → α) (g : Nat → β), f 0 = a ∧ ∀ n, R n (f n) ∧ S n (f n) (g n) (f (n + 1)) := by
  let F : (n : Nat) → { x : α // R n x } := fun n =>
    Nat.rec ⟨a, h0⟩ (fun n q => ⟨(hs n q.1 q.2).choose_spec.choose, (hs n q.1 q.2).choose_spec.choose_spec.1⟩) n
  refine ⟨fun n => (F n).1, fun n => (hs n (F n).1 (F n).2).choose, rfl, fun n => ⟨(F n).2, ?_⟩⟩
  exact (hs n (F n).1 (F n).2).choose_spec.choose_spec.2

/-- What a timer for `K` and others is asked to do. -/
structure Asks {env : Env} (c : Course env) (K : Nat → Bool) (own a : Bool) : Prop where
  insert : ∀ n t, c.lab n = some (.uInsert t) → K t.taskId = a
  cancel : ∀ n w i, c.lab n = some (.uCancel w i) → K i.taskId = a
  limits : ∀ n k, K k = !own → ∀ t ∈ handed k (c.upTo n), t.maximumRunningTime = none

theorem asks_units {env : Env} {c : Course env} {K : Nat → Bool} {own a : Bool} (h : Asks c K own a) (n : Nat) {b : Side}
    (hb : b.sweeper.isNone = own) : Units K b (c.st n) := by
  have hu := unitOk (course_run c n)
  have key : ∀ u, Limit (fun k => handed k (c.upTo n)) (c.st n).log u → K u.taskId = b.sweeper.isNone := by
    rintro u ⟨t, ht, _, _, m, _, h6, _⟩
    by_cases hne : K u.taskId = b.sweeper.isNone
    · exact hne
    exfalso
    have := h.limits n u.taskId (by rw [← hb]; cases hk : K u.taskId <;> cases hx : b.sweeper.isNone <;> simp_all) t ht
    rw [h6] at this; cases this
  exact ⟨fun u hx => key u (hu.uchan u hx), fun u hx => key u (hu.heap u hx)⟩

theorem asks_lone {env : Env} {c : Course env} {K : Nat → Bool} {own a : Bool} (h : Asks c K own a) : ∀ n, Lone K a (c.st n) := by
  intro n
  induction n with
  | zero => rw [c.start]; exact lone_init env K a
  | succ n ih =>
    cases hl : c.lab n with
    | none => rw [course_rest c hl]; exact ih
    | some l => exact lone_step (step_act (course_step c hl)) ih (fun t ht => h.insert n t (by rw [hl, ht]))

theorem part_course {env : Env} {c : Course env} {K : Nat → Bool} {own a : Bool} (h : Asks c K own a) :
    ∃ c' : Course env, (∀ n, Linked K own a (c.st n) (c'.st n)) ∧ ∀ n, Follows K own (c.lab n) (c'.lab n) := by
  obtain ⟨f, g, h0, hf⟩ := one_by_one (R := fun n p => Linked K own a (c.st n) p)
    (S := fun n p o p' => (match o with | some l' => step env p l' = some p' | .none => p' = p) ∧ Follows K own (c.lab n) o)
    (a := init env)
    (by
      rw [c.start]
      cases own with
      | true => exact ⟨⟨a, none⟩, rfl, rfl, part_init env K (fun w hw => by cases hw)⟩
      | false => exact ⟨⟨a, some (.idle 0)⟩, rfl, rfl, part_init env K (fun w hw => by cases hw; rfl)⟩)
    (by
      intro n p hp
      cases hl : c.lab n with
      | none =>
        refine ⟨none, p, by rw [course_rest c hl]; exact hp, rfl, fun _ _ => Iff.rfl, ?_, Or.inl rfl, ?_⟩
        · intro _ h; cases h
        · intro _ _ h; cases h
      | some l =>
        exact follow (course_reach c n) (asks_lone h n) (fun b hb => asks_units h n hb) (fun b hb => asks_units h (n + 1) hb)
          (fun t ht => h.insert n t (by rw [hl, ht])) (fun w i hx => h.cancel n w i (by rw [hl, hx])) (course_step c hl) hp)
  exact ⟨⟨f, g, h0, fun n => (hf n).2.1⟩, fun n => (hf n).1, fun n => (hf n).2.2⟩

/-! ## Fairness -/

section
variable {env : Env} {c c' : Course env} {K : Nat → Bool} {own a : Bool}

theorem linked_log {s p : St} (h : Linked K own a s p) : p.log = s.log.filter (seen K a) := by
  obtain ⟨b, _, rfl, r, x, rfl, _⟩ := h; rfl

theorem linked_ticks {s p : St} (h : Linked K own a s p) : p.ticks = s.ticks := by
  obtain ⟨b, _, rfl, r, x, rfl, _⟩ := h; rfl

theorem linked_rt {s p : St} (h : Linked K own a s p) {rec : Int} {v : RtInst} (hv : p.rt rec = some v) :
    s.rt rec = some v ∧ K v.taskId = true := by
  obtain ⟨b, _, _, r, x, rfl, _⟩ := h
  simpa [part, partR, Option.filter_eq_some_iff] using hv

/-- While an event is waiting or being dispatched, not everything that was queued has been dispatched. -/
theorem events_pending {s : St} (hr : Reachable env s) (h : Enabled env (ByEvents · = true) s) :
    (dispatchedTags s.log).length < (queuedTags s.log).length := by
  obtain ⟨l, s', h1, h2⟩ := h
  have hq := congrArg List.length (fifo hr)
  simp only [List.length_append, List.length_map] at hq
  have : 0 < backlog s := Nat.lt_of_le_of_lt (Nat.zero_le _) (event_backlog (byEvents_iff.1 h1) (step_act h2))
  have : 0 < (epcTags s.epc).length + s.chan.length := by
    cases he : s.epc <;> simp [backlog, epcTags, he] at this ⊢
    all_goals omega
  omega

theorem part_events_fair (hL : ∀ n, Linked K own a (c.st n) (c'.st n)) (hf : c.WeaklyFair (ByEvents · = true))
    (hl : c.Listening) : c'.WeaklyFair (ByEvents · = true) := by
  intro n hen
  refine Classical.byContradiction fun hno => ?_
  obtain ⟨m, hm, hq⟩ := C70_processed c hf hl n
  have hsame : dispatchedTags (c'.st m).log = dispatchedTags (c'.st n).log := by
    refine course_keeps c' (fun s => dispatchedTags s.log = dispatchedTags (c'.st n).log) rfl ?_ m hm
    intro i l hi hlab h
    rw [← h]
    refine dispatched_other ?_ (step_act (course_step c' hlab))
    cases hx : ByEvents l with
    | false => rfl
    | true => exact absurd ⟨i, hi, l, hx, hlab⟩ hno
  have h1 := events_pending (course_reach c' n) (hen n (Nat.le_refl _))
  rw [← hsame, linked_log (hL n), linked_log (hL m), queuedTags_seen, dispatchedTags_seen] at h1
  have := (hq.sublist.filter (aboutTag K)).length_le
  omega

theorem part_scheduler_fair (hL : ∀ n, Linked K own a (c.st n) (c'.st n)) (hf : c.WeaklyFair (ByScheduler · = true))
    (ht : c.Turning) : c'.WeaklyFair (ByScheduler · = true) := by
  intro n _
  refine Classical.byContradiction fun hno => ?_
  obtain ⟨m, hm, hq⟩ := C71_turns c hf ht n ((c.st n).ticks + 1)
  have hsame : (c'.st m).ticks = (c'.st n).ticks := by
    refine course_keeps c' (fun s => s.ticks = (c'.st n).ticks) rfl ?_ m hm
    intro i l hi hlab h
    rcases ticks_step (step_act (course_step c' hlab)) with ⟨_, h2⟩ | ⟨rfl, _⟩
    · rw [h2, h]
    · exact absurd ⟨i, hi, .tLapse, rfl, hlab⟩ hno
  rw [linked_ticks (hL n), linked_ticks (hL m)] at hsame
  have : (c.st n).ticks + 1 ≤ (c.st m).ticks := hq
  omega

theorem part_rounds_fair (hL : ∀ n, Linked K own a (c.st n) (c'.st n)) (hF : ∀ n, Follows K own (c.lab n) (c'.lab n))
    (hf : c.WeaklyFair (ByRounds · = true)) : c'.WeaklyFair (ByRounds · = true) := by
  intro n _
  obtain ⟨m, hm, l, h1, h2⟩ := hf n (fun m _ => sweeper_next _)
  cases hown : own with
  | false =>
    obtain ⟨l', h3, h4⟩ := (hF m).rounds hown l h2 h1
    exact ⟨m, hm, l', h4, h3⟩
  | true =>
    rcases (hF m).kind with h3 | h3 | ⟨h3, _⟩
    · exact ⟨m, hm, l, h1, by rw [h3, h2]⟩
    · exfalso
      refine rounds_move h1 (step_act (course_step c h2)) ?_
      have hspc : ∀ i, (c'.st i).spc = (c.st i).spc := by
        intro i
        obtain ⟨b, hb, _, r, x, hp, _⟩ := hL i
        obtain ⟨a', sw⟩ := b
        cases sw with
        | none => rw [hp]; rfl
        | some w => rw [hown] at hb; cases hb
      rw [← hspc, ← hspc, course_rest c' h3]
    · rw [hown] at h3; cases h3

/-- A run that was stopped belongs to the task under which it was stopped. -/
theorem stopped_own {s : St} (hr : Reachable env s) {id : Nat} {rec : Int} {v : RtInst} (h : .stopped id rec ∈ s.log)
    (hv : s.rt rec = some v) : id = v.taskId := by
  have h1 := (traceOk hr).stop id rec h
  have h2 : .queued (.append id rec) ∈ s.log := by
    rw [← mem_queuedTags, fifo hr]
    exact List.mem_append_left _ (List.mem_append_left _ h1)
  obtain ⟨rtn, n, ts, h3⟩ := queued_begun hr h2
  obtain ⟨⟨n', ts', h4⟩, _⟩ := (rtOk hr).rt rec v hv
  exact (started_once hr h3 h4).1

theorem linked_reports {s p : St} (h : Linked K own a s p) {rec : Int} (he : Enabled env (Reports rec) p) :
    Enabled env (Reports rec) s ∧ ∃ v, s.rt rec = some v ∧ K v.taskId = true := by
  obtain ⟨l, p', ⟨now, rfl⟩, h2⟩ := he
  simp only [step, rFinish] at h2
  cases hv : p.rt rec with
  | none => rw [hv] at h2; cases h2
  | some v =>
    rw [hv] at h2
    obtain ⟨h3, h4⟩ := linked_rt h hv
    dsimp only at h2
    split at h2
    · rename_i h5
      exact ⟨⟨.rFinish rec now, _, ⟨now, rfl⟩, by simp only [step, rFinish, h3]; rw [if_pos h5]⟩, v, h3, h4⟩
    · cases h2

theorem reported_once {s s' : St} {rec : Int} {now : Nat} (h : step env s (.rFinish rec now) = some s') :
    ¬ Enabled env (Reports rec) s' := by
  rintro ⟨l, s2, ⟨now', rfl⟩, h2⟩
  cases step_act h
  case finish v hv hb hg hf =>
    simp [step, rFinish, setI] at h2

theorem part_reports_fair (hL : ∀ n, Linked K own a (c.st n) (c'.st n)) (hF : ∀ n, Follows K own (c.lab n) (c'.lab n))
    (hf : c.RunsReport) : c'.RunsReport := by
  intro rec n hen
  obtain ⟨m, hm, l, ⟨now, rfl⟩, h2⟩ := hf rec n (by
    intro m hm
    obtain ⟨h1, v, h2, h3⟩ := linked_reports (hL m) (hen m hm).1
    refine ⟨h1, fun id hs => (hen m hm).2 id ?_⟩
    have := stopped_own (course_reach c m) hs h2
    rw [linked_log (hL m)]
    exact List.mem_filter.2 ⟨hs, by simp [seen, this, h3]⟩)
  rcases (hF m).kind with h3 | h3 | ⟨_, ⟨l, h3, h4⟩, _⟩
  · exact ⟨m, hm, _, ⟨now, rfl⟩, by rw [h3, h2]⟩
  · exfalso
    exact reported_once (course_step c h2) (linked_reports (hL (m + 1)) (hen (m + 1) (by omega)).1).1
  · rw [h2] at h3; cases h3; cases h4

theorem part_takes_fair (hA : Asks c K own a) (hL : ∀ n, Linked K own a (c.st n) (c'.st n))
    (hF : ∀ n, Follows K own (c.lab n) (c'.lab n)) (hf : c.StronglyFair (TakesIn · = true)) :
    c'.StronglyFair (TakesIn · = true) := by
  intro n hen
  have hown : own = true := by
    cases hown : own with
    | true => rfl
    | false =>
      exfalso
      obtain ⟨m, _, l, p', h1, h2⟩ := hen n
      obtain ⟨b, hb, _, r, x, hp, _⟩ := hL m
      have hu := (asks_units hA m hb).1
      rw [hb, hown] at hu
      cases step_act h2
      all_goals try (cases h1; done)
      case sadd w u rest h3 h4 =>
        rw [hp] at h4
        simp only [part, units_none hu] at h4
        cases h4
  have hsw : ∀ i, (c'.st i).spc = (c.st i).spc ∧ (c'.st i).unitChan = (c.st i).unitChan ∧ (c'.st i).heap = (c.st i).heap := by
    intro i
    obtain ⟨b, hb, _, r, x, hp, _⟩ := hL i
    have hu := asks_units hA i hb
    obtain ⟨a', sw⟩ := b
    cases sw with
    | none => rw [hp]; exact ⟨rfl, units_all hu.1, units_all hu.2⟩
    | some w => rw [hown] at hb; cases hb
  obtain ⟨m, hm, l, h1, h2⟩ := hf n (by
    intro k
    obtain ⟨m, hm, l, p', h1, h2⟩ := hen k
    cases step_act h2
    all_goals try (cases h1; done)
    case sadd w u rest h3 h4 =>
      rw [(hsw m).1] at h3
      rw [(hsw m).2.1] at h4
      exact ⟨m, hm, .sAdd, _, rfl, by simp only [step, sAdd, h3, h4]; rfl⟩)
  rcases (hF m).kind with h3 | h3 | ⟨h3, _⟩
  · exact ⟨m, hm, l, h1, by rw [h3, h2]⟩
  · exfalso
    have h4 : (c.st (m + 1)).heap = (c.st m).heap := by
      rw [← (hsw (m + 1)).2.2, ← (hsw m).2.2, course_rest c' h3]
    have ha := step_act (course_step c h2)
    generalize hs' : c.st (m + 1) = s' at ha h4
    cases ha
    all_goals try (cases h1; done)
    case sadd w u rest h5 h6 => simp at h4
  · rw [hown] at h3; cases h3

theorem part_turning (hL : ∀ n, Linked K own a (c.st n) (c'.st n)) (ht : c.Turning) : c'.Turning := by
  intro n hg
  obtain ⟨h1, h2, h3, _⟩ := course_turns c ht n
  obtain ⟨b, hb, _, r, x, hp, _, hx⟩ := hL n
  have hx : (c'.st n).tpc = partT K (c.st n).tpc := by
    rcases hx with hx | hx
    · rw [hp]; exact hx
    · exact absurd hx h2
  have key : ∃ l s', ByScheduler l = true ∧ step env (c'.st n) l = some s' := by
    refine scheduler_next ?_ ?_ ?_
    · intro h
      rw [hx] at h
      cases hq : (c.st n).tpc <;> rw [hq] at h <;> simp only [partT] at h
      all_goals try (split at h)
      all_goals try (cases h; done)
      exact h1 hq
    · intro h
      rw [hx] at h
      cases hq : (c.st n).tpc <;> rw [hq] at h <;> simp only [partT] at h
      all_goals try (split at h)
      all_goals try (cases h; done)
      exact h2 hq
    · rintro ⟨ho, ⟨p, t, box, m, h, h4, h5⟩ | ⟨p, t, upd, h, h4⟩⟩
      · rw [hx] at h
        cases hq : (c.st n).tpc <;> rw [hq] at h <;> simp only [partT] at h
        all_goals try (split at h)
        all_goals try (cases h; done)
        cases h
        exact h3 ⟨ho, Or.inl ⟨_, _, _, _, hq, h4, h5⟩⟩
      · rw [hx] at h
        cases hq : (c.st n).tpc <;> rw [hq] at h <;> simp only [partT] at h
        all_goals try (split at h)
        all_goals try (cases h; done)
        cases h
        exact h3 ⟨ho, Or.inr ⟨_, _, _, hq, h4⟩⟩
  obtain ⟨l, s', h4, h5⟩ := key
  rw [hg [] _ rfl l h4] at h5
  cases h5

theorem part_listening (hL : ∀ n, Linked K own a (c.st n) (c'.st n)) (hl : c.Listening) : c'.Listening := by
  intro n hd
  have h1 : step env (c'.st n) (.uSend .stop) = some (push (c'.st n) .stopTimer) := rfl
  obtain ⟨b, hb, _, r, x, hp, _⟩ := hL n
  obtain ⟨l, s', h2, h3⟩ := event_next (env := env) (s := push (c'.st n) .stopTimer)
    (by
      intro t cc h he ho
      refine Classical.byContradiction fun hx => hl n (deaf_of_stuck ⟨ho, t, cc, h, ?_, hx⟩)
      have he : (c'.st n).epc = .add1 t cc h := he
      rw [hp] at he
      simp only [part] at he
      cases hq : (c.st n).epc <;> rw [hq] at he <;> simp only [partE] at he
      all_goals try (split at he)
      all_goals try (cases he; done)
      exact he)
    (by simp [backlog, push]; omega)
  rw [hd [.uSend .stop] _ (by simp only [run, h1]) l (byEvents_iff.2 h2)] at h3
  cases h3

end

end DelayTimer
