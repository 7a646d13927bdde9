import Verif.Proofs.Progress
import Verif.Props.Count
import Verif.Props.Parallel
import Verif.Props.Sheet

/-!
# Every history is the history of an execution (C79)

The hypotheses of `C79` are about the history of `k`. Here: none of them is void. Whatever ticks and
operations on `k` are written down, without parallel limits, with overflow checks off there is an execution with
exactly that history, in which the operations are carried out between the ticks.
-/

namespace DelayTimer
open Spec

/-- The task has no parallel limit. -/
def NoLim (t : Task) : Prop := t.maximumParallelRunnableNum = none

/-- No copy of `k` has a parallel limit. -/
abbrev Boundless (k : Nat) (s : St) : Prop := Copies NoLim NoLim k s

theorem boundless_step {env : Env} {k : Nat} {s : St} {l : Label} {s' : St} (hb : ∀ t ∈ broughtBy k l, NoLim t)
    (hs : Boundless k s) (h : Act env s l s') : Boundless k s' :=
  copies_step (fun _ _ h => h) (fun _ h => h) (fun _ _ ht hd => (down_limit hd).trans ht) (fun _ h => h) hb hs h

theorem boundless_run {env : Env} {k : Nat} : ∀ (ls : List Label) {s s' : St}, Boundless k s →
    (∀ t ∈ handed k ls, NoLim t) → run env s ls = some s' → Boundless k s'
  | [], _, _, hs, _, h => by cases h; exact hs
  | l :: ls, s, s', hs, hb, h => by
    simp only [run] at h
    split at h
    rotate_left
    · cases h
    rename_i s1 h1
    have hb' : ∀ t ∈ broughtBy k l ++ handed k ls, NoLim t := hb
    exact boundless_run ls (boundless_step (fun t ht => hb' t (List.mem_append_left _ ht)) hs (step_act h1))
      (fun t ht => hb' t (List.mem_append_right _ ht)) h

/-- Then no run of it is left out. -/
theorem boundless_skip {k : Nat} {s : St} (hs : Boundless k s) (rec : Int) : sheetEvs k s (.tCheck rec) = [] := by
  simp only [sheetEvs]
  split
  · rename_i p t hp
    split
    · rename_i h
      have : NoLim t := hs.held t (by rw [hp]; simp [heldTok, h.1])
      have h2 := h.2
      unfold Full at h2
      rw [show t.maximumParallelRunnableNum = none from this] at h2
      cases h2
    · rfl
  · rfl

/-- From `s` the timer can get to `s'` with the history `es` of `k`, operations between ticks, and no parallel
limits. -/
def Does (env : Env) (k : Nat) (s : St) (es : List SheetEv) (s' : St) : Prop :=
  ∃ ls, run env s ls = some s' ∧ BetweenTicks env k s ls ∧ history env k s ls = es ∧ ∀ t ∈ handed k ls, NoLim t

theorem Does.refl (env : Env) (k : Nat) (s : St) : Does env k s [] s := ⟨[], rfl, trivial, rfl, fun _ h => nomatch h⟩

theorem Does.bound {env : Env} {k : Nat} {s s' : St} {es : List SheetEv} (h : Does env k s es s') (hb : Boundless k s) :
    Boundless k s' := by
  obtain ⟨ls, h1, _, _, h2⟩ := h
  exact boundless_run ls hb h2 h1

theorem between_append {env : Env} {k : Nat} : ∀ (l1 : List Label) {l2 : List Label} {s s' : St},
    run env s l1 = some s' → BetweenTicks env k s l1 → BetweenTicks env k s' l2 → BetweenTicks env k s (l1 ++ l2)
  | [], _, _, _, h, _, h2 => by cases h; exact h2
  | l :: l1, l2, s, s', h, h1, h2 => by
    refine ⟨h1.1, h1.2.1, fun x hx => ?_⟩
    simp only [run, hx] at h
    exact between_append l1 h (h1.2.2 x hx) h2

theorem history_append {env : Env} {k : Nat} : ∀ (l1 : List Label) {l2 : List Label} {s s' : St},
    run env s l1 = some s' → history env k s (l1 ++ l2) = history env k s l1 ++ history env k s' l2
  | [], _, _, _, h => by cases h; rfl
  | l :: l1, l2, s, s', h => by
    simp only [run] at h
    split at h
    · rename_i x hx
      simp only [List.cons_append, history, hx, history_append l1 h, List.append_assoc]
    · cases h

theorem Does.trans {env : Env} {k : Nat} {a b c : St} {e1 e2 : List SheetEv} (h1 : Does env k a e1 b)
    (h2 : Does env k b e2 c) : Does env k a (e1 ++ e2) c := by
  obtain ⟨l1, r1, b1, i1, n1⟩ := h1
  obtain ⟨l2, r2, b2, i2, n2⟩ := h2
  refine ⟨l1 ++ l2, by rw [run_append, r1]; exact r2, between_append l1 r1 b1 b2, by rw [history_append l1 r1, i1, i2], ?_⟩
  intro t ht
  unfold handed at ht
  rw [List.flatMap_append] at ht
  exact (List.mem_append.1 ht).elim (n1 t) (n2 t)

theorem Does.one {env : Env} {k : Nat} {s s' : St} {l : Label} (h : step env s l = some s')
    (h1 : l = .eRecv → s.tpc = .batch []) (h2 : l = .tLapse → s.epc = .idle)
    (h3 : ∀ t ∈ broughtBy k l, NoLim t) : Does env k s (sheetEvs k s l) s' :=
  ⟨[l], by simp [run, h], ⟨fun hl _ _ _ _ => h1 hl, fun hl => by rw [h2 hl]; exact id, fun _ _ => trivial⟩,
    by simp [history, h], by simpa [handed] using h3⟩

theorem Does.reach {env : Env} {k : Nat} {s s' : St} {es : List SheetEv} (h : Does env k s es s')
    (hr : Reachable env s) : Reachable env s' := by
  obtain ⟨l, h, _⟩ := h
  obtain ⟨l0, h0⟩ := hr
  exact ⟨l0 ++ l, by rw [run_append, h0]; exact h⟩

theorem clean_epc {env : Env} {s : St} {l : Label} {s' : St} (h : Act env s l s') (hl : CleanT l) :
    s'.epc = s.epc := by
  cases h
  all_goals first | exact hl.elim | rfl | (simp; done)

/-- What the scheduler does within one tick is no event on the sheet. -/
theorem within {env : Env} {k : Nat} : ∀ (ls : List Label) {s s' : St}, run env s ls = some s' →
    (∀ l ∈ ls, CleanT l) → s.epc = .idle → s'.ticks ≤ s.ticks → Boundless k s →
    BetweenTicks env k s ls ∧ history env k s ls = [] ∧ handed k ls = []
  | [], _, _, _, _, _, _, _ => ⟨trivial, rfl, rfl⟩
  | l :: ls, s, s', h, hc, hi, ht, hbd => by
    simp only [run] at h
    split at h
    · rename_i x hx
      have ha := step_act hx
      have hl := hc l List.mem_cons_self
      have hle : x.ticks ≤ s'.ticks := run_induct (fun y => x.ticks ≤ y.ticks)
        (fun _ _ _ hs h => Nat.le_trans hs (ticks_mono h)) ls x s' (Nat.le_refl _) h
      have hmono := ticks_mono ha
      have hne : l ≠ .tLapse := by
        intro hl
        subst hl
        cases ha
        simp only at hle
        omega
      have hbr : broughtBy k l = [] := by cases l <;> first | rfl | exact hl.elim
      obtain ⟨w1, w2, w3⟩ := within (k := k) ls h (fun l' h' => hc l' (List.mem_cons_of_mem _ h'))
        ((clean_epc ha hl).trans hi) (by omega) (boundless_step (by rw [hbr]; exact fun _ h => nomatch h) hbd ha)
      refine ⟨⟨?_, fun hl => absurd hl hne, fun y hy => ?_⟩, ?_, ?_⟩
      · intro he; rw [he] at hl; exact hl.elim
      · rw [hx] at hy; cases hy; exact w1
      · simp only [history, hx, w2, List.append_nil]
        cases l <;> first | rfl | exact absurd rfl hne | exact hl.elim | exact boundless_skip hbd _
      · show broughtBy k l ++ handed k ls = []
        rw [hbr, w3]; rfl
    · cases h

theorem Gets.does {env : Env} {s s' : St} (k : Nat) (h : Gets env s s') (hi : s.epc = .idle)
    (ht : s'.ticks = s.ticks) (hb : Boundless k s) : Does env k s [] s' := by
  obtain ⟨ls, h1, h2, _⟩ := h
  obtain ⟨h3, h4, h5⟩ := within (k := k) ls h1 h2 hi (Nat.le_of_eq ht) hb
  exact ⟨ls, h1, h3, h4, by rw [h5]; exact fun _ h => nomatch h⟩

/-- Between two ticks, with nothing queued. -/
structure Ready (env : Env) (k : Nat) (s : St) : Prop where
  reach : Reachable env s
  tpc : s.tpc = .batch []
  epc : s.epc = .idle
  chan : s.chan = []
  going : s.motivation = true
  bound : Boundless k s

/-- The event thread takes in the handles of the runs that were started. -/
theorem drain {env : Env} {k : Nat} : ∀ (es : List TimerEvent) {s : St}, Reachable env s → s.tpc = .batch [] →
    s.epc = .idle → s.motivation = true → s.chan = es → (∀ e ∈ es, ∃ id box, e = .appendTaskHandle id box) →
    Boundless k s → ∃ s', Does env k s [] s' ∧ Ready env k s'
  | [], s, hr, ht, he, hm, hc, _, hb => ⟨s, .refl _ _ _, hr, ht, he, hc, hm, hb⟩
  | e :: es, s, hr, ht, he, hm, hc, hall, hb => by
    obtain ⟨id, box, rfl⟩ := hall e List.mem_cons_self
    have h1 : step env s .eRecv = some (done env (maintainTaskStatus { s with chan := es } id box)
        (TimerEvent.appendTaskHandle id box).tag (publicOf (.appendTaskHandle id box)) (some true)) := by
      simp only [step, eRecv, he, hc]
    have h2 := Does.one (k := k) h1 (fun _ => ht) (fun h => nomatch h) (fun _ h => nomatch h)
    have hb2 := h2.bound hb
    simp only [sheetEvs, hc, opOf] at h2
    obtain ⟨s', h3, h4⟩ := drain (k := k) es (h2.reach hr) (by simp [ht]) rfl (by simp [hm]) (by simp)
      (fun e' h' => hall e' (List.mem_cons_of_mem _ h')) hb2
    exact ⟨s', h2.trans h3, h4⟩

/-- From the loop head the timer can get to the next pause. -/
theorem pause {env : Env} {k : Nat} (ho : env.overflowChecks = false) {s : St} (hr : Reachable env s)
    (hh : s.tpc = .head) (he : s.epc = .idle) (hm : s.motivation = true) (hc : s.chan = [])
    (hb : Boundless k s) : ∃ s', Does env k s [] s' ∧ Ready env k s' := by
  have h1 : step env s .tLoad = some { s with tpc := .store } := by
    simp only [step, tLoad, hh]; rw [if_pos hm]
  have h2 : step env { s with tpc := .store } .tStore =
      some { s with tpc := .arrive, globalTime := env.clock s.ticks } := by simp only [step, tStore]
  obtain ⟨sl, hsl⟩ := Option.isSome_iff_exists.1 (((wheelOk hr).shape.1 s.secondHand).2 (wheelOk hr).hand_lt)
  obtain ⟨s3, h3, h4, h5, h6, h7, h8, h9⟩ : ∃ s3, step env { s with tpc := .arrive, globalTime := env.clock s.ticks }
      .tArrive = some s3 ∧ (∃ p, s3.tpc = .batch p) ∧ s3.epc = .idle ∧ s3.motivation = true ∧ s3.chan = [] ∧
      s3.ticks = s.ticks ∧ ∀ t, holding s3.tpc = some t → t.taskId ∉ pendingOf s3.tpc := by
    refine ⟨{ s with
      wheel := set s.wheel s.secondHand (some sl.arrivalTimeTasks.2), globalTime := env.clock s.ticks
      tpc := .batch sl.arrivalTimeTasks.1 }, ?_, ⟨_, rfl⟩, he, hm, hc, rfl, ?_⟩
    · simp only [step, tArrive, hsl]
    · intro t ht; cases ht
  have d1 : Does env k s [] s3 :=
    ((Does.one (k := k) h1 (fun h => nomatch h) (fun h => nomatch h) (fun _ h => nomatch h)).trans
      (Does.one (k := k) h2 (fun h => nomatch h) (fun h => nomatch h) (fun _ h => nomatch h))).trans
      (Does.one (k := k) h3 (fun h => nomatch h) (fun h => nomatch h) (fun _ h => nomatch h))
  obtain ⟨p, h4⟩ := h4
  obtain ⟨s4, g1, g2, g3, _, _⟩ := finish_batch (n := 0) p.length rfl h4 (Sound.of_off ho 0 (d1.reach hr) h9)
  have d2 := g1.does k h5 g3 (d1.bound hb)
  obtain ⟨_, _, _, ⟨es, hes, hall⟩, hke, hkm⟩ := g1
  obtain ⟨s5, d3, hready⟩ := drain (k := k) es (d2.reach (d1.reach hr)) g2 (hke.trans h5) (hkm.trans h6)
    (by rw [hes, h7]; rfl) hall (d2.bound (d1.bound hb))
  exact ⟨s5, (d1.trans d2).trans d3, hready⟩

theorem ready_tick {env : Env} {k : Nat} (ho : env.overflowChecks = false) {s : St} (h : Ready env k s) :
    ∃ s', Does env k s [.tick] s' ∧ Ready env k s' := by
  have h1 : step env s .tLapse = some
      { s with secondHand := (s.secondHand + 1) % SLOT_COUNT, ticks := s.ticks + 1, tpc := .head } := by
    simp only [step, tLapse, h.tpc]
  have d1 := Does.one (k := k) h1 (fun h => nomatch h) (fun _ => h.epc) (fun _ h => nomatch h)
  obtain ⟨s', d2, h2⟩ := pause (k := k) ho (d1.reach h.reach) rfl h.epc h.going h.chan (d1.bound h.bound)
  exact ⟨s', d1.trans d2, h2⟩

/-- A step of the event thread in the middle of an operation. -/
theorem next_one {env : Env} {k : Nat} {s s' : St} (h : step env s .eNext = some s') : Does env k s [] s' :=
  Does.one h (fun h => nomatch h) (fun h => nomatch h) (fun _ h => nomatch h)

/-- The call and the receipt of its event. -/
theorem call_recv {env : Env} {k : Nat} {s s2 : St} (h : Ready env k s) (op : UserOp)
    (hop : ∀ t ∈ broughtBy k (.uSend op), NoLim t) (h2 : step env (push s op.event) .eRecv = some s2) : Does env k s (opOf k op.event) s2 := by
  have h1 : step env s (.uSend op) = some (push s op.event) := rfl
  have d2 := Does.one (k := k) h2 (fun _ => h.tpc) (fun h => nomatch h) (fun _ h => nomatch h)
  have hc : (push s op.event).chan = [op.event] := by simp [push, h.chan]
  simp only [sheetEvs, hc] at d2
  exact (Does.one (k := k) h1 (fun h => nomatch h) (fun h => nomatch h) hop).trans d2

theorem ready_done {env : Env} {k : Nat} {s x : St} {tag : Tag} {pub : Option PublicEvent} {res : Option Bool}
    (hr : Reachable env (done env x tag pub res)) (h1 : x.tpc = s.tpc) (h2 : x.chan = []) (h3 : x.motivation = s.motivation)
    (h : Ready env k s) (h4 : Boundless k (done env x tag pub res)) : Ready env k (done env x tag pub res) :=
  ⟨hr, h1.trans h.tpc, rfl, h2, h3.trans h.going, h4⟩

theorem ready_op {env : Env} {k : Nat} (ho : env.overflowChecks = false) {s : St} (h : Ready env k s) (op : UserOp)
    (hstop : op ≠ .stop) (hop : ∀ t ∈ broughtBy k (.uSend op), NoLim t) : ∃ s', Does env k s (opOf k op.event) s' ∧ Ready env k s' := by
  have close : ∀ {x : St} {tag pub res}, Does env k s (opOf k op.event) (done env x tag pub res) →
      x.tpc = s.tpc → x.chan = [] → x.motivation = s.motivation →
      ∃ s', Does env k s (opOf k op.event) s' ∧ Ready env k s' := fun hd a b c =>
    ⟨_, hd, ready_done (hd.reach h.reach) a b c h (hd.bound h.bound)⟩
  cases op with
  | stop => exact absurd rfl hstop
  | add t =>
    have d1 := call_recv (k := k) h (.add t) hop (s2 := { push s (.addTask t) with
      chan := [], epc := .add1 t none s.secondHand }) (by simp only [step, eRecv, push, h.epc, UserOp.event, h.chan, List.nil_append])
    rcases ha : t.getNextExecTimestamp with ⟨_ | exec, t'⟩
    · have h8 : step env { push s (.addTask t) with chan := [], epc := .add1 t none s.secondHand } .eNext = some (done env
          { push s (.addTask t) with chan := [], epc := .add1 t none s.secondHand } (addTag t none) none none) := by
        simp [step, eNext, ho, ha, freshMaintainer, dropMaintainer]
      have d := d1.trans (next_one h8)
      simp only [List.append_nil] at d
      refine close d ?_ ?_ ?_
      all_goals rfl
    · have d2 := next_one (env := env) (k := k)
        (s := { push s (.addTask t) with chan := [], epc := .add1 t none s.secondHand })
        (s' := { push s (.addTask t) with chan := [], epc := .add2 t' none s.secondHand exec s.globalTime })
        (by simp [step, eNext, ho, ha, push])
      obtain ⟨s3, h3, h4, h5, h6, tag, m, h7⟩ : ∃ s3, step env
          { push s (.addTask t) with chan := [], epc := .add2 t' none s.secondHand exec s.globalTime } .eNext = some s3 ∧
          s3.tpc = s.tpc ∧ s3.chan = [] ∧ s3.motivation = s.motivation ∧ ∃ tag m, s3.epc = .add3 tag m := by
        refine ⟨_, rfl, rfl, rfl, rfl, _, _, rfl⟩
      have h8 : step env s3 .eNext = some (done env { dropMark s3 (s3.flags m.taskId) with
          flags := set (dropMark s3 (s3.flags m.taskId)).flags m.taskId (some m) } tag none (some true)) := by
        simp only [step, eNext, h7]
      have d := ((d1.trans d2).trans (next_one h3)).trans (next_one h8)
      simp only [List.append_nil] at d
      refine close d ?_ ?_ ?_
      all_goals simp [h4, h5, h6]
  | update t =>
    obtain ⟨x, tag, pub, res, h2, h3, h4, h5⟩ : ∃ x tag pub res, step env (push s (.updateTask t)) .eRecv =
        some (done env x tag pub res) ∧ x.tpc = s.tpc ∧ x.chan = [] ∧ x.motivation = s.motivation := by
      simp only [step, eRecv, push, h.epc, h.chan, List.nil_append]
      refine ⟨_, _, _, _, rfl, ?_, ?_, ?_⟩
      all_goals (split; · rfl); split <;> rfl
    exact close (call_recv (k := k) h (.update t) hop h2) h3 h4 h5
  | remove id =>
    obtain ⟨s2, ok, h2, h3, h4, h5, h6⟩ : ∃ s2 ok, step env (push s (.removeTask id)) .eRecv = some s2 ∧ s2.tpc = s.tpc ∧
        s2.chan = [] ∧ s2.motivation = s.motivation ∧ s2.epc = .remove id ok := by
      simp only [step, eRecv, push, h.epc, h.chan, List.nil_append]
      split
      · exact ⟨_, _, rfl, rfl, rfl, rfl, rfl⟩
      · split <;> exact ⟨_, _, rfl, rfl, rfl, rfl, rfl⟩
    have h8 : step env s2 .eNext = some (done env { dropMark s2 (s2.flags id) with
        flags := set (dropMark s2 (s2.flags id)).flags id none } (.remove id) (some (.removeTask id))
        (if ok then some true else none)) := by
      simp only [step, eNext, h6]
    have d := (call_recv (k := k) h (.remove id) hop h2).trans (next_one h8)
    simp only [List.append_nil] at d
    refine close d ?_ ?_ ?_
    all_goals simp [h3, h4, h5]
  | advance id =>
    obtain ⟨s2, h2, h3, h4, h5, h6⟩ : ∃ s2, step env (push s (.advanceTask id)) .eRecv = some s2 ∧ s2.tpc = s.tpc ∧
        s2.chan = [] ∧ s2.motivation = s.motivation ∧ (s2.epc = .idle ∨ ∃ t, s2.epc = .adv1 t) := by
      simp only [step, eRecv, push, h.epc, h.chan, List.nil_append]
      split
      · exact ⟨_, rfl, rfl, rfl, rfl, Or.inl rfl⟩
      · split
        · exact ⟨_, rfl, rfl, rfl, rfl, Or.inl rfl⟩
        · split
          · exact ⟨_, rfl, rfl, rfl, rfl, Or.inl rfl⟩
          · exact ⟨_, rfl, rfl, rfl, rfl, Or.inr ⟨_, rfl⟩⟩
    have d1 := call_recv (k := k) h (.advance id) hop h2
    rcases h6 with h6 | ⟨t, h6⟩
    · exact ⟨s2, d1, d1.reach h.reach, h3.trans h.tpc, h6, h4, h5.trans h.going, d1.bound h.bound⟩
    · have d2 := next_one (env := env) (k := k) (s := s2) (s' := { s2 with epc := .adv2 t s2.secondHand })
        (by simp only [step, eNext, h6])
      obtain ⟨s4, h7, h8, h9, h10, h11⟩ : ∃ s4, step env { s2 with epc := .adv2 t s2.secondHand } .eNext = some s4 ∧
          s4.tpc = s.tpc ∧ s4.chan = [] ∧ s4.motivation = s.motivation ∧ s4.epc = .idle := by
        simp only [step, eNext]
        split <;> exact ⟨_, rfl, h3, h4, h5, rfl⟩
      have d3 : Does env k s (opOf k (UserOp.advance id).event) s4 := by
        have := (d1.trans d2).trans (next_one h7)
        simpa only [List.append_nil] using this
      exact ⟨s4, d3, d3.reach h.reach, h8.trans h.tpc, h11, h9, h10.trans h.going, d3.bound h.bound⟩
  | cancel id r =>
    obtain ⟨x, tag, pub, res, h2, h3, h4, h5⟩ : ∃ x tag pub res, step env (push s (.cancelTask id r)) .eRecv =
        some (done env x tag pub res) ∧ x.tpc = s.tpc ∧ x.chan = [] ∧ x.motivation = s.motivation := by
      simp only [step, eRecv, push, h.epc, h.chan, List.nil_append]
      refine ⟨_, _, _, _, rfl, ?_, ?_, ?_⟩
      all_goals simp
    exact close (call_recv (k := k) h (.cancel id r) hop h2) h3 h4 h5

/-- The call for an operation on `k`. -/
def callOf (k : Nat) : SheetOp → UserOp
  | .add t => .add t
  | .update t => .update t
  | .remove => .remove k
  | .advance => .advance k

/-- The tasks of a history have the id `k`. -/
def Names (k : Nat) : SheetEv → Prop
  | .op (.add t) => t.taskId = k
  | .op (.update t) => t.taskId = k
  | _ => True

theorem op_call {k : Nat} {o : SheetOp} (h : Names k (.op o)) : opOf k (callOf k o).event = [.op o] := by
  cases o <;> simp only [callOf, UserOp.event, opOf] <;> first | exact if_pos h | exact if_pos rfl

theorem op_bound {k : Nat} {o : SheetOp} (h : SheetEv.Unlimited (.op o)) :
    ∀ t ∈ broughtBy k (.uSend (callOf k o)), NoLim t := by
  intro t ht
  cases o <;> simp only [callOf, broughtBy] at ht
  · rw [(mem_ite_one.1 ht).2]; exact h
  · rw [(mem_ite_one.1 ht).2]; exact h
  · cases ht
  · cases ht

theorem realize {env : Env} {k : Nat} (ho : env.overflowChecks = false) : ∀ (es : List SheetEv) {s : St}, Ready env k s →
    (∀ ev ∈ es, Names k ev) → (∀ ev ∈ es, ev.Unlimited) → ∃ s', Does env k s es s' ∧ Ready env k s'
  | [], s, h, _, _ => ⟨s, .refl _ _ _, h⟩
  | ev :: es, s, h, hn, hu => by
    obtain ⟨s1, d1, h1⟩ : ∃ s1, Does env k s [ev] s1 ∧ Ready env k s1 := by
      cases ev with
      | tick => exact ready_tick ho h
      | skip => exact (hu _ List.mem_cons_self).elim
      | op o =>
        obtain ⟨s1, d, h1⟩ := ready_op ho h (callOf k o) (by cases o <;> simp [callOf])
          (op_bound (hu _ List.mem_cons_self))
        exact ⟨s1, op_call (hn _ List.mem_cons_self) ▸ d, h1⟩
    obtain ⟨s2, d2, h2⟩ := realize ho es h1 (fun e he => hn e (List.mem_cons_of_mem _ he))
      (fun e he => hu e (List.mem_cons_of_mem _ he))
    exact ⟨s2, d1.trans d2, h2⟩

/-- **Every history happens.** Whatever ticks and operations on `k` are written down, in whatever order, without
parallel limits: with overflow checks off some execution has exactly that history of `k`, the operations being carried out between the
ticks. It ends between two ticks, so that `C79` says where `k` is and what was run. -/
theorem C79_every_history {env : Env} (ho : env.overflowChecks = false) {k : Nat} (es : List SheetEv)
    (hn : ∀ ev ∈ es, Names k ev) (hu : ∀ ev ∈ es, ev.Unlimited) :
    ∃ ls s, run env (init env) ls = some s ∧ BetweenTicks env k (init env) ls ∧ history env k (init env) ls = es ∧
      s.tpc = .batch [] ∧ s.epc = .idle := by
  obtain ⟨s0, d0, h0⟩ := pause (env := env) (k := k) ho (s := init env) ⟨[], rfl⟩ rfl rfl rfl rfl
    (copies_init env _ _ k)
  obtain ⟨s, d, h⟩ := realize ho es h0 hn hu
  obtain ⟨ls, h1, h2, h3, _⟩ := d0.trans d
  exact ⟨ls, s, h1, h2, h3, h.tpc, h.epc⟩

/-- So every sheet that can be written with plain tasks of the id `k` is the sheet of an execution. -/
theorem C79_every_sheet {env : Env} (ho : env.overflowChecks = false) {k : Nat} (es : List SheetEv)
    (hn : ∀ ev ∈ es, Names k ev) (hp : ∀ ev ∈ es, ev.Plain) {Q : Sheet}
    (hQ : Sheet.after env.clock k es = some Q) :
    ∃ ls s, OnPaper env k ls s Q ∧ s.tpc = .batch [] ∧ s.epc = .idle ∧ s.ticks = Q.now ∧
      startTicks k s.log = Q.runs.map Prod.fst ∧ startRoutines k s.log = Q.runs.map Prod.snd := by
  obtain ⟨ls, s, h1, h2, h3, h4, h5⟩ := C79_every_history ho es hn (fun ev h => (hp ev h).2)
  have h : OnPaper env k ls s Q := ⟨h1, h2, h3 ▸ fun ev h => (hp ev h).1, h3 ▸ hQ⟩
  obtain ⟨a, b, c, _⟩ := C79 h h4 (by rw [h5]; exact id)
  exact ⟨ls, s, h, h4, h5, a, b, c⟩

/-! ### Examples -/

namespace Ex

/-- Task 5, every four seconds; after its first run it is replaced by routine 9, every two seconds; one run of
that is brought forward; then it is removed, and the ticks go on. -/
def story : List SheetEv :=
  [.op (.add (every 5 103 4)), .tick, .tick, .tick, .tick, .op (.update { every 5 110 2 with routine := 9 }), .tick,
    .tick, .tick, .tick, .op .advance, .tick, .tick, .tick, .tick, .op .remove, .tick, .tick, .tick, .tick, .tick]

theorem story_names : ∀ ev ∈ story, Names 5 ev := by
  intro ev h
  simp only [story, List.mem_cons, List.not_mem_nil, or_false] at h
  rcases h with h | h | h | h | h | h | h | h | h | h | h | h | h | h | h | h | h | h | h | h | h <;> subst h <;>
    first | trivial | rfl

theorem story_plain : ∀ ev ∈ story, ev.Plain := by
  intro ev h
  simp only [story, List.mem_cons, List.not_mem_nil, or_false] at h
  rcases h with h | h | h | h | h | h | h | h | h | h | h | h | h | h | h | h | h | h | h | h | h <;> subst h <;>
    first | exact ⟨trivial, trivial⟩ | exact ⟨⟨rfl, rfl, (fun h => nomatch h)⟩, rfl⟩

example : ∃ ls s Q, OnPaper env0 5 ls s Q ∧ history env0 5 (init env0) ls = story ∧ s.tpc = .batch [] ∧
    s.ticks = 17 ∧ startTicks 5 s.log = [4, 8, 9] ∧ startRoutines 5 s.log = [5, 9, 9] ∧ Absent 5 s := by
  obtain ⟨ls, s, h1, h2, h3, h4, h5⟩ := C79_every_history (env := env0) rfl story story_names (fun ev h => (story_plain ev h).2)
  obtain ⟨Q, hQ, q1, q2, q3⟩ : ∃ Q, Sheet.after env0.clock 5 story = some Q ∧ Q.now = 17 ∧
      Q.runs = [(4, 5), (8, 9), (9, 9)] ∧ Q.line = none := by
    have h : (Sheet.after env0.clock 5 story).map (fun Q => (Q.now, Q.runs, Q.line.isNone)) =
      some (17, [(4, 5), (8, 9), (9, 9)], true) := by decide +kernel
    obtain ⟨Q, h1, h2⟩ := Option.map_eq_some_iff.1 h
    simp only [Prod.mk.injEq, Option.isNone_iff_eq_none] at h2
    exact ⟨Q, h1, h2⟩
  have h : OnPaper env0 5 ls s Q := ⟨h1, h2, h3 ▸ fun ev h => (story_plain ev h).1, h3 ▸ hQ⟩
  obtain ⟨a, b, c, _, d, _⟩ := C79 h h4 (by rw [h5]; exact id)
  exact ⟨ls, s, Q, h, h3, h4, a.trans q1, by rw [b, q2]; rfl, by rw [c, q2]; rfl, d q3⟩

/-- `C79_removed` fails without `hadv`: a removal right after an advance looks in the wrong place, and the task
goes on running. -/
def missed : List SheetEv :=
  [.op (.add (every 5 103 4)), .tick, .op .advance, .op .remove, .tick, .tick, .tick, .tick, .tick, .tick, .tick]

theorem missed_plain : ∀ ev ∈ missed, Names 5 ev ∧ ev.Plain := by
  intro ev h
  simp only [missed, List.mem_cons, List.not_mem_nil, or_false] at h
  rcases h with h | h | h | h | h | h | h | h | h | h | h <;> subst h <;>
    first | exact ⟨trivial, trivial, trivial⟩ | exact ⟨rfl, ⟨rfl, rfl, (fun h => nomatch h)⟩, rfl⟩

theorem C79_removal_missed : ∃ ls s Q, OnPaper env0 5 ls s Q ∧ history env0 5 (init env0) ls = missed ∧ s.tpc = .batch [] ∧
    startTicks 5 s.log = [2, 8] ∧ s.flags 5 = none ∧ ¬ Absent 5 s := by
  obtain ⟨ls, s, h1, h2, h3, h4, h5⟩ := C79_every_history (env := env0) rfl missed (fun ev h => (missed_plain ev h).1)
    (fun ev h => (missed_plain ev h).2.2)
  obtain ⟨Q, hQ, q2, q3, e, q4⟩ : ∃ Q, Sheet.after env0.clock 5 missed = some Q ∧
      Q.runs = [(2, 5), (8, 5)] ∧ Q.place = none ∧ ∃ e, Q.line = some e := by
    have h : (Sheet.after env0.clock 5 missed).map (fun Q => (Q.runs, Q.place, Q.line.isSome)) =
      some ([(2, 5), (8, 5)], none, true) := by decide +kernel
    obtain ⟨Q, h1, h2⟩ := Option.map_eq_some_iff.1 h
    simp only [Prod.mk.injEq, Option.isSome_iff_exists] at h2
    exact ⟨Q, h1, h2⟩
  have h : OnPaper env0 5 ls s Q := ⟨h1, h2, h3 ▸ (fun ev h => (missed_plain ev h).2.1), h3 ▸ hQ⟩
  obtain ⟨_, b, _, c, _, d⟩ := C79 h h4 (by rw [h5]; exact id)
  refine ⟨ls, s, Q, h, h3, h4, by rw [b, q2]; rfl, ?_, fun ha => ?_⟩
  · rw [q3] at c
    cases hf : s.flags 5 with
    | none => rfl
    | some m => rw [hf] at c; cases c
  · obtain ⟨_, sl, t, w1, w2, w3, _⟩ := d e q4
    exact ha.wheel ⟨_, sl, t, w1, w2, w3⟩

/-- An execution with a parallel limit of one: the run of tick 4 is still going on when the next is due in tick 7,
which is left out; it ends; the run of tick 10 is started. -/
def held : List Label :=
  [.tLoad, .tStore, .tArrive] ++ add (upTo 1 (every 1 103 3)) ++ [.tLapse] ++ idles 3 ++ fire 1 0 ++ [.eRecv] ++
    idles 2 ++ skip 1 1 ++ ending 0 ++ idles 2 ++ pop 1 2 ++ [.tSlot, .tMark]

/-- Operations while the scheduler sleeps, and none in progress when it wakes up. -/
def betweenB : St → List Label → Bool
  | _, [] => true
  | s, l :: ls =>
    (match l with
      | .eRecv => (match s.chan with
        | .appendTaskHandle _ _ :: _ => true
        | .finishTask _ :: _ => true
        | _ => match s.tpc with | .batch [] => true | _ => false)
      | .tLapse => match s.epc with | .idle => true | _ => false
      | _ => true) &&
    match step env0 s l with
    | some s' => betweenB s' ls
    | none => true

theorem between_of {k : Nat} : ∀ (ls : List Label) (s : St), betweenB s ls = true → BetweenTicks env0 k s ls
  | [], _, _ => trivial
  | l :: ls, s, h => by
    simp only [betweenB, Bool.and_eq_true] at h
    obtain ⟨h1, h2⟩ := h
    refine ⟨?_, ?_, ?_⟩
    · rintro rfl e rest hc ht
      simp only [hc] at h1
      split at h1
      · cases ‹_ :: _ = _›; exact ht.elim
      · cases ‹_ :: _ = _›; exact ht.elim
      · split at h1
        · assumption
        · cases h1
    · rintro rfl
      simp only at h1
      split at h1
      · rw [‹s.epc = _›]; exact id
      · cases h1
    · intro s' hs
      rw [hs] at h2
      exact between_of ls s' h2

/-- The history of task 1 in it. -/
def heldStory : List SheetEv :=
  .op (.add (upTo 1 (every 1 103 3))) :: (List.replicate 7 .tick ++ .skip :: List.replicate 3 .tick)

set_option maxRecDepth 20000 in
theorem held_history : history env0 1 (init env0) held = heldStory := by rfl

/-- `C79` with a parallel limit: its hypotheses are met, and the sheet leaves out the second of three runs. -/
example : ∃ s Q, OnPaper env0 1 held s Q ∧ s.tpc = .batch [] ∧ ¬ Engaged 1 s.epc ∧ Q.now = 10 ∧
    Q.runs = [(4, 1), (10, 1)] ∧ startTicks 1 s.log = [4, 10] ∧ ∃ e, Q.line = some e ∧ e.due = 13 ∧ e.limited = true := by
  have hr : (run env0 (init env0) held).isSome = true := by decide +kernel
  have h : (Sheet.after env0.clock 1 heldStory).map (fun Q => (Q.now, Q.runs, Q.line.map fun e => (e.due, e.limited))) =
    some (10, [(4, 1), (10, 1)], some (13, true)) := by decide +kernel
  obtain ⟨Q, h1, h2⟩ := Option.map_eq_some_iff.1 h
  simp only [Prod.mk.injEq] at h2
  obtain ⟨q1, q2, q3⟩ := h2
  obtain ⟨e, q4, q5⟩ := Option.map_eq_some_iff.1 q3
  simp only [Prod.mk.injEq] at q5
  have hp : OnPaper env0 1 held (play env0 held) Q := by
    refine ⟨play_run hr, between_of _ _ (by decide +kernel), ?_, by rw [held_history]; exact h1⟩
    rw [held_history]
    intro ev hev
    simp only [heldStory, List.mem_cons, List.mem_append, List.mem_replicate] at hev
    rcases hev with rfl | ⟨_, rfl⟩ | rfl | ⟨_, rfl⟩
    · exact ⟨rfl, rfl, (fun h => nomatch h)⟩
    all_goals trivial
  have ht : (play env0 held).tpc = .batch [] := by rfl
  have he : ¬ Engaged 1 (play env0 held).epc := by rw [show (play env0 held).epc = .idle by rfl]; exact id
  obtain ⟨_, b, _⟩ := C79 hp ht he
  exact ⟨_, Q, hp, ht, he, q1, q2, by rw [b, q2]; rfl, e, q4, q5⟩

/-- `C79_skip`: its hypotheses are met in tick 7. -/
def heldPre : List Label := held.take 45

example : (run env0 (init env0) heldPre).isSome = true ∧ betweenB (init env0) heldPre = true ∧
    (∃ Q, Sheet.after env0.clock 1 (history env0 1 (init env0) heldPre) = some Q) ∧
    (step env0 (play env0 heldPre) (.tCheck 1)).isSome = true ∧ (play env0 heldPre).ticks = 7 ∧
    sheetEvs 1 (play env0 heldPre) (.tCheck 1) = [.skip] :=
  ⟨by decide +kernel, by decide +kernel, Option.isSome_iff_exists.1 (by decide +kernel), by decide +kernel,
    by decide +kernel, by rfl⟩

end Ex
end DelayTimer
