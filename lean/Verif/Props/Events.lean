import Verif.Proofs.Sweep
import Verif.Examples

/-! Properties C26, C33, C34, C37 and C51: the event channel, ended runs, public events. -/

namespace DelayTimer
open Spec

/-! ### C26 -/

/-- **C26**: whenever the completion of a run is queued, its registration has been queued before. -/
theorem C26_order {env : Env} {s : St} (hr : Reachable env s) (id : Nat) (rec : Int) :
    Precedes (.queued (.append id rec)) (.queued (.finish id rec)) s.log := by
  intro l1 l2 h
  have h1 := finAfter hr (queuedTags l2) (queuedTags l1) id rec (by
    rw [h, queuedTags_append]; simp [queuedTags])
  exact mem_queuedTags.1 h1

/-- **C26**, on the receiving side: when the event thread takes a completion from the channel, the run is
in the books, or has been in them and was ended by an earlier event. -/
theorem C26_registered {env : Env} {s : St} (hr : Reachable env s) {b : FinishTaskBody} {rest : List TimerEvent}
    (he : s.epc = .idle) (hc : s.chan = .finishTask b :: rest) :
    (∃ box ∈ s.trace b.taskId, box.recordId = b.recordId) ∨ RunEnded b.taskId b.recordId s.log := by
  have h1 := fifo hr
  unfold Fifo at h1
  rw [he, hc] at h1
  simp only [epcTags, List.append_nil, List.map_cons, TimerEvent.tag] at h1
  have h2 := finAfter hr _ _ _ _ h1
  by_cases h3 : .stopped b.taskId b.recordId ∈ s.log
  · exact Or.inr (((repOk hr).ended _ _).2 h3)
  · exact Or.inl (((traceOk hr).mem _ _).2 ⟨h2, h3⟩)

/-! ### C51 -/

/-- **C51**: events are dispatched in the order in which they were accepted, each once; those not yet
dispatched are the one in progress and the ones on the channel. -/
theorem C51_order {env : Env} {s : St} (hr : Reachable env s) :
    dispatchedTags s.log <+: queuedTags s.log ∧
    ((s.epc = .idle ∧ s.chan = []) → dispatchedTags s.log = queuedTags s.log) := by
  have h := fifo hr
  unfold Fifo at h
  refine ⟨⟨epcTags s.epc ++ s.chan.map TimerEvent.tag, by rw [h, List.append_assoc]⟩, ?_⟩
  rintro ⟨h1, h2⟩
  rw [h, h1, h2]; simp [epcTags]

/-- Work left for the event thread. -/
def backlog (s : St) : Nat :=
  4 * s.chan.length +
    match s.epc with
    | .idle => 0
    | .add1 .. => 3
    | .add2 .. => 2
    | .add3 .. => 1
    | .remove .. => 1
    | .adv1 _ => 2
    | .adv2 .. => 1

/-- `P` holds of all tasks that have been accepted and wait for their first alarm. -/
structure OnTheWay (P : Task → Prop) (s : St) : Prop where
  add : ∀ t, .addTask t ∈ s.chan → P t
  insert : ∀ t c, .insertTask t c ∈ s.chan → P t
  epc : ∀ t c h, s.epc = .add1 t c h → P t

theorem adding_step {env : Env} {P : Task → Prop} {s s' : St} {l : Label} (hs : OnTheWay P s) (hl : ∀ t ∈ addedBy l, P t)
    (ha : Act env s l s') : OnTheWay P s' := by
  obtain ⟨h1, h2, h3⟩ := hs
  have h4 : ∀ t, .addTask t ∈ s'.chan → P t := by
    intro t ht
    rcases chan_sub ha ht with h | ⟨_, _, _, _, _, h⟩ | ⟨_, _, _, _, _, _, _, h⟩ | ⟨op, rfl, h⟩ | ⟨_, _, _, h⟩ |
      ⟨_, _, _, h⟩ | ⟨_, _, h⟩ <;> try (cases h; done)
    · exact h1 t h
    · cases op <;> cases h
      exact hl t (by simp [addedBy])
  have h5 : ∀ t c, .insertTask t c ∈ s'.chan → P t := by
    intro t c ht
    rcases chan_sub ha ht with h | ⟨_, _, _, _, _, h⟩ | ⟨_, _, _, _, _, _, _, h⟩ | ⟨op, rfl, h⟩ | ⟨_, _, rfl, h⟩ |
      ⟨_, _, _, h⟩ | ⟨_, _, h⟩ <;> try (cases h; done)
    · exact h2 t c h
    · cases op <;> cases h
    · cases h
      exact hl t (by simp [addedBy])
  refine ⟨h4, h5, ?_⟩
  intro t c h he
  cases ha
  case recv_add u rest hi hc => cases he; exact h1 t (by rw [hc]; simp)
  case recv_insert u c' rest hi hc => cases he; exact h2 t c' (by rw [hc]; simp)
  all_goals try (exact h3 t c h he)
  all_goals try (cases he; done)
  all_goals (simp at he; done)

theorem added_append (xs ys : List Label) : added (xs ++ ys) = added xs ++ added ys := by simp [added]

theorem adding {env : Env} {ls : List Label} {s : St} (hr : run env (init env) ls = some s) :
    OnTheWay (· ∈ added ls) s := by
  refine handed_induct (fun ls s => OnTheWay (· ∈ added ls) s) ⟨by simp [init], by simp [init], by simp [init]⟩ ?_ ls s hr
  intro ls s l s' _ hs ha
  refine adding_step (P := (· ∈ added (ls ++ [l]))) ⟨fun t h => ?_, fun t c h => ?_, fun t c h e => ?_⟩ (fun t ht => ?_) ha <;>
    rw [added_append]
  · exact List.mem_append_left _ (hs.add t h)
  · exact List.mem_append_left _ (hs.insert t c h)
  · exact List.mem_append_left _ (hs.epc t c h e)
  · exact List.mem_append_right _ (by simpa [added] using ht)

/-- None of the tasks on their way to the wheel can make the event thread panic. -/
def AddsOk (env : Env) (s : St) : Prop := OnTheWay (fun t => env.overflowChecks = true → AlarmsFit 1 t) s

theorem adds_step {env : Env} {s s' : St} {l : Label} (h : AddsOk env s) (hl : addedBy l = []) (ha : Act env s l s') :
    AddsOk env s' := adding_step h (fun t ht => by rw [hl] at ht; cases ht) ha

theorem adds_of_added {env : Env} {ls : List Label} {s : St} (hr : run env (init env) ls = some s)
    (h : Addable env ls) : AddsOk env s :=
  have hs := adding hr
  ⟨fun t ht ho => h ho t (hs.add t ht), fun t c ht ho => h ho t (hs.insert t c ht), fun t c x e ho => h ho t (hs.epc t c x e)⟩

theorem event_next {env : Env} {s : St}
    (ha : ∀ t c h, s.epc = .add1 t c h → env.overflowChecks = true → AlarmsFit 1 t) (h : 0 < backlog s) :
    ∃ l s', (l = .eRecv ∨ l = .eNext) ∧ step env s l = some s' := by
  cases he : s.epc with
  | idle =>
    cases hc : s.chan with
    | nil => simp [backlog, he, hc] at h
    | cons e rest =>
      refine ⟨.eRecv, ?_⟩
      simp only [true_or, true_and, step, eRecv, he, hc]
      cases e <;> simp only
      all_goals repeat' split
      all_goals exact ⟨_, rfl⟩
  | add1 t c hand =>
    refine ⟨.eNext, ?_⟩
    have hc : (env.overflowChecks && t.alarmOverflows) = false := by
      cases ho : env.overflowChecks with
      | false => rfl
      | true => rw [Bool.true_and]; exact alarmOverflows_iff.2 (ha t c hand he ho)
    simp only [or_true, true_and, step, eNext, he, hc]
    repeat' split
    all_goals first | exact ⟨_, rfl⟩ | contradiction
  | _ =>
    refine ⟨.eNext, ?_⟩
    simp only [or_true, true_and, step, eNext, he]
    all_goals repeat' split
    all_goals exact ⟨_, rfl⟩

theorem event_enabled {env : Env} {s : St} (ha : AddsOk env s) (h : 0 < backlog s) :
    ∃ l s', (l = .eRecv ∨ l = .eNext) ∧ step env s l = some s' := event_next ha.epc h

theorem event_backlog {env : Env} {s s' : St} {l : Label} (hl : l = .eRecv ∨ l = .eNext)
    (h : Act env s l s') : backlog s' < backlog s := by
  rcases hl with rfl | rfl <;> cases h <;> simp [backlog, *] <;> omega

/-- On its own the event thread gets through everything that has been accepted. -/
theorem drains_idle {env : Env} {s : St} (hr : Reachable env s) (hs : AddsOk env s) :
    ∃ ls s', (∀ l ∈ ls, l = .eRecv ∨ l = .eNext) ∧ run env s ls = some s' ∧
      dispatchedTags s'.log = queuedTags s.log ∧ s'.epc = .idle ∧ s'.chan = [] := by
  generalize hn : backlog s = n
  induction n using Nat.strongRecOn generalizing s with
  | ind n ih =>
    by_cases h0 : backlog s = 0
    · simp only [backlog] at h0
      have h1 : s.chan.length = 0 := by omega
      have h2 : s.epc = .idle := by
        cases he : s.epc <;> simp [he] at h0 <;> first | rfl | omega
      have h3 := List.length_eq_zero_iff.1 h1
      exact ⟨[], s, by simp, rfl, (C51_order hr).2 ⟨h2, h3⟩, h2, h3⟩
    · obtain ⟨l, s1, hl, h1⟩ := event_enabled hs (by omega)
      have ha := step_act h1
      have hlt := event_backlog hl ha
      obtain ⟨ls, s', h2, h3, h4, h7⟩ := ih (backlog s1) (by omega) (hr.step h1)
        (adds_step hs (by rcases hl with rfl | rfl <;> rfl) ha) rfl
      refine ⟨l :: ls, s', ?_, by simp only [run, h1]; exact h3, ?_, h7⟩
      · intro x hx
        rcases List.mem_cons.1 hx with rfl | hx
        · exact hl
        · exact h2 x hx
      · rw [h4]
        rcases log_cases ha with ⟨n, h5, h6, _⟩ | ⟨_, _, _, _, rfl, _⟩ | ⟨_, _, _, h5⟩ | ⟨_, _, _, rfl, _⟩ | ⟨_, _, rfl, _⟩
        · rw [h5, queuedTags_minor h6]
        · rcases hl with h | h <;> cases h
        · rcases h5 with ⟨_, _, _, rfl, _⟩ | ⟨_, _, _, rfl, _⟩ | ⟨_, rfl, _⟩ | ⟨_, _, rfl, _⟩ | ⟨_, _, rfl, _⟩ <;>
            (rcases hl with h | h <;> cases h)
        · rcases hl with h | h <;> cases h
        · rcases hl with h | h <;> cases h

theorem drains {env : Env} {s : St} (hr : Reachable env s) (hs : AddsOk env s) :
    ∃ ls s', (∀ l ∈ ls, l = .eRecv ∨ l = .eNext) ∧ run env s ls = some s' ∧
      dispatchedTags s'.log = queuedTags s.log := by
  obtain ⟨ls, s', h1, h2, h3, _⟩ := drains_idle hr hs
  exact ⟨ls, s', h1, h2, h3⟩

/-- **C51**: the event thread is never stuck: on its own it gets through everything that has been
accepted, so that each accepted event is dispatched, provided that the first alarms of the tasks added do not
overflow where that is a panic. -/
theorem C51_drains_partial {env : Env} {pre : List Label} {s : St} (hr : run env (init env) pre = some s)
    (hadd : Addable env pre) :
    ∃ ls s', (∀ l ∈ ls, l = .eRecv ∨ l = .eNext) ∧ run env s ls = some s' ∧
      dispatchedTags s'.log = queuedTags s.log :=
  drains ⟨_, hr⟩ (adds_of_added hr hadd)

/-! ### C33 -/

/-- An event that ends run `rec` of task `id`. -/
def EndsRun (id : Nat) (rec : Int) : TimerEvent → Prop
  | .cancelTask i r => i = id ∧ r = rec
  | .timeoutTask i r => i = id ∧ r = rec
  | .finishTask b => b.taskId = id ∧ b.recordId = rec
  | _ => False

theorem end_event_absent {env : Env} {s : St} {e : TimerEvent} {rest : List TimerEvent} {id : Nat} {rec : Int}
    (he : s.epc = .idle) (hc : s.chan = e :: rest) (hee : EndsRun id rec e)
    (hq : quitOne env (s.trace id) rec = none) :
    ∃ res, res ≠ some true ∧
      step env s .eRecv = some { s with chan := rest, log := .dispatched e.tag res :: s.log } := by
  cases e with
  | cancelTask i r =>
    obtain ⟨rfl, rfl⟩ := hee
    refine ⟨none, by simp, ?_⟩
    simp only [step, eRecv, he, hc, cancelTask, hq, done, publicOf]
    cases env.statusReport <;> simp
  | timeoutTask i r =>
    obtain ⟨rfl, rfl⟩ := hee
    refine ⟨some false, by simp, ?_⟩
    simp only [step, eRecv, he, hc, cancelTask, hq, done, publicOf]
    cases env.statusReport <;> simp
  | finishTask b =>
    obtain ⟨rfl, rfl⟩ := hee
    refine ⟨none, by simp, ?_⟩
    simp only [step, eRecv, he, hc, finishTask, hq, done, publicOf]
    cases env.statusReport <;> simp
  | _ => exact hee.elim

/-- **C33**: a time-out, cancel or finish event for a run that has already ended changes nothing: it is
taken from the channel with a result other than success, and the rest of the state (wheel, marks, counts,
books, instance states, waiting callers, public events) stays as it is. -/
theorem C33_inert {env : Env} {s : St} (hr : Reachable env s) {e : TimerEvent} {rest : List TimerEvent}
    {id : Nat} {rec : Int} (hend : RunEnded id rec s.log) (he : s.epc = .idle) (hc : s.chan = e :: rest)
    (hee : EndsRun id rec e) :
    ∃ res, res ≠ some true ∧
      step env s .eRecv = some { s with chan := rest, log := .dispatched e.tag res :: s.log } := by
  refine end_event_absent he hc hee ?_
  rw [quitOne_sorted env _ _ ((traceOk hr).sorted id), if_neg]
  rintro ⟨b, hb, hbr⟩
  exact (((traceOk hr).mem id rec).1 ⟨b, hb, hbr⟩).2 (((repOk hr).ended id rec).1 hend)

/-- An ended run stays ended. -/
theorem C33_forever {env : Env} {s s' : St} {ls : List Label} {id : Nat} {rec : Int}
    (hend : RunEnded id rec s.log) (hrun : run env s ls = some s') : RunEnded id rec s'.log := by
  refine run_induct (env := env) (fun x => RunEnded id rec x.log) ?_ ls s s' hend hrun
  intro a l b ha h
  rcases log_cases h with ⟨n, hn, _, _⟩ | ⟨_, _, _, _, _, _, _, _, hn, _⟩ | ⟨_, _, hn, _⟩ | ⟨_, _, _, _, _, _, hn⟩ | ⟨_, _, _, _, hn, _⟩ <;>
    rw [hn]
  · exact RunEnded.mono ha
  · exact RunEnded.mono (news := [_]) ha
  · exact RunEnded.mono (news := [_]) ha
  · exact RunEnded.mono (news := [_, _]) ha
  · exact RunEnded.mono (news := [_]) ha

/-! ### C34 -/

theorem count_appendRecs {l : List Tag} {id : Nat} {rec : Int} (h : (appendRecs l).Nodup) :
    l.count (.append id rec) ≤ 1 := by
  have h1 : ∀ l : List Tag, l.count (.append id rec) ≤ (appendRecs l).count rec := by
    intro l
    induction l with
    | nil => simp
    | cons t l ih =>
      rw [show t :: l = [t] ++ l from rfl, appendRecs_append, List.count_append, List.count_append]
      have : [t].count (.append id rec) ≤ (appendRecs [t]).count rec := by
        by_cases ht : t = .append id rec
        · subst ht; simp [appendRecs]
        · simp [ht]
      omega
  have h2 := List.nodup_iff_count.1 h rec
  have := h1 l
  omega

/-- **C34**: the public events about run `rec` of task `id`, in order: the run is reported as running once
it has been registered, exactly once, before any report of its finish or time-out; of finish and time-out
at most one is reported, and only if the run really has been ended. -/
theorem C34_story {env : Env} {s : St} (hr : Reachable env s) (hon : env.statusReport = true) (id : Nat) (rec : Int) :
    let story := s.reports.map pubTag
    (.append id rec ∈ dispatchedTags s.log → .append id rec ∈ story) ∧
    story.count (.append id rec) ≤ 1 ∧
    (∀ l1 l2 x, story = l1 ++ x :: l2 → x = .finish id rec ∨ x = .timeout id rec → .append id rec ∈ l1) ∧
    story.count (.finish id rec) + story.count (.timeout id rec) ≤ 1 ∧
    (.finish id rec ∈ story ∨ .timeout id rec ∈ story → RunEnded id rec s.log) := by
  obtain ⟨h1, _, h3, h4, h5, h6, h7⟩ := repOk hr
  simp only [h1 hon]
  refine ⟨h3 id rec, ?_, fun l1 l2 x => h6 l1 l2 x id rec, ?_, ?_⟩
  · have hle := h4.count_le (.append id rec)
    refine Nat.le_trans hle (count_appendRecs ?_)
    have hrec := recOk hr
    have hf := fifo hr
    have hs := hrec.sorted
    unfold Fifo at hf
    rw [hrec.start, hf] at hs
    simp only [appendRecs_append, List.append_assoc] at hs
    have := (List.pairwise_append.1 hs).1
    exact this.imp (fun h => h.1)
  · exact Nat.le_trans (h5 id rec) ((traceOk hr).once id rec)
  · intro h
    rw [h7]
    have h8 : 0 < (reported s.log).count (.finish id rec) + (reported s.log).count (.timeout id rec) := by
      rcases h with h | h
      · have := List.count_pos_iff.2 h; omega
      · have := List.count_pos_iff.2 h; omega
    exact List.count_pos_iff.1 (Nat.lt_of_lt_of_le h8 (h5 id rec))

/-- **C34**: a time-out is reported exactly in a step that takes a run out of the books of running
instances. -/
theorem C34_timeout {env : Env} {s s' : St} {l : Label} (hr : Reachable env s) {id : Nat} {rec : Int}
    (h : step env s l = some s') (hrep : s'.reports = s.reports ++ [.timeoutTask id rec]) :
    (∃ box ∈ s.trace id, box.recordId = rec) ∧ ∀ box ∈ s'.trace id, box.recordId ≠ rec := by
  have hne : ∀ x : PublicEvent, s.reports ≠ s.reports ++ [x] := by
    intro x h; have := congrArg List.length h; simp at this
  have hrr := hr.step h
  rcases dispatch_cases hr (step_act h) with ⟨k, i, q, r, rest, s2, e, he, hc, htag, hend, rfl, rfl⟩ | ⟨i, box, rest, he, hc, rfl, rfl⟩ |
    ⟨tag, r, ht1, ht2, hlog, htrc, hx⟩ | ⟨hx, _⟩
  · have h1 : r = some true ∧ publicOf e = some (.timeoutTask id rec) := by
      have h2 := hrep
      simp only [done] at h2
      rw [hend.reports] at h2
      cases hs : env.statusReport
      · rw [hs] at h2; exact absurd h2 (hne _)
      · rcases r with _ | _ | _
        · rw [hs] at h2; exact absurd h2 (hne _)
        · rw [hs] at h2; exact absurd h2 (hne _)
        · cases hp : publicOf e with
          | none => rw [hs, hp] at h2; exact absurd h2 (hne _)
          | some p =>
            rw [hs, hp] at h2
            have := List.append_cancel_left h2
            cases this
            exact ⟨rfl, rfl⟩
    obtain ⟨rfl, h2⟩ := h1
    have h3 : k = .timeout ∧ i = id ∧ q = rec := by
      cases e <;> simp [publicOf] at h2
      obtain ⟨rfl, rfl⟩ := h2
      cases k <;> simp_all [TimerEvent.tag, EndKind.tag]
    obtain ⟨rfl, rfl, rfl⟩ := h3
    rcases hend.trace ((traceOk hr).sorted i) with ⟨_, _, h4⟩ | ⟨ht, h4, _⟩
    · cases h4
    · refine ⟨h4, ?_⟩
      simp only [done_trace, ht, set_same]
      intro box hb
      have := (List.mem_filter.1 hb).2
      simpa using this
  · exfalso
    simp only [done] at hrep
    cases hs : env.statusReport
    · rw [hs] at hrep; simp only [maintainTaskStatus_reports] at hrep; exact hne _ hrep
    · rw [hs] at hrep; simp at hrep
  · exfalso
    rcases hx with ⟨_, _, _, _, h1⟩ | ⟨h1, _⟩
    · rw [h1] at hrep; simp at hrep
    · rw [h1] at hrep; exact hne _ hrep
  · rw [hx] at hrep; exact absurd hrep (hne _)

/-! ### C37 -/

/-- The record ids that the generator returns in an execution. -/
def drawnIds (ls : List Label) : List Int :=
  ls.filterMap fun l => match l with | .tCheck rec => some rec | _ => none

theorem step_recs {env : Env} {s s' : St} {l : Label} (h : Act env s l s') :
    s'.recs = (drawnIds [l]).reverse ++ s.recs := by
  cases h
  all_goals first | rfl | (simp [drawnIds]; done)

theorem step_nightly {env : Env} {s : St} (hr : Reachable { env with nightly := true } s) (b : Bool) (l : Label)
    (hl : ∀ r ∈ s.recs, ∀ q ∈ drawnIds [l], r < q) :
    step { env with nightly := b } s l = step { env with nightly := true } s l := by
  have hso := (traceOk hr).sorted
  have hq : ∀ id rec, quitOne { env with nightly := b } (s.trace id) rec =
      quitOne { env with nightly := true } (s.trace id) rec := by
    intro id rec
    rw [quitOne_sorted { env with nightly := b } _ _ ((hso id).imp fun h => ⟨h.1, fun _ => h.2 rfl⟩),
      quitOne_sorted _ _ _ (hso id)]
  cases l
  case eRecv =>
    simp only [step, eRecv]
    cases s.epc <;> try rfl
    cases s.chan <;> try rfl
    rename_i e rest
    have hc : ∀ (x : St) i id rec st, x.trace = s.trace →
        cancelTask { env with nightly := b } i x id rec st = cancelTask { env with nightly := true } i x id rec st := by
      intro x i id rec st hx; simp only [cancelTask, hx, hq]
    have hf : ∀ (x : St) id rec, x.trace = s.trace →
        finishTask { env with nightly := b } x id rec = finishTask { env with nightly := true } x id rec := by
      intro x id rec hx; simp only [finishTask, hx, hq]
    cases e <;> try rfl
    · simp only; rw [hc] <;> rfl
    · simp only; rw [hc] <;> rfl
    · simp only; rw [hf] <;> rfl
  case tCheck rec =>
    have h1 : ∀ b, freshId { env with nightly := b } s.recs rec = true := by
      intro b
      rw [freshId_iff]
      intro r hr
      have := hl r hr rec (by simp [drawnIds])
      exact ⟨by omega, fun _ => this⟩
    simp only [step, tCheck, h1]
  all_goals rfl

/-- **C37, partial**: while the ids that the generator returns increase, a timer built with one implementation
and one built with the other go through exactly the same states. -/
theorem C37_same_runs_partial (env : Env) (b : Bool) (ls : List Label) (h : (drawnIds ls).Pairwise (· < ·)) :
    run { env with nightly := b } (init { env with nightly := b }) ls = run env (init env) ls := by
  have key : ∀ (b : Bool) (ls : List Label) (s : St), Reachable { env with nightly := true } s →
      (∀ r ∈ s.recs, ∀ q ∈ drawnIds ls, r < q) → (drawnIds ls).Pairwise (· < ·) →
      run { env with nightly := b } s ls = run { env with nightly := true } s ls := by
    intro b ls
    induction ls with
    | nil => intro s _ _ _; rfl
    | cons l ls ih =>
      intro s hs hlt hp
      have hsplit : drawnIds (l :: ls) = drawnIds [l] ++ drawnIds ls := by
        cases l <;> rfl
      rw [hsplit] at hlt hp
      rw [List.pairwise_append] at hp
      simp only [run, step_nightly hs b l fun r hr q hq => hlt r hr q (List.mem_append_left _ hq)]
      split
      · rename_i s' h1
        refine ih s' (hs.step h1) ?_ hp.2.1
        intro r hr q hq
        rw [step_recs (step_act h1)] at hr
        rcases List.mem_append.1 hr with hr | hr
        · exact hp.2.2 r (List.mem_reverse.1 hr) q hq
        · exact hlt r hr q (List.mem_append_right _ hq)
      · rfl
  have h0 := fun b => key b ls (init env) (Reachable.init { env with nightly := true }) (by simp [init]) h
  exact (h0 b).trans (h0 env.nightly).symm

/-- **C37, partial**: in every state reached while the ids that the generator returns increase, both
implementations of `quit_one_task_handler` return the same. -/
theorem C37_same_result_partial {env : Env} {ls : List Label} {s : St} (hr : run env (init env) ls = some s)
    (h : (drawnIds ls).Pairwise (· < ·)) (id : Nat) (rec : Int) :
    quitStable (s.trace id) rec = quitNightly (s.trace id) rec := by
  rw [← C37_same_runs_partial env true ls h] at hr
  have hs := (traceOk ⟨ls, hr⟩).sorted id
  rw [quitStable_distinct _ _ (hs.imp fun h => h.1), quitNightly_sorted _ _ (hs.imp fun h => h.2 rfl)]

/-! ### Concrete executions -/

namespace Ex

/-- Task 1 runs once; its body ends and its completion is queued before the registration is processed;
then the user cancels the same run. -/
def quick : List Label :=
  add (every 1 101 3) ++ idle ++ idle ++ fire 1 0 ++ [.rBody 0, .rFinish 0 103, .uSend (.cancel 1 0)]

/-- Registration and completion have been processed, the cancellation is next. -/
def quickEnded : List Label := quick ++ [.eRecv, .eRecv]

example : Reachable env0 (play env0 quickEnded) := play_reachable (by rfl)

/-- C26: the completion was queued after the registration. -/
example : queuedTags (play env0 quick).log = [.add 1, .append 1 0, .finish 1 0, .cancel 1 0] := by rfl

/-- C26: with the registration processed the completion is at the head of the channel, and its run is in
the books. -/
example : (play env0 (quick ++ [.eRecv])).epc = .idle ∧
    (play env0 (quick ++ [.eRecv])).chan.head? = some (.finishTask ⟨1, 0, 103⟩) ∧
    (play env0 (quick ++ [.eRecv])).trace 1 = [⟨1, 0, 102, none⟩] := ⟨rfl, rfl, rfl⟩

/-- C51: what has been dispatched and what is left. -/
example : dispatchedTags (play env0 quickEnded).log = [.add 1, .append 1 0, .finish 1 0] ∧
    (play env0 quickEnded).chan.map TimerEvent.tag = [.cancel 1 0] := ⟨rfl, rfl⟩

/-- C33: the run has ended, and the cancellation is about to be processed. -/
example : RunEnded 1 0 (play env0 quickEnded).log ∧ (play env0 quickEnded).epc = .idle ∧
    ∃ rest, (play env0 quickEnded).chan = .cancelTask 1 0 :: rest :=
  ⟨((repOk (play_reachable (ls := quickEnded) (by rfl))).ended 1 0).2 (by decide +kernel), rfl, [], rfl⟩

/-- C34: the public events of this run. -/
example : (play env0 quickEnded).reports.map pubTag = [.append 1 0, .finish 1 0] := by rfl

/-- Task 2 may run for one second; its run is timed out at 103. -/
def overdue : List Label :=
  add { every 2 101 3 with maximumRunningTime := some 1 } ++ idle ++ idle ++ fire 2 0 ++
    [.eRecv, .sAdd, .sWake 103, .sPop ⟨103, 2, 0⟩]

/-- C34: the time-out that is about to be processed will be reported. -/
example : Reachable env0 (play env0 overdue) ∧
    (play env0 (overdue ++ [.eRecv])).reports = (play env0 overdue).reports ++ [.timeoutTask 2 0] :=
  ⟨play_reachable (by rfl), by rfl⟩

/-- Two runs of task 1, of which the later one has the smaller record id. -/
def backwards : List Label :=
  add (every 1 101 3) ++ idle ++ idle ++ fire 1 2 ++ [.eRecv] ++ idle ++ idle ++ fire 1 1 ++ [.eRecv]

/-- **C37 fails** when the generator returns a smaller id (because the wall clock was set back, or after
`update_id_generator_conf`): in this state the stable implementation takes the second run out of the books
and the nightly one does not find it. -/
theorem C37_unsorted_differs : ∃ s, run env0 (init env0) backwards = some s ∧
    s.trace 1 = [⟨1, 2, 102, none⟩, ⟨1, 1, 105, none⟩] ∧
    quitStable (s.trace 1) 1 = some [⟨1, 2, 102, none⟩] ∧ quitNightly (s.trace 1) 1 = none :=
  ⟨play env0 backwards, play_run (by rfl), rfl, rfl, rfl⟩

/-- C37: the ids of this execution increase. -/
example : (drawnIds (quick ++ [.eRecv] ++ idle ++ idle ++ fire 1 1 ++ [.eRecv, .eRecv, .eRecv])).Pairwise (· < ·) := by
  decide

/-- C37 is about books with several runs: here two, of which the second is taken out. -/
example : (play env0 (quick ++ [.eRecv] ++ idle ++ idle ++ fire 1 1 ++ [.eRecv, .eRecv, .eRecv])).trace 1 =
    [⟨1, 1, 105, none⟩] := by rfl

end Ex

end DelayTimer
