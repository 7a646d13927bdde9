import Verif.Props.Events
import Verif.Props.Instances

/-!
# C61: ending a run
-/

namespace DelayTimer
open Spec

/-! ## Prefixes of what was queued -/

theorem queuedTags_step {env : Env} {s : St} {l : Label} {s' : St} (h : Act env s l s') :
    queuedTags s.log <+: queuedTags s'.log := by
  rcases log_cases h with ⟨n, hn, _, _⟩ | ⟨_, _, _, _, _, _, _, _, hn, _⟩ | ⟨_, _, hn, _⟩ | ⟨_, _, _, _, _, _, hn⟩ | ⟨_, _, _, _, hn, _⟩
  · rw [hn, queuedTags_append]; exact List.prefix_append _ _
  · rw [hn]; exact List.prefix_rfl
  · rw [hn]; exact List.prefix_append _ _
  · rw [hn]; exact List.prefix_append _ _
  · rw [hn]; exact List.prefix_rfl

theorem queuedTags_run {env : Env} {s s' : St} {ls : List Label} (h : run env s ls = some s') :
    queuedTags s.log <+: queuedTags s'.log :=
  run_induct (env := env) (fun x => queuedTags s.log <+: queuedTags x.log)
    (fun _ _ _ hx ha => hx.trans (queuedTags_step ha)) ls s s' List.prefix_rfl h

/-- Once the event thread has dispatched as many events as had been queued in `s`, it has dispatched exactly those. -/
theorem dispatched_all_queued {env : Env} {s s' : St} {ls : List Label} (hr : Reachable env s) (h : run env s ls = some s')
    (hd : (queuedTags s.log).length ≤ (dispatchedTags s'.log).length) : queuedTags s.log <+: dispatchedTags s'.log :=
  List.prefix_of_prefix_length_le (queuedTags_run h) (C51_order (hr.run h)).1 hd

/-- The place in the log where an event was dispatched. -/
theorem dispatched_split {a b : List Tag} {t : Tag} : ∀ {log : List Obs}, dispatchedTags log = a ++ t :: b →
    ∃ l1 l2 r, log = l1 ++ .dispatched t r :: l2 ∧ dispatchedTags l2 = a := by
  intro log
  induction log generalizing a b with
  | nil => intro h; simp [dispatchedTags] at h
  | cons o log ih =>
    intro h
    have skip : dispatchedTags log = a ++ t :: b →
        ∃ l1 l2 r, o :: log = l1 ++ .dispatched t r :: l2 ∧ dispatchedTags l2 = a := by
      intro h
      obtain ⟨l1, l2, r, h1, h2⟩ := ih h
      exact ⟨o :: l1, l2, r, by rw [h1]; rfl, h2⟩
    cases o
    case dispatched t' r =>
      simp only [dispatchedTags] at h
      rcases List.eq_nil_or_concat b with rfl | ⟨b', x, rfl⟩
      · obtain ⟨h1, h2⟩ := List.append_inj' h rfl
        cases h2
        exact ⟨[], log, r, rfl, h1⟩
      · rw [List.concat_eq_append, ← List.cons_append, ← List.append_assoc] at h
        obtain ⟨h1, _⟩ := List.append_inj' h rfl
        obtain ⟨l1, l2, q, h3, h4⟩ := ih h1
        exact ⟨.dispatched t' r :: l1, l2, q, by rw [h3]; rfl, h4⟩
    all_goals exact skip h

/-- An end event queued behind the registration of its run ends the run as soon as it has been dispatched. -/
theorem end_takes_effect {env : Env} {s s1 s2 : St} {l : Label} {ls : List Label} {id : Nat} {rec : Int} {tag : Tag}
    (hr : Reachable env s) (hq : .append id rec ∈ queuedTags s.log) (ht : tag ∈ endTags id rec)
    (h1 : step env s l = some s1) (hl : queuedTags s1.log = queuedTags s.log ++ [tag])
    (h2 : run env s1 ls = some s2) (hd : (queuedTags s1.log).length ≤ (dispatchedTags s2.log).length) :
    .stopped id rec ∈ s2.log := by
  have hr1 := hr.step h1
  have hr2 := hr1.run h2
  refine ((repOk hr2).ended id rec).1 ?_
  obtain ⟨b, hb⟩ := dispatched_all_queued hr1 h2 hd
  rw [hl, List.append_assoc] at hb
  obtain ⟨l1, l2, r, h3, h4⟩ := dispatched_split hb.symm
  exact ⟨l1, l2, tag, r, h3, ht, by rw [h4]; exact hq⟩

/-- The sweeper only knows registered runs. -/
theorem units_registered {env : Env} {s : St} (hr : Reachable env s) :
    ∀ u, u ∈ s.unitChan ∨ u ∈ s.heap → .append u.taskId u.recordId ∈ dispatchedTags s.log := by
  refine Reachable.induct (fun s => ∀ u, u ∈ s.unitChan ∨ u ∈ s.heap →
    .append u.taskId u.recordId ∈ dispatchedTags s.log) ?_ ?_ s hr
  · rintro u (h | h) <;> cases h
  · intro s l s' hr hs ha
    have hm : ∀ {t}, t ∈ dispatchedTags s.log → t ∈ dispatchedTags s'.log := by
      intro t ht
      rw [mem_dispatchedTags] at ht ⊢
      exact ht.imp fun _ h => log_mono ha h
    intro u hu
    rcases unit_cases hr ha with ⟨h1, h2, _⟩ | ⟨id, box, rest, he, hc, h1, h2, _, _, h3⟩ | ⟨w, v, rest, _, _, hu', h1, h2, _⟩ |
      ⟨_, _, _, _, _, _, h1, h2, _⟩ | ⟨v, _, _, _, _, _, _, _, h1, h2, _⟩ | ⟨_, _, _, _, _, _, _, h1, h2, _⟩
    · rw [h1, h2] at hu; exact hm (hs u hu)
    · rw [h1, h2] at hu
      rcases hu with hu | hu
      · rcases List.mem_append.1 hu with hu | hu
        · exact hm (hs u (Or.inl hu))
        · have hid := ((rtOk hr).chanApp id box (by rw [hc]; exact List.mem_cons_self)).1
          rw [h3]
          unfold unitsOf at hu
          split at hu
          · rw [List.mem_singleton.1 hu]
            simp [hid]
          · cases hu
      · exact hm (hs u (Or.inr hu))
    · rw [h1, h2] at hu
      refine hm (hs u ?_)
      rcases hu with hu | hu
      · exact Or.inl (by rw [hu']; exact List.mem_cons_of_mem _ hu)
      · rcases List.mem_cons.1 hu with rfl | hu
        · exact Or.inl (by rw [hu']; exact List.mem_cons_self)
        · exact Or.inr hu
    · rw [h1, h2] at hu; exact hm (hs u hu)
    · rw [h1, h2] at hu
      exact hm (hs u (hu.imp_right List.mem_of_mem_erase))
    · rw [h1, h2] at hu; exact hm (hs u hu)

/-! ## The property -/

/-- **C61** A run ends exactly when the first of its end events after its registration is dispatched, and it is stopped
only once. -/
theorem C61_first_end {env : Env} {s : St} (hr : Reachable env s) (id : Nat) (rec : Int) :
    (.stopped id rec ∈ s.log ↔ RunEnded id rec s.log) ∧ s.log.count (.stopped id rec) ≤ 1 :=
  ⟨((repOk hr).ended id rec).symm, (traceOk hr).once id rec⟩

/-- **C61** A cancel request made once the run is known to the timer (or its registration is on its way) stops the
run: by the time the event thread has worked off what was queued when the request was made, the run is stopped. -/
theorem C61_cancel {env : Env} {s s1 s2 : St} {l : Label} {ls : List Label} {id : Nat} {rec : Int}
    (hr : Reachable env s) (hq : .append id rec ∈ queuedTags s.log) (hl : CancelCall id rec l)
    (h1 : step env s l = some s1) (h2 : run env s1 ls = some s2)
    (hd : (queuedTags s1.log).length ≤ (dispatchedTags s2.log).length) :
    .stopped id rec ∈ s2.log := by
  refine end_takes_effect hr hq (tag := .cancel id rec) (by simp [endTags]) h1 ?_ h2 hd
  have ha := step_act h1
  cases ha <;> try exact hl.elim
  case usend op =>
    cases op <;> try exact hl.elim
    obtain ⟨rfl, rfl⟩ := hl
    rfl
  case ucancel w i hw hh =>
    obtain ⟨rfl, rfl⟩ := hl
    rfl

/-- **C61** The same for time-outs: once the sweeper has sent one, the run is stopped as soon as the event thread has got
there. -/
theorem C61_timeout {env : Env} {s s1 s2 : St} {ls : List Label} {u : RecycleUnit}
    (hr : Reachable env s) (h1 : step env s (.sPop u) = some s1) (h2 : run env s1 ls = some s2)
    (hd : (queuedTags s1.log).length ≤ (dispatchedTags s2.log).length) :
    .stopped u.taskId u.recordId ∈ s2.log := by
  have ha := step_act h1
  have hu : u ∈ s.heap := by cases ha; assumption
  refine end_takes_effect hr (tag := .timeout u.taskId u.recordId) ?_ (by simp [endTags]) h1 ?_ h2 hd
  · exact dispatched_queued hr (units_registered hr u (Or.inr hu))
  · cases ha; rfl

/-- **C61** The same for a body that has returned and reported so. -/
theorem C61_finish {env : Env} {s s1 s2 : St} {ls : List Label} {rec : Int} {now : Nat}
    (hr : Reachable env s) (h1 : step env s (.rFinish rec now) = some s1) (h2 : run env s1 ls = some s2)
    (hd : (queuedTags s1.log).length ≤ (dispatchedTags s2.log).length) :
    ∃ id rtn n ts, .started id rtn rec n ts ∈ s.log ∧ .stopped id rec ∈ s2.log := by
  have ha := step_act h1
  cases ha with
  | finish _ _ r hrt hd' hg hs' =>
    obtain ⟨⟨n, ts, h3⟩, h4, _⟩ := (rtOk hr).rt rec r hrt
    refine ⟨r.taskId, r.routine, n, ts, h3, ?_⟩
    exact end_takes_effect hr (tag := .finish r.taskId rec) (mem_queuedTags.2 (h4 hg)) (by simp [endTags]) h1 rfl h2 hd

/-- **C61** Whoever has learnt of a run, from a chain or from the status reports, can cancel it: the run is known to the
timer. -/
theorem C61_known {env : Env} {s : St} (hr : Reachable env s) :
    (∀ c i, .delivered c i ∈ s.log → .append i.taskId i.recordId ∈ queuedTags s.log) ∧
    ∀ id rec, .runningTask id rec ∈ s.reports → .append id rec ∈ queuedTags s.log := by
  constructor
  · intro c i h
    refine dispatched_queued hr ((chainOk hr).own c i ?_).2
    exact List.mem_append_left _ (mem_deliveredOn.2 h)
  · intro id rec h
    cases hb : env.statusReport with
    | false => rw [(repOk hr).off hb] at h; cases h
    | true =>
      have h1 : Tag.append id rec ∈ s.reports.map pubTag := List.mem_map.2 ⟨_, h, rfl⟩
      rw [(repOk hr).reps hb] at h1
      exact dispatched_queued hr ((repOk hr).sub.subset h1)

/-- From `s` to `s'` run `rec` of task `id` was stopped and nothing else happened to the schedule, to other tasks, to
other runs or to their instances. `fin`: it had ended by itself; only then its share of the parallel limit may be lost
(C28). -/
structure OnlyEnded (id : Nat) (rec : Int) (fin : Bool) (s s' : St) : Prop where
  stopped : ∀ i r, .stopped i r ∈ s'.log ↔ .stopped i r ∈ s.log ∨ (i = id ∧ r = rec)
  schedule : s'.wheel = s.wheel ∧ s'.tpc = s.tpc ∧ s'.secondHand = s.secondHand ∧ s'.globalTime = s.globalTime ∧
    s'.motivation = s.motivation
  books : ∀ i r, (i, r) ≠ (id, rec) → ((∃ b ∈ s'.trace i, b.recordId = r) ↔ ∃ b ∈ s.trace i, b.recordId = r)
  bodies : s'.rt = s.rt
  limits : s'.unitChan = s.unitChan ∧ s'.heap = s.heap
  marks : ∀ k, k ≠ id → s'.flags k = s.flags k
  mark : (s'.flags id).map (·.slotMark) = (s.flags id).map (·.slotMark)
  count : ∀ m, s.flags id = some m → ∃ m', s'.flags id = some m' ∧
    (m'.parallelRunnableNum = m.parallelRunnableNum - 1 ∨
      fin = true ∧ m'.parallelRunnableNum = m.parallelRunnableNum ∧ m.maintainer ≠ none)
  states : ∀ c i, .delivered c i ∈ s.log ∨ i ∈ s.chainQueue c → (i.taskId, i.recordId) ≠ (id, rec) →
    s'.hdrState i.hdr = s.hdrState i.hdr
  chains : s'.chainQueue = s.chainQueue ∧ s'.chainHeld = s.chainHeld ∧
    ∀ c, s.chainHeld c = true → s'.chainState c = s.chainState c

theorem Ending.only {env : Env} {s : St} (hr : Reachable env s) {k : EndKind} {id : Nat} {rec : Int} {r : Option Bool}
    {s' : St} {rest : List TimerEvent} (h : Ending env { s with chan := rest } k id rec r s')
    (hreg : .append id rec ∈ dispatchedTags s.log) (hn : .stopped id rec ∉ s.log) :
    OnlyEnded id rec (k == .finish) s s' := by
  have hso := (traceOk hr).sorted id
  have hin : ∃ b ∈ s.trace id, b.recordId = rec := ((traceOk hr).mem id rec).2 ⟨hreg, hn⟩
  have hq : quitOne env (s.trace id) rec = some ((s.trace id).filter (fun b => b.recordId ≠ rec)) := by
    rw [quitOne_sorted env _ _ hso, if_pos hin]
  have hbooks : ∀ i r, (i, r) ≠ (id, rec) →
      ((∃ b ∈ set s.trace id ((s.trace id).filter (fun b => b.recordId ≠ rec)) i, b.recordId = r) ↔
        ∃ b ∈ s.trace i, b.recordId = r) := by
    intro i r hne
    rw [set_apply]
    split
    · rename_i hi; subst hi
      have hr' : r ≠ rec := fun h => hne (by rw [h])
      simp only [List.mem_filter, decide_eq_true_eq, ne_eq]
      constructor
      · rintro ⟨b, ⟨h1, _⟩, h3⟩; exact ⟨b, h1, h3⟩
      · rintro ⟨b, h1, h3⟩; exact ⟨b, ⟨h1, by rw [h3]; exact hr'⟩, h3⟩
    · exact Iff.rfl
  have hst : ∀ i r, .stopped i r ∈ Obs.stopped id rec :: s.log ↔ .stopped i r ∈ s.log ∨ (i = id ∧ r = rec) := by
    intro i r; simp [or_comm]
  have hmarks : ∀ (v : Option TaskMark) k, k ≠ id → set s.flags id v k = s.flags k := fun v k hk => set_other _ _ _ hk
  cases h with
  | miss hq' => simp only at hq'; rw [hq] at hq'; cases hq'
  | nomark l hq' hf =>
    simp only at hq' hf; rw [hq] at hq'; cases hq'
    exact ⟨hst, ⟨rfl, rfl, rfl, rfl, rfl⟩, hbooks, rfl, ⟨rfl, rfl⟩, fun _ _ => rfl, rfl,
      fun m hm => (by rw [hf] at hm; cases hm), fun _ _ _ _ => rfl, rfl, rfl, fun _ _ => rfl⟩
  | nochain l m hq' hf hm =>
    simp only at hq' hf; rw [hq] at hq'; cases hq'
    refine ⟨hst, ⟨rfl, rfl, rfl, rfl, rfl⟩, hbooks, rfl, ⟨rfl, rfl⟩, hmarks _, by simp [set_same, hf], ?_, fun _ _ _ _ => rfl,
      rfl, rfl, fun _ _ => rfl⟩
    intro m1 hm1; rw [hf] at hm1; cases hm1
    exact ⟨_, set_same _ _ _, Or.inl rfl⟩
  | dropped l m mt hq' hf hm hd =>
    simp only at hq' hf hd; rw [hq] at hq'; cases hq'
    refine ⟨hst, ⟨rfl, rfl, rfl, rfl, rfl⟩, hbooks, rfl, ⟨rfl, rfl⟩, hmarks _, by simp [set_same, hf], ?_, fun _ _ _ _ => rfl,
      rfl, rfl, ?_⟩
    · intro m1 hm1; rw [hf] at hm1; cases hm1
      refine ⟨_, set_same _ _ _, ?_⟩
      cases k <;> simp [EndKind.failNum, hm]
    · intro c hc
      refine set_other _ _ _ ?_
      rintro rfl
      have hmt : mts s id = some mt := by rw [mts_eq hf, hm]
      rw [((chainOk hr).live id _ hc ((chainOk hr).cur id mt hmt)).1] at hd
      cases hd
  | unlisted l m mt hq' hf hm hd hi =>
    simp only at hq' hf; rw [hq] at hq'; cases hq'
    refine ⟨hst, ⟨rfl, rfl, rfl, rfl, rfl⟩, hbooks, rfl, ⟨rfl, rfl⟩, hmarks _, by simp [set_same, hf], ?_, fun _ _ _ _ => rfl,
      rfl, rfl, fun _ _ => rfl⟩
    intro m1 hm1; rw [hf] at hm1; cases hm1
    refine ⟨_, set_same _ _ _, ?_⟩
    cases k <;> simp [EndKind.failNum, hm]
  | found l m mt a i b hq' hf hm hd hl hi =>
    simp only at hq' hf; rw [hq] at hq'; cases hq'
    have hmt : mts s id = some mt := by rw [mts_eq hf, hm]
    refine ⟨fun j q => by simp [or_comm], ⟨rfl, rfl, rfl, rfl, rfl⟩, hbooks, rfl, ⟨rfl, rfl⟩, hmarks _, by simp [set_same, hf], ?_, ?_,
      rfl, rfl, fun _ _ => rfl⟩
    · intro m1 hm1; rw [hf] at hm1; cases hm1
      exact ⟨_, set_same _ _ _, Or.inl rfl⟩
    · intro c j hj hne
      refine set_other _ _ _ fun hh => hne ?_
      have hil : i ∈ mt.innerList := by rw [hl]; simp
      have : j = i := (instOk hr).inj j i (hj.elim (fun h => Or.inr (Or.inl ⟨c, h⟩)) (fun h => Or.inl ⟨c, h⟩))
        (Or.inr (Or.inr ⟨id, mt, hmt, hil⟩)) hh
      rw [this, hi, ((instOk hr).inner id mt hmt i hil).1]

theorem OnlyEnded.done {env : Env} {id : Nat} {rec : Int} {fin : Bool} {s s' : St} (h : OnlyEnded id rec fin s s')
    (tag : Tag) (pub : Option PublicEvent) (res : Option Bool) :
    OnlyEnded id rec fin s (DelayTimer.done env s' tag pub res) := by
  obtain ⟨h1, h2, h3, h4, h5, h6, h7, h8, h9, h10⟩ := h
  exact ⟨fun i r => by rw [← h1]; simp [DelayTimer.done], h2, h3, h4, h5, h6, h7, h8, h9, h10⟩

/-- **C61** Dispatching an end event of a registered run that has not ended stops that run and nothing else. -/
theorem C61_exact {env : Env} {s : St} (hr : Reachable env s) {e : TimerEvent} {rest : List TimerEvent}
    {id : Nat} {rec : Int} (he : s.epc = .idle) (hc : s.chan = e :: rest) (hee : EndsRun id rec e)
    (hreg : .append id rec ∈ dispatchedTags s.log) (hn : ¬ RunEnded id rec s.log) :
    ∃ s', step env s .eRecv = some s' ∧ s'.epc = .idle ∧ s'.chan = rest ∧
      OnlyEnded id rec (e.tag == .finish id rec) s s' := by
  have hn' : .stopped id rec ∉ s.log := fun h => hn (((repOk hr).ended id rec).2 h)
  cases e with
  | cancelTask i r =>
    obtain ⟨rfl, rfl⟩ := hee
    refine ⟨done env (cancelTask env true { s with chan := rest } i r CANCELLED).2 (.cancel i r) none
      (cancelTask env true { s with chan := rest } i r CANCELLED).1,
      by simp only [step, eRecv, he, hc]; rfl, rfl, by simp, ?_⟩
    have hb : ((TimerEvent.cancelTask i r).tag == .finish i r) = false := by
      rw [beq_eq_false_iff_ne]; simp [TimerEvent.tag]
    rw [hb]
    exact OnlyEnded.done (fin := false) ((Ending.of_cancel env { s with chan := rest } i r).only hr hreg hn') _ _ _
  | timeoutTask i r =>
    obtain ⟨rfl, rfl⟩ := hee
    refine ⟨done env (cancelTask env false { s with chan := rest } i r TIMEOUT).2 (.timeout i r) (some (.timeoutTask i r))
      (cancelTask env false { s with chan := rest } i r TIMEOUT).1,
      by simp only [step, eRecv, he, hc]; rfl, rfl, by simp, ?_⟩
    have hb : ((TimerEvent.timeoutTask i r).tag == .finish i r) = false := by
      rw [beq_eq_false_iff_ne]; simp [TimerEvent.tag]
    rw [hb]
    exact OnlyEnded.done (fin := false) ((Ending.of_timeout env { s with chan := rest } i r).only hr hreg hn') _ _ _
  | finishTask b =>
    obtain ⟨rfl, rfl⟩ := hee
    refine ⟨done env (finishTask env { s with chan := rest } b.taskId b.recordId).2 (.finish b.taskId b.recordId)
      (some (.finishTask b)) (finishTask env { s with chan := rest } b.taskId b.recordId).1,
      by simp only [step, eRecv, he, hc]; rfl, rfl, by simp, ?_⟩
    have hb : ((TimerEvent.finishTask b).tag == .finish b.taskId b.recordId) = true := by
      rw [beq_iff_eq]; rfl
    rw [hb]
    exact OnlyEnded.done (fin := true)
      ((Ending.of_finish env { s with chan := rest } b.taskId b.recordId).only hr hreg hn') _ _ _
  | _ => exact hee.elim

/-- **C61** Nothing but the event thread is needed for a cancel request to take effect, provided that the
first alarms of the tasks added do not overflow where that is a panic. -/
theorem C61_drains {env : Env} {pre : List Label} {s s1 : St} {l : Label} {id : Nat} {rec : Int}
    (hrun : run env (init env) pre = some s) (hadd : Addable env pre) (hq : .append id rec ∈ queuedTags s.log) (hl : CancelCall id rec l)
    (h1 : step env s l = some s1) :
    ∃ ls s2, (∀ x ∈ ls, x = .eRecv ∨ x = .eNext) ∧ run env s1 ls = some s2 ∧ .stopped id rec ∈ s2.log := by
  have hr : Reachable env s := ⟨_, hrun⟩
  obtain ⟨ls, s2, h2, h3, h4⟩ := drains (hr.step h1) (adds_step (adds_of_added hrun hadd)
    (by cases l <;> first | rfl | (rename_i op; cases op <;> first | rfl | exact hl.elim) | exact hl.elim) (step_act h1))
  exact ⟨ls, s2, h2, h3, C61_cancel hr hq hl h1 h3 (by rw [h4]; exact Nat.le_refl _)⟩

end DelayTimer

namespace DelayTimer.Ex
open Spec

/-- Task 1 runs as 0 and, while that is still going on, as 1; both are registered and delivered. -/
def twoRuns : List Label :=
  ins (every 1 101 3) ++ idle ++ idle ++ fire 1 0 ++ [.eRecv] ++ idle ++ idle ++ fire 1 1 ++ [.eRecv, .uNext 0, .uNext 0]

/-- C61: the second run is cancelled through its instance; it is stopped as soon as the request has been dispatched,
while the first is still in the books. -/
example : Reachable env0 (play env0 twoRuns) ∧ .append 1 1 ∈ queuedTags (play env0 twoRuns).log ∧
    (step env0 (play env0 twoRuns) (.uCancel 0 ⟨1, 1, 1⟩)).isSome ∧
    (play env0 (twoRuns ++ [.uCancel 0 ⟨1, 1, 1⟩])).log.count (.stopped 1 1) = 0 ∧
    (play env0 (twoRuns ++ [.uCancel 0 ⟨1, 1, 1⟩, .eRecv])).log.count (.stopped 1 1) = 1 ∧
    ((play env0 (twoRuns ++ [.uCancel 0 ⟨1, 1, 1⟩, .eRecv])).trace 1).map (·.recordId) = [0] :=
  ⟨play_reachable (by decide +kernel), by decide +kernel, by decide +kernel, by decide +kernel, by decide +kernel,
    by decide +kernel⟩

/-- C61, `C61_exact`: the request for the first run is at the head of the channel, the run is registered and has not
ended. -/
example : Reachable env0 (play env0 (twoRuns ++ [.uSend (.cancel 1 0)])) ∧
    (play env0 (twoRuns ++ [.uSend (.cancel 1 0)])).chan = [.cancelTask 1 0] ∧
    (play env0 (twoRuns ++ [.uSend (.cancel 1 0)])).epc = .idle ∧
    .append 1 0 ∈ dispatchedTags (play env0 (twoRuns ++ [.uSend (.cancel 1 0)])).log ∧
    .stopped 1 0 ∉ (play env0 (twoRuns ++ [.uSend (.cancel 1 0)])).log :=
  ⟨play_reachable (by decide +kernel), by rfl, by rfl, by decide +kernel, by decide +kernel⟩

/-- C61, `C61_timeout`: the sweeper is about to send a time-out. -/
example : (run env0 (init env0) overdue).isSome ∧
    (play env0 (overdue ++ [.eRecv])).log.count (.stopped 2 0) = 1 := ⟨by rfl, by rfl⟩

/-- C61, `C61_finish`: the first run returns. -/
example : (run env0 (init env0) (twoRuns ++ [.rBody 0, .rFinish 0 107])).isSome ∧
    (play env0 (twoRuns ++ [.rBody 0, .rFinish 0 107, .eRecv])).log.count (.stopped 1 0) = 1 :=
  ⟨by decide +kernel, by decide +kernel⟩

/-- The hypothesis of C61 is needed: a request that is dispatched before the run has been registered is lost, though
the run has started (here the scheduler is between spawning and registering it). -/
def tooEarly : List Label :=
  add (every 1 101 3) ++ idle ++ idle ++ [.tLoad, .tStore, .tArrive, .tPop 1, .tCheck 0, .tSpawn false] ++
    [.uSend (.cancel 1 0), .eRecv, .tAppend, .tGate, .tSlot, .tMark, .tLapse, .eRecv]

/-- The run is started and never ends: the event thread has caught up and the run is still in the books. -/
theorem C61_early_lost : ∃ s, Reachable env0 s ∧ (∃ r n ts, .started 1 r 0 n ts ∈ s.log) ∧
    .cancel 1 0 ∈ dispatchedTags s.log ∧ s.chan = [] ∧ s.epc = .idle ∧ .stopped 1 0 ∉ s.log :=
  ⟨play env0 tooEarly, play_reachable (by decide +kernel), ⟨1, 2, 102, by decide +kernel⟩, by decide +kernel,
    by rfl, by rfl, by decide +kernel⟩

end DelayTimer.Ex
