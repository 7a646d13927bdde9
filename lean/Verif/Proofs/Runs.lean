import Verif.Proofs.Fifo

/-! Record ids, registrations and completions of runs. -/

namespace DelayTimer
open Spec

/-- Observations that are neither starts, ends of bodies, sweeps nor new events. -/
def Minor : Obs → Prop
  | .queued _ => False
  | .started .. => False
  | .swept .. => False
  | .bodyEnded .. => False
  | _ => True

theorem one_minor {s s' : St} {o : Obs} (h : s'.log = o :: s.log) (ho : Minor o)
    (hc : ∀ e ∈ s'.chan, e ∈ s.chan) :
    ∃ news, s'.log = news ++ s.log ∧ (∀ o ∈ news, Minor o) ∧ ∀ e ∈ s'.chan, e ∈ s.chan :=
  ⟨[o], h, by simpa using ho, hc⟩

/-- What a step writes to the log. -/
theorem log_cases {env : Env} {s : St} {l : Label} {s' : St} (h : Act env s l s') :
    (∃ news, s'.log = news ++ s.log ∧ (∀ o ∈ news, Minor o) ∧ ∀ e ∈ s'.chan, e ∈ s.chan) ∨
    (∃ p t rec box, l = .tSpawn false ∧ s.tpc = .spawn p t rec ∧ s'.tpc = .append p t box ∧
      box.recordId = rec ∧ s'.log = .started t.taskId t.routine rec s.ticks (env.clock s.ticks) :: s.log ∧
      s'.chan = s.chan) ∨
    (∃ e, s'.chan = s.chan ++ [e] ∧ s'.log = .queued e.tag :: s.log ∧
      ((∃ p t box, l = .tAppend ∧ s.tpc = .append p t box ∧ e = .appendTaskHandle t.taskId box) ∨
       (∃ rec now r, l = .rFinish rec now ∧ s.rt rec = some r ∧ r.gate = true ∧ r.bodyDone = true ∧
          e = .finishTask { taskId := r.taskId, recordId := rec, finishTime := now }) ∨
       (∃ op, l = .uSend op ∧ e = op.event) ∨
       (∃ t c, l = .uInsert t ∧ e = .insertTask t c) ∨
       (∃ w i, l = .uCancel w i ∧ e = .cancelTask i.taskId i.recordId))) ∨
    (∃ u now n, l = .sPop u ∧ s.spc = .active now (n + 1) ∧
      s'.chan = s.chan ++ [.timeoutTask u.taskId u.recordId] ∧
      s'.log = .swept u now :: .queued (.timeout u.taskId u.recordId) :: s.log) ∨
    (∃ rec r, l = .rBody rec ∧ s.rt rec = some r ∧ s'.log = .bodyEnded r.taskId rec :: s.log ∧
      s'.chan = s.chan) := by
  cases h
  all_goals try (exact Or.inl ⟨[], rfl, by simp, fun _ he => he⟩)
  all_goals try (
    refine Or.inl ⟨[_], rfl, ?_, fun _ he => he⟩
    intro o ho; simp at ho; subst ho; trivial; done)
  case spawn pending t rec h =>
    exact Or.inr (Or.inl ⟨_, _, _, _, rfl, h, rfl, rfl, rfl, rfl⟩)
  case append pending t box h =>
    exact Or.inr (Or.inr (Or.inl ⟨_, rfl, rfl, Or.inl ⟨_, _, _, rfl, h, rfl⟩⟩))
  case finish rec now r hr hb hg hf =>
    exact Or.inr (Or.inr (Or.inl ⟨_, rfl, rfl, Or.inr (Or.inl ⟨_, _, _, rfl, hr, hg, hb, rfl⟩)⟩))
  case usend op =>
    exact Or.inr (Or.inr (Or.inl ⟨_, rfl, rfl, Or.inr (Or.inr (Or.inl ⟨_, rfl, rfl⟩))⟩))
  case uinsert t =>
    exact Or.inr (Or.inr (Or.inl ⟨_, rfl, rfl, Or.inr (Or.inr (Or.inr (Or.inl ⟨_, _, rfl, rfl⟩)))⟩))
  case ucancel w i hw hr =>
    exact Or.inr (Or.inr (Or.inl ⟨_, rfl, rfl, Or.inr (Or.inr (Or.inr (Or.inr ⟨_, _, rfl, rfl⟩)))⟩))
  case spop u now n hp hu hmin hle =>
    exact Or.inr (Or.inr (Or.inr (Or.inl ⟨_, _, _, rfl, hp, rfl, rfl⟩)))
  case body rec r hr hb hl =>
    exact Or.inr (Or.inr (Or.inr (Or.inr ⟨_, _, rfl, hr, rfl, rfl⟩)))
  case recv_cancel id rec rest he hc =>
    left
    have hch : ∀ e ∈ rest, e ∈ s.chan := fun e h => by rw [hc]; exact List.mem_cons_of_mem _ h
    rcases cancelTask_log env true { s with chan := rest } id rec CANCELLED with h | h | ⟨_, _, h⟩
    · exact ⟨[_], by simp only [done_log, h]; rfl, by intro o ho; simp at ho; subst ho; trivial, by simpa using hch⟩
    · exact ⟨[_, _], by simp only [done_log, h]; rfl, by intro o ho; simp at ho; rcases ho with rfl | rfl <;> trivial, by simpa using hch⟩
    · exact ⟨[_, _, _], by simp only [done_log, h]; rfl, by intro o ho; simp at ho; rcases ho with rfl | rfl | rfl <;> trivial, by simpa using hch⟩
  case recv_timeout id rec rest he hc =>
    left
    have hch : ∀ e ∈ rest, e ∈ s.chan := fun e h => by rw [hc]; exact List.mem_cons_of_mem _ h
    rcases cancelTask_log env false { s with chan := rest } id rec TIMEOUT with h | h | ⟨_, _, h⟩
    · exact ⟨[_], by simp only [done_log, h]; rfl, by intro o ho; simp at ho; subst ho; trivial, by simpa using hch⟩
    · exact ⟨[_, _], by simp only [done_log, h]; rfl, by intro o ho; simp at ho; rcases ho with rfl | rfl <;> trivial, by simpa using hch⟩
    · exact ⟨[_, _, _], by simp only [done_log, h]; rfl, by intro o ho; simp at ho; rcases ho with rfl | rfl | rfl <;> trivial, by simpa using hch⟩
  case recv_finish b rest he hc =>
    left
    have hch : ∀ e ∈ rest, e ∈ s.chan := fun e h => by rw [hc]; exact List.mem_cons_of_mem _ h
    rcases finishTask_log env { s with chan := rest } b.taskId b.recordId with h | h | ⟨_, _, h⟩
    · exact ⟨[_], by simp only [done_log, h]; rfl, by intro o ho; simp at ho; subst ho; trivial, by simpa using hch⟩
    · exact ⟨[_, _], by simp only [done_log, h]; rfl, by intro o ho; simp at ho; rcases ho with rfl | rfl <;> trivial, by simpa using hch⟩
    · exact ⟨[_, _, _], by simp only [done_log, h]; rfl, by intro o ho; simp at ho; rcases ho with rfl | rfl | rfl <;> trivial, by simpa using hch⟩
  all_goals try (
    refine Or.inl ⟨[], ?_, (by simp), ?_⟩
    · simp; done
    · intro e h; rw [‹s.chan = _›]; exact List.mem_cons_of_mem _ (by simpa using h))
  all_goals try (
    apply Or.inl
    apply one_minor
    · simp; rfl
    · trivial
    · intro e h; rw [‹s.chan = _›]; exact List.mem_cons_of_mem _ (by simpa using h))
  all_goals
    apply Or.inl
    apply one_minor
    · simp; rfl
    · trivial
    · simp

theorem log_mono {env : Env} {s : St} {l : Label} {s' : St} (h : Act env s l s') {o : Obs} (ho : o ∈ s.log) :
    o ∈ s'.log := by
  rcases log_cases h with ⟨n, hn, _, _⟩ | ⟨_, _, _, _, _, _, _, _, hn, _⟩ | ⟨_, _, hn, _⟩ | ⟨_, _, _, _, _, _, hn⟩ | ⟨_, _, _, _, hn, _⟩ <;>
    rw [hn] <;> simp [ho]

theorem dispatchedTags_append (a b : List Obs) : dispatchedTags (a ++ b) = dispatchedTags b ++ dispatchedTags a := by
  induction a with
  | nil => simp [dispatchedTags]
  | cons o a ih => cases o <;> simp [dispatchedTags, ih]

/-- Histories only grow. -/
theorem dispatched_grows {env : Env} {s s' : St} {l : Label} (h : Act env s l s') :
    (dispatchedTags s.log).Sublist (dispatchedTags s'.log) := by
  have : ∃ news, s'.log = news ++ s.log := by
    rcases log_cases h with ⟨n, hn, _, _⟩ | ⟨_, _, _, _, _, _, _, _, hn, _⟩ | ⟨_, _, hn, _⟩ | ⟨_, _, _, _, _, _, hn⟩ | ⟨_, _, _, _, hn, _⟩
    · exact ⟨n, hn⟩
    all_goals first | exact ⟨[_], hn⟩ | exact ⟨[_, _], hn⟩
  obtain ⟨news, hn⟩ := this
  rw [hn, dispatchedTags_append]
  exact List.sublist_append_left _ _

theorem log_mono_run {env : Env} {ls : List Label} {s s' : St} (h : run env s ls = some s') {o : Obs}
    (ho : o ∈ s.log) : o ∈ s'.log :=
  run_induct (fun x => o ∈ x.log) (fun _ _ _ hx ha => log_mono ha hx) ls s s' ho h

theorem startedRecs_minor {news log : List Obs} (h : ∀ o ∈ news, Minor o) :
    startedRecs (news ++ log) = startedRecs log := by
  induction news with
  | nil => rfl
  | cons o news ih =>
    have h1 := h o List.mem_cons_self
    have h2 := ih (fun o ho => h o (List.mem_cons_of_mem _ ho))
    cases o <;> simp_all [Minor, startedRecs]

theorem queuedTags_minor {news log : List Obs} (h : ∀ o ∈ news, Minor o) :
    queuedTags (news ++ log) = queuedTags log := by
  induction news with
  | nil => rfl
  | cons o news ih =>
    have h1 := h o List.mem_cons_self
    have h2 := ih (fun o ho => h o (List.mem_cons_of_mem _ ho))
    cases o <;> simp_all [Minor, queuedTags]

/-- The record id of a run whose registration has not been sent yet. -/
def pendRecs : TPC → List Int
  | .append _ _ box => [box.recordId]
  | _ => []

/-- Record ids: never drawn twice, registered in the order drawn. -/
structure RecOk (env : Env) (s : St) : Prop where
  start : startedRecs s.log = appendRecs (queuedTags s.log) ++ pendRecs s.tpc
  sorted : (startedRecs s.log).Pairwise (Earlier env)
  drawn : ∀ r ∈ startedRecs s.log, r ∈ s.recs
  fresh : ∀ p t rec, s.tpc = .spawn p t rec → rec ∈ s.recs ∧ ∀ r ∈ startedRecs s.log, Earlier env r rec

/-- Program counter and generator. -/
theorem tpc_cases {env : Env} {s : St} {l : Label} {s' : St} (h : Act env s l s') :
    (s'.tpc = s.tpc ∧ s'.recs = s.recs) ∨
    (pendRecs s.tpc = [] ∧ pendRecs s'.tpc = [] ∧ (∀ r ∈ s.recs, r ∈ s'.recs) ∧
      ∀ p t rec, s'.tpc = .spawn p t rec → (∀ r ∈ s.recs, Earlier env r rec) ∧ rec ∈ s'.recs) ∨
    l = .tSpawn false ∨ (l = .tAppend ∧ s'.recs = s.recs ∧ ∃ p t r, s'.tpc = .gate p t r) := by
  cases h
  case spawn => exact Or.inr (Or.inr (Or.inl rfl))
  case append => exact Or.inr (Or.inr (Or.inr ⟨rfl, rfl, _, _, _, rfl⟩))
  all_goals try (exact Or.inl ⟨rfl, rfl⟩)
  all_goals try (refine Or.inl ⟨?_, ?_⟩ <;> simp <;> done)
  case check_nolimit pending t rec h hrec hmax =>
    refine Or.inr (Or.inl ⟨by rw [h]; rfl, rfl, fun r hr => List.mem_cons_of_mem _ hr, ?_⟩)
    intro p t' rec' hx; cases hx; exact ⟨freshId_iff.1 hrec, List.mem_cons_self⟩
  case check_ok pending t rec k m h hrec hmax hf hlt =>
    refine Or.inr (Or.inl ⟨by rw [h]; rfl, rfl, fun r hr => List.mem_cons_of_mem _ hr, ?_⟩)
    intro p t' rec' hx; cases hx; exact ⟨freshId_iff.1 hrec, List.mem_cons_self⟩
  all_goals
    refine Or.inr (Or.inl ⟨by rw [‹s.tpc = _›]; rfl, rfl,
      by first | exact fun r hr => hr | exact fun r hr => List.mem_cons_of_mem _ hr | (simp; done), ?_⟩)
    intro p t' rec' hx; cases hx

theorem recOk_step {env : Env} {s : St} {l : Label} {s' : St} (hs : RecOk env s)
    (h : Act env s l s') : RecOk env s' := by
  obtain ⟨h1, h2, h3, h4⟩ := hs
  have ht := tpc_cases h
  rcases log_cases h with ⟨n, hn, hm, hsub⟩ | ⟨p, t, rec, box, rfl, hp, hp', hb, hn, hce⟩ | ⟨e, hc, hn, he⟩ | ⟨u, now, n, rfl, hp, hc, hn⟩ | ⟨rec, r, rfl, hr, hn, hce⟩
  · have e1 : startedRecs s'.log = startedRecs s.log := by rw [hn]; exact startedRecs_minor hm
    have e2 : queuedTags s'.log = queuedTags s.log := by rw [hn]; exact queuedTags_minor hm
    rcases ht with ⟨a, b⟩ | ⟨a, b, c, d⟩ | rfl | ⟨rfl, _⟩
    · exact ⟨by rw [e1, e2, a]; exact h1, by rw [e1]; exact h2, by rw [e1, b]; exact h3, by rw [e1, a, b]; exact h4⟩
    · refine ⟨by rw [e1, e2, b, h1, a], by rw [e1]; exact h2, ?_, ?_⟩
      · rw [e1]; exact fun r hr => c r (h3 r hr)
      · rw [e1]; intro p t rec hx
        obtain ⟨d1, d2⟩ := d p t rec hx
        exact ⟨d2, fun r hr => d1 r (h3 r hr)⟩
    · cases h
      exfalso
      have := congrArg List.length hn
      have hx := startedRecs_minor (log := s.log) hm
      rw [← hn] at hx
      simp [startedRecs] at hx
    · cases h
      exfalso
      have hx := queuedTags_minor (log := s.log) hm
      rw [← hn] at hx
      simp [queuedTags, push] at hx
  · have e1 : startedRecs s'.log = startedRecs s.log ++ [rec] := by rw [hn]; rfl
    have e2 : queuedTags s'.log = queuedTags s.log := by rw [hn]; rfl
    obtain ⟨f1, f2⟩ := h4 p t rec hp
    have hl : s'.recs = s.recs := by cases h; rfl
    refine ⟨?_, ?_, ?_, ?_⟩
    · rw [e1, e2, hp', h1, hp]; simp [pendRecs, hb]
    · rw [e1, List.pairwise_append]; exact ⟨h2, by simp, by simpa using f2⟩
    · rw [e1, hl]; intro r hr
      rcases List.mem_append.1 hr with hr | hr
      · exact h3 r hr
      · cases List.mem_singleton.1 hr; exact f1
    · rw [hp']; intro _ _ _ hx; cases hx
  · have e1 : startedRecs s'.log = startedRecs s.log := by rw [hn]; rfl
    have e2 : queuedTags s'.log = queuedTags s.log ++ [e.tag] := by rw [hn]; rfl
    rcases he with ⟨p, t, box, rfl, hp, rfl⟩ | he
    · rcases ht with ⟨a, b⟩ | ⟨a, b, c, d⟩ | h5 | ⟨_, b, p', t', r', hq⟩
      · cases h with | append p1 t1 b1 h1' => rw [h1'] at a; cases a
      · rw [hp] at a; cases a
      · cases h5
      · refine ⟨?_, by rw [e1]; exact h2, by rw [e1, b]; exact h3, by rw [hq]; intro _ _ _ hx; cases hx⟩
        rw [e1, e2, h1, hp, hq]; simp [pendRecs, TimerEvent.tag, appendRecs]
    · have e3 : appendRecs (queuedTags s.log ++ [e.tag]) = appendRecs (queuedTags s.log) := by
        rw [appendRecs_append]
        rcases he with ⟨_, _, _, _, _, _, _, rfl⟩ | ⟨op, _, rfl⟩ | ⟨_, _, _, rfl⟩ | ⟨_, _, _, rfl⟩
        · simp [appendRecs, TimerEvent.tag]
        · cases op <;> simp [appendRecs, TimerEvent.tag, UserOp.event]
        · simp [appendRecs, TimerEvent.tag]
        · simp [appendRecs, TimerEvent.tag]
      have a : s'.tpc = s.tpc ∧ s'.recs = s.recs := by
        rcases he with ⟨_, _, _, rfl, _⟩ | ⟨op, rfl, _⟩ | ⟨_, _, rfl, _⟩ | ⟨_, _, rfl, _⟩ <;> cases h <;> exact ⟨rfl, rfl⟩
      obtain ⟨a, b⟩ := a
      exact ⟨by rw [e1, e2, e3, a]; exact h1, by rw [e1]; exact h2, by rw [e1, b]; exact h3, by rw [e1, a, b]; exact h4⟩
  · have e1 : startedRecs s'.log = startedRecs s.log := by rw [hn]; rfl
    have e2 : appendRecs (queuedTags s'.log) = appendRecs (queuedTags s.log) := by
      rw [hn]; simp [queuedTags, appendRecs]
    obtain ⟨a, b⟩ : s'.tpc = s.tpc ∧ s'.recs = s.recs := by cases h; exact ⟨rfl, rfl⟩
    exact ⟨by rw [e1, e2, a]; exact h1, by rw [e1]; exact h2, by rw [e1, b]; exact h3, by rw [e1, a, b]; exact h4⟩
  · have e1 : startedRecs s'.log = startedRecs s.log := by rw [hn]; rfl
    have e2 : queuedTags s'.log = queuedTags s.log := by rw [hn]; rfl
    obtain ⟨a, b⟩ : s'.tpc = s.tpc ∧ s'.recs = s.recs := by cases h; exact ⟨rfl, rfl⟩
    exact ⟨by rw [e1, e2, a]; exact h1, by rw [e1]; exact h2, by rw [e1, b]; exact h3, by rw [e1, a, b]; exact h4⟩

theorem recOk {env : Env} {s : St} (h : Reachable env s) : RecOk env s :=
  Reachable.induct (RecOk env) ⟨rfl, List.Pairwise.nil, (by intro r hr; cases hr), (by intro _ _ _ hx; cases hx)⟩
    (fun _ _ _ _ hs h => recOk_step hs h) s h

theorem bodyOver_mono {env : Env} {id : Nat} {rec : Int} {log log' : List Obs} (h : BodyOver env id rec log)
    (hm : ∀ {o : Obs}, o ∈ log → o ∈ log') : BodyOver env id rec log' := by
  rcases h with h | ⟨h, ht, rtn, n, ts, h1, h2⟩
  · exact Or.inl (hm h)
  · exact Or.inr ⟨hm h, ht, rtn, n, ts, hm h1, h2⟩

theorem survives {k : RoutineKind} {r : RuntimeKind} (h : survivesPanic k r = true) : r = .tokio ∧ k = .syncFn := by
  cases k <;> cases r <;> simp_all [survivesPanic]

/-- What is known about spawned runs and their events. -/
structure RtOk (env : Env) (s : St) : Prop where
  rt : ∀ rec r, s.rt rec = some r → (∃ n ts, .started r.taskId r.routine rec n ts ∈ s.log) ∧
    (r.gate = true → .queued (.append r.taskId rec) ∈ s.log) ∧
    (r.bodyDone = true → BodyOver env r.taskId rec s.log)
  app : ∀ p t box, s.tpc = .append p t box → box.taskId = t.taskId ∧
    (∃ rtn n, .started t.taskId rtn box.recordId n box.startTime ∈ s.log) ∧
    ∃ r, s.rt box.recordId = some r ∧ r.taskId = t.taskId
  gate : ∀ p t rec, s.tpc = .gate p t rec → .queued (.append t.taskId rec) ∈ s.log ∧
    ∃ r, s.rt rec = some r ∧ r.taskId = t.taskId
  chanApp : ∀ id box, .appendTaskHandle id box ∈ s.chan → box.taskId = id ∧
    ∃ rtn n, .started id rtn box.recordId n box.startTime ∈ s.log
  chanFin : ∀ b, .finishTask b ∈ s.chan → BodyOver env b.taskId b.recordId s.log

theorem chan_sub {env : Env} {s : St} {l : Label} {s' : St} (h : Act env s l s') {e : TimerEvent}
    (he : e ∈ s'.chan) : e ∈ s.chan ∨
      (∃ p t box, l = .tAppend ∧ s.tpc = .append p t box ∧ e = .appendTaskHandle t.taskId box) ∨
      (∃ rec now r, l = .rFinish rec now ∧ s.rt rec = some r ∧ r.gate = true ∧ r.bodyDone = true ∧
          e = .finishTask { taskId := r.taskId, recordId := rec, finishTime := now }) ∨
      (∃ op, l = .uSend op ∧ e = op.event) ∨
      (∃ t c, l = .uInsert t ∧ e = .insertTask t c) ∨
      (∃ w i, l = .uCancel w i ∧ e = .cancelTask i.taskId i.recordId) ∨
      (∃ u, l = .sPop u ∧ e = .timeoutTask u.taskId u.recordId) := by
  rcases log_cases h with ⟨n, hn, hmi, hsub⟩ | ⟨p, t, rec, box', rfl, hp, hp', hb, hn, hce⟩ | ⟨e'', hc', hn, h1⟩ | ⟨u, now, n, rfl, hp, hc', hn⟩ | ⟨rec, r, rfl, hr, hn, hce⟩
  · exact Or.inl (hsub e he)
  · rw [hce] at he; exact Or.inl he
  · rw [hc'] at he
    rcases List.mem_append.1 he with he | he
    · exact Or.inl he
    · cases List.mem_singleton.1 he
      rcases h1 with h1 | h1 | h1 | h1 | h1
      · exact Or.inr (Or.inl h1)
      · exact Or.inr (Or.inr (Or.inl h1))
      · exact Or.inr (Or.inr (Or.inr (Or.inl h1)))
      · exact Or.inr (Or.inr (Or.inr (Or.inr (Or.inl h1))))
      · exact Or.inr (Or.inr (Or.inr (Or.inr (Or.inr (Or.inl h1)))))
  · rw [hc'] at he
    rcases List.mem_append.1 he with he | he
    · exact Or.inl he
    · exact Or.inr (Or.inr (Or.inr (Or.inr (Or.inr (Or.inr ⟨u, rfl, List.mem_singleton.1 he⟩)))))
  · rw [hce] at he; exact Or.inl he

theorem rtOk_step {env : Env} {s : St} {l : Label} {s' : St} (hs : RtOk env s) (h : Act env s l s') : RtOk env s' := by
  obtain ⟨h1, h2, h3, h4, h5⟩ := hs
  have hm : ∀ {o : Obs}, o ∈ s.log → o ∈ s'.log := fun ho => log_mono h ho
  have h1' : ∀ rec r, s.rt rec = some r → (∃ n ts, .started r.taskId r.routine rec n ts ∈ s'.log) ∧
    (r.gate = true → .queued (.append r.taskId rec) ∈ s'.log) ∧
    (r.bodyDone = true → BodyOver env r.taskId rec s'.log) := by
    intro rec r hr
    obtain ⟨⟨a, b, d⟩, e, f⟩ := h1 rec r hr
    exact ⟨⟨a, b, hm d⟩, fun g => hm (e g), fun g => bodyOver_mono (f g) hm⟩
  have h2' : ∀ p t box, s.tpc = .append p t box → box.taskId = t.taskId ∧
    (∃ rtn n, .started t.taskId rtn box.recordId n box.startTime ∈ s'.log) ∧
    ∃ r, s.rt box.recordId = some r ∧ r.taskId = t.taskId := by
    intro p t box hp
    obtain ⟨a, ⟨b, c, d⟩, e⟩ := h2 p t box hp
    exact ⟨a, ⟨b, c, hm d⟩, e⟩
  have h3' : ∀ p t rec, s.tpc = .gate p t rec → .queued (.append t.taskId rec) ∈ s'.log ∧
    ∃ r, s.rt rec = some r ∧ r.taskId = t.taskId := by
    intro p t rec hp
    obtain ⟨a, b⟩ := h3 p t rec hp
    exact ⟨hm a, b⟩
  refine ⟨?_, ?_, ?_, ?_, ?_⟩
  · -- rt
    clear h4 h5
    cases h
    all_goals try (exact h1')
    all_goals try (simpa using h1')
    case spawn pending t rec hp =>
      intro rec' r hr
      simp only [setI_apply] at hr
      split at hr
      · rename_i heq; subst heq; cases hr
        exact ⟨⟨_, _, List.mem_cons_self⟩, by simp, by simp⟩
      · exact h1' _ _ hr
    case body rec r hr hb hl =>
      intro rec' r' hr'
      simp only [setI_apply] at hr'
      split at hr'
      · rename_i heq; subst heq; cases hr'
        obtain ⟨a, b, c⟩ := h1' _ _ hr
        exact ⟨a, b, fun _ => Or.inl List.mem_cons_self⟩
      · exact h1' _ _ hr'
    case panic_caught rec r hr hb hl hc =>
      intro rec' r' hr'
      simp only [setI_apply] at hr'
      split at hr'
      · rename_i heq; subst heq; cases hr'
        obtain ⟨⟨n, ts, a⟩, b, c⟩ := h1' _ _ hr
        exact ⟨⟨n, ts, a⟩, b, fun _ => Or.inr ⟨List.mem_cons_self, (survives hc).1, _, n, ts, a, (survives hc).2⟩⟩
      · exact h1' _ _ hr'
    case panic_lost rec r hr hb hl hc =>
      intro rec' r' hr'
      simp only [setI_apply] at hr'
      split at hr'
      · rename_i heq; subst heq; cases hr'
        exact h1' _ r hr
      · exact h1' _ _ hr'
    case finish rec now r hr hb hg hf =>
      intro rec' r' hr'
      simp only [setI_apply] at hr'
      split at hr'
      · rename_i heq; subst heq; cases hr'
        exact h1' _ r hr
      · exact h1' _ _ hr'
    all_goals
      intro rec' r' hr'
      simp only [setI_apply] at hr'
      split at hr'
      · rename_i heq; subst heq
        obtain ⟨a, r, b, c⟩ := h3' _ _ _ ‹_›
        rw [b] at hr'
        cases hr'
        obtain ⟨d, e, f⟩ := h1' _ _ b
        exact ⟨d, fun _ => by simpa [c] using a, f⟩
      · exact h1' _ _ hr'
  · -- app
    clear h1 h3 h4 h5 h1' h3'
    cases h
    all_goals try (exact h2')
    all_goals try (intro _ _ _ hx; cases hx; done)
    all_goals try (simpa using h2')
    case spawn pending t rec hp =>
      intro p t' box hx
      cases hx
      exact ⟨rfl, ⟨_, _, List.mem_cons_self⟩, _, setI_same _ _ _, rfl⟩
    case body rec r hr hb hl =>
      intro p t' box hx
      obtain ⟨a, b, r', c, d⟩ := h2' p t' box hx
      refine ⟨a, b, ?_⟩
      simp only [setI_apply]
      split
      · rename_i heq; rw [heq, hr] at c; cases c; exact ⟨_, rfl, d⟩
      · exact ⟨_, c, d⟩
    case panic_caught rec r hr hb hl hc =>
      intro p t' box hx
      obtain ⟨a, b, r', c, d⟩ := h2' p t' box hx
      refine ⟨a, b, ?_⟩
      simp only [setI_apply]
      split
      · rename_i heq; rw [heq, hr] at c; cases c; exact ⟨_, rfl, d⟩
      · exact ⟨_, c, d⟩
    case panic_lost rec r hr hb hl hc =>
      intro p t' box hx
      obtain ⟨a, b, r', c, d⟩ := h2' p t' box hx
      refine ⟨a, b, ?_⟩
      simp only [setI_apply]
      split
      · rename_i heq; rw [heq, hr] at c; cases c; exact ⟨_, rfl, d⟩
      · exact ⟨_, c, d⟩
    case finish rec now r hr hb hg hf =>
      intro p t' box hx
      obtain ⟨a, b, r', c, d⟩ := h2' p t' box hx
      refine ⟨a, b, ?_⟩
      simp only [setI_apply]
      split
      · rename_i heq; rw [heq, hr] at c; cases c; exact ⟨_, rfl, d⟩
      · exact ⟨_, c, d⟩
  · -- gate
    clear h1 h4 h5 h1'
    cases h
    all_goals try (exact h3')
    all_goals try (intro _ _ _ hx; cases hx; done)
    all_goals try (simpa using h3')
    case append pending t box hp =>
      intro p t' rec hx
      cases hx
      obtain ⟨a, b, c⟩ := h2' _ _ _ hp
      exact ⟨List.mem_cons_self, c⟩
    case body rec r hr hb hl =>
      intro p t' rec' hx
      obtain ⟨a, r', c, d⟩ := h3' p t' rec' hx
      refine ⟨a, ?_⟩
      simp only [setI_apply]
      split
      · rename_i heq; rw [heq, hr] at c; cases c; exact ⟨_, rfl, d⟩
      · exact ⟨_, c, d⟩
    case panic_caught rec r hr hb hl hc =>
      intro p t' rec' hx
      obtain ⟨a, r', c, d⟩ := h3' p t' rec' hx
      refine ⟨a, ?_⟩
      simp only [setI_apply]
      split
      · rename_i heq; rw [heq, hr] at c; cases c; exact ⟨_, rfl, d⟩
      · exact ⟨_, c, d⟩
    case panic_lost rec r hr hb hl hc =>
      intro p t' rec' hx
      obtain ⟨a, r', c, d⟩ := h3' p t' rec' hx
      refine ⟨a, ?_⟩
      simp only [setI_apply]
      split
      · rename_i heq; rw [heq, hr] at c; cases c; exact ⟨_, rfl, d⟩
      · exact ⟨_, c, d⟩
    case finish rec now r hr hb hg hf =>
      intro p t' rec' hx
      obtain ⟨a, r', c, d⟩ := h3' p t' rec' hx
      refine ⟨a, ?_⟩
      simp only [setI_apply]
      split
      · rename_i heq; rw [heq, hr] at c; cases c; exact ⟨_, rfl, d⟩
      · exact ⟨_, c, d⟩
  · intro id box hx
    rcases chan_sub h hx with h6 | ⟨p, t, box', rfl, hp, h6⟩ | ⟨_, _, _, _, _, _, _, h6⟩ | ⟨op, _, h6⟩ | ⟨_, _, _, h6⟩ | ⟨_, _, _, h6⟩ | ⟨_, _, h6⟩
    · obtain ⟨a, b, c, d⟩ := h4 id box h6; exact ⟨a, b, c, hm d⟩
    · cases h6
      obtain ⟨a, ⟨b, c, d⟩, _⟩ := h2' _ _ _ hp
      exact ⟨a, b, c, d⟩
    · cases h6
    · cases op <;> cases h6
    · cases h6
    · cases h6
    · cases h6
  · intro b hx
    rcases chan_sub h hx with h6 | ⟨p, t, box', rfl, hp, h6⟩ | ⟨_, _, _, _, hr, _, hbd, h6⟩ | ⟨op, _, h6⟩ | ⟨_, _, _, h6⟩ | ⟨_, _, _, h6⟩ | ⟨_, _, h6⟩
    · exact bodyOver_mono (h5 b h6) hm
    · cases h6
    · cases h6; exact (h1' _ _ hr).2.2 hbd
    · cases op <;> cases h6
    · cases h6
    · cases h6
    · cases h6

theorem rtOk {env : Env} {s : St} (h : Reachable env s) : RtOk env s := by
  refine Reachable.induct (RtOk env) ⟨?_, ?_, ?_, ?_, ?_⟩ (fun _ _ _ _ hs h => rtOk_step hs h) s h
  · intro _ _ hx; cases hx
  · intro _ _ _ hx; cases hx
  · intro _ _ _ hx; cases hx
  · intro _ _ hx; cases hx
  · intro _ hx; cases hx

/-- Among the queued events, a completion comes after the registration of the run. -/
def FinAfter (q : List Tag) : Prop := ∀ l1 l2 id rec, q = l1 ++ .finish id rec :: l2 → .append id rec ∈ l1

theorem finAfter_snoc {q : List Tag} {x : Tag} (h : FinAfter q)
    (hx : ∀ id rec, x = .finish id rec → .append id rec ∈ q) : FinAfter (q ++ [x]) := by
  intro l1 l2 id rec he
  rcases List.eq_nil_or_concat l2 with rfl | ⟨l2', y, rfl⟩
  · have := List.append_inj_right' (t₁ := [x]) (t₂ := [.finish id rec]) he rfl
    have h2 := List.append_inj_left' (t₁ := [x]) (t₂ := [.finish id rec]) he rfl
    cases this
    rw [← h2]; exact hx _ _ rfl
  · have he' : q ++ [x] = (l1 ++ .finish id rec :: l2') ++ [y] := by rw [he]; simp
    have h2 := List.append_inj_left' he' rfl
    exact h l1 l2' id rec h2

theorem finAfter {env : Env} {s : St} (h : Reachable env s) : FinAfter (queuedTags s.log) := by
  refine Reachable.induct (fun s => FinAfter (queuedTags s.log)) ?_ ?_ s h
  · intro l1 l2 id rec hx; simp [init, queuedTags] at hx
  · intro s l s' hr hs h
    rcases log_cases h with ⟨n, hn, hmi, hsub⟩ | ⟨p, t, rec, box', rfl, hp, hp', hb, hn, hce⟩ | ⟨e'', hc', hn, he⟩ | ⟨u, now, n, rfl, hp, hc', hn⟩ | ⟨rec, r, rfl, hr, hn, hce⟩
    · rw [hn, queuedTags_minor hmi]; exact hs
    · rw [hn]; exact hs
    · rw [hn]
      refine finAfter_snoc hs ?_
      intro id rec hx
      rcases he with ⟨p, t, box', rfl, hp, rfl⟩ | ⟨_, _, r, _, hrt, hg, _, rfl⟩ | ⟨op, _, rfl⟩ | ⟨_, _, _, rfl⟩ | ⟨_, _, _, rfl⟩
      · cases hx
      · cases hx; exact mem_queuedTags.2 (((rtOk hr).rt _ _ hrt).2.1 hg)
      · cases op <;> cases hx
      · cases hx
      · cases hx
    · rw [hn]
      refine finAfter_snoc hs ?_
      intro id rec hx; cases hx
    · rw [hn]; exact hs

end DelayTimer
