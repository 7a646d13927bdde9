import Verif.Proofs.Chain
import Verif.Props.Sweep

/-! # Instances and chains: C19–C25 -/

namespace DelayTimer
open Spec

/-! ## C19 -/

theorem stateWrites_append (h : Nat) (news log : List Obs) :
    ∃ more, stateWrites h (news ++ log) = stateWrites h log ++ more := by
  induction news with
  | nil => exact ⟨[], by simp⟩
  | cons o news ih =>
    obtain ⟨more, hm⟩ := ih
    rw [List.cons_append]
    cases o
    case stateSet h' old new =>
      simp only [stateWrites]
      split
      · exact ⟨more ++ [(old, new)], by rw [hm, List.append_assoc]⟩
      · exact ⟨more, hm⟩
    all_goals exact ⟨more, by simpa [stateWrites] using hm⟩

theorem log_grows {env : Env} {ls : List Label} {s s' : St} (h : run env s ls = some s') :
    ∃ news, s'.log = news ++ s.log := by
  refine run_induct (fun x => ∃ news, x.log = news ++ s.log) ?_ ls s s' ⟨[], rfl⟩ h
  rintro s1 l s2 ⟨news, hn⟩ ha
  rcases log_cases ha with ⟨n, h1, _⟩ | ⟨_, _, _, _, _, _, _, _, h1, _⟩ | ⟨_, _, h1, _⟩ | ⟨_, _, _, _, _, _, h1⟩ | ⟨_, _, _, _, h1, _⟩ <;>
    rw [h1, hn]
  · exact ⟨_, (List.append_assoc _ _ _).symm⟩
  · exact ⟨_ :: _, rfl⟩
  · exact ⟨_ :: _, rfl⟩
  · exact ⟨_ :: _ :: _, rfl⟩
  · exact ⟨_ :: _, rfl⟩

/-- **C19.** The state of an instance is written at most once; the write replaces RUNNING by COMPLETED,
CANCELLED or TIMEOUT. -/
theorem C19_once {env : Env} {s : St} (hr : Reachable env s) (h : Nat) :
    (stateWrites h s.log = [] ∧ s.hdrState h = RUNNING) ∨
    ∃ st, (st = COMPLETED ∨ st = CANCELLED ∨ st = TIMEOUT) ∧
      stateWrites h s.log = [(RUNNING, st)] ∧ s.hdrState h = st := by
  rcases (instOk hr).writes h with h | ⟨k, h1, h2⟩
  · exact Or.inl h
  · refine Or.inr ⟨k.state, ?_, h1, h2⟩
    cases k <;> simp [EndKind.state]

/-- **C19.** Once the state of an instance is not RUNNING, it never changes again. -/
theorem C19_final {env : Env} {s s' : St} {ls : List Label} (hr : Reachable env s) {h : Nat}
    (hf : s.hdrState h ≠ RUNNING) (hl : run env s ls = some s') : s'.hdrState h = s.hdrState h := by
  obtain ⟨news, hn⟩ := log_grows hl
  obtain ⟨more, hm⟩ := stateWrites_append h news s.log
  rw [← hn] at hm
  rcases (instOk hr).writes h with ⟨_, h1⟩ | ⟨k, h1, h2⟩
  · exact absurd h1 hf
  rcases (instOk (hr.run hl)).writes h with ⟨h3, _⟩ | ⟨k', h3, h4⟩
  · rw [h3, h1] at hm; cases hm
  · rw [h3, h1] at hm
    simp only [List.singleton_append, List.cons.injEq, Prod.mk.injEq, true_and] at hm
    rw [h4, h2]; exact hm.1

theorem final_step {env : Env} {s s' : St} {l : Label} (hr : Reachable env s) (ha : Act env s l s') {h : Nat}
    (hf : s.hdrState h ≠ RUNNING) : s'.hdrState h = s.hdrState h := by
  have hi := instStep hr ha
  cases hi with
  | dull _ h => rw [h.hdr]
  | miss _ _ _ _ _ h => rw [h.hdr]
  | quiet _ _ _ _ _ _ h => rw [h.hdr]
  | plain _ _ _ _ _ _ h => rw [h.hdr]
  | found k id rec r mt a i b hb hm hdr hil hi hmt hh =>
    rw [hh, set_other]
    rintro rfl
    exact hf ((instOk hr).inner id mt hm i (by rw [hil]; simp)).2.1
  | newInst id box rest mt he hcn hm hdr hmt hh =>
    rw [hh, set_other]
    have := (instOk hr).high h hf
    omega
  | dropped _ _ _ _ _ _ _ _ _ hh => rw [hh]
  | nobody _ _ _ _ _ _ _ _ _ hh => rw [hh]
  | mark _ _ _ _ _ _ hh => rw [hh]
  | refused _ _ _ _ _ hh => rw [hh]
  | drop _ _ _ hh => rw [hh]
  | insert _ _ hh => rw [hh]
  | deliver _ _ _ _ _ _ _ hh => rw [hh]

/-! ## C20 -/

/-- **C20, partial.** The state of an instance that `next*` has returned tells what happened to that very run:
COMPLETED – its body has returned, or it was a synchronous body on tokio and has panicked (so "ran to its end" is
not guaranteed in that case: `C20_fails_panic`); CANCELLED – somebody asked to cancel this run of this task; TIMEOUT – a task
with a time limit was handed in under this id, this run of it was started at a reading `ts`, and the sweeper
has read a clock value past `ts` plus the limit (if the limits are not so large that this sum overflows:
`C30_fails`). -/
theorem C20_partial {env : Env} {ls : List Label} {s : St} (h : run env (init env) ls = some s) {c : Nat} {i : Instance}
    (hi : i ∈ deliveredOn c s.log) :
    (s.hdrState i.hdr = COMPLETED → BodyOver env i.taskId i.recordId s.log) ∧
    (s.hdrState i.hdr = CANCELLED → ∃ l ∈ ls, CancelCall i.taskId i.recordId l) ∧
    (s.hdrState i.hdr = TIMEOUT → LimitsFit i.taskId ls s.log → ∃ t ∈ handed i.taskId ls, ∃ n ts m now,
      .started i.taskId t.routine i.recordId n ts ∈ s.log ∧ t.maximumRunningTime = some m ∧
      .sWake now ∈ ls ∧ ts + m ≤ now) := by
  have hr : Reachable env s := ⟨ls, h⟩
  rcases (instOk hr).truth i (Or.inr (Or.inl ⟨c, mem_deliveredOn.1 hi⟩)) with h1 | ⟨k, h1, h2⟩
  · rw [h1]
    exact ⟨(by intro hx; cases hx), (by intro hx; cases hx), (by intro hx; cases hx)⟩
  · have hq := dispatched_queued hr h2
    rw [h1]
    cases k
    · exact ⟨(by intro hx; cases hx), (fun _ => cause h hq), (by intro hx; cases hx)⟩
    · exact ⟨(by intro hx; cases hx), (by intro hx; cases hx), (fun _ hf => C30_due_partial h hf hq)⟩
    · exact ⟨(fun _ => cause h hq), (by intro hx; cases hx), (by intro hx; cases hx)⟩

/-- **C20, partial**: on smol, and for tasks all of whose bodies are asynchronous, COMPLETED means that the body has
returned. -/
theorem C20_completed_partial {env : Env} {ls : List Label} {s : St} (h : run env (init env) ls = some s) {c : Nat}
    {i : Instance} (hi : i ∈ deliveredOn c s.log) (hc : s.hdrState i.hdr = COMPLETED)
    (hk : env.runtime = .smol ∨ ∀ rtn n ts, .started i.taskId rtn i.recordId n ts ∈ s.log → env.kind rtn = .asyncFn) :
    .bodyEnded i.taskId i.recordId ∈ s.log := by
  rcases (C20_partial h hi).1 hc with h1 | ⟨_, ht, rtn, n, ts, h1, h2⟩
  · exact h1
  · rcases hk with hk | hk
    · rw [ht] at hk; cases hk
    · rw [hk _ _ _ h1] at h2; cases h2

/-! ## C21 -/

theorem sublist_within {l a b : List Int} (hn : l.Nodup) (ha : a.Sublist l) (hb : b.Sublist l) (hs : ∀ x ∈ a, x ∈ b) :
    a.Sublist b := by
  induction l generalizing a b with
  | nil => cases ha; exact List.nil_sublist _
  | cons y l ih =>
    rw [List.nodup_cons] at hn
    cases ha with
    | cons _ ha =>
      cases hb with
      | cons _ hb => exact ih hn.2 ha hb hs
      | cons_cons _ hb =>
        refine List.Sublist.cons _ (ih hn.2 ha hb fun x hx => ?_)
        rcases List.mem_cons.1 (hs x hx) with rfl | h
        · exact absurd (ha.subset hx) hn.1
        · exact h
    | cons_cons _ ha =>
      cases hb with
      | cons _ hb => exact absurd (hb.subset (hs y List.mem_cons_self)) hn.1
      | cons_cons _ hb =>
        refine List.Sublist.cons_cons _ (ih hn.2 ha hb fun x hx => ?_)
        rcases List.mem_cons.1 (hs x (List.mem_cons_of_mem _ hx)) with rfl | h
        · exact absurd (ha.subset hx) hn.1
        · exact h

theorem startedRecsOf_sublist (k : Nat) (log : List Obs) : (startedRecsOf k log).Sublist (startedRecs log) := by
  induction log with
  | nil => exact List.Sublist.refl _
  | cons o log ih =>
    cases o
    case started id rtn rec n ts =>
      simp only [startedRecsOf, startedRecs]
      split
      · exact List.Sublist.append ih (List.Sublist.refl _)
      · exact ih.trans (List.sublist_append_left _ _)
    all_goals simpa [startedRecsOf, startedRecs] using ih

theorem mem_startedRecsOf {k rtn n ts : Nat} {rec : Int} {log : List Obs} (h : .started k rtn rec n ts ∈ log) :
    rec ∈ startedRecsOf k log := by
  induction log with
  | nil => cases h
  | cons o log ih =>
    rcases List.mem_cons.1 h with rfl | h
    · simp [startedRecsOf]
    · have := ih h
      cases o
      case started => simp only [startedRecsOf]; split <;> simp [this]
      all_goals simpa [startedRecsOf] using this

/-- **C21.** The instances that `next*` has returned on a chain followed by those it would return next belong
to one task, the one inserted with the chain, and are in the order in which its runs were started, without
repetition. -/
theorem C21_order {env : Env} {s : St} (hr : Reachable env s) {id c : Nat} (hq : .insert id c ∈ queuedTags s.log) :
    (∀ i ∈ deliveredOn c s.log ++ s.chainQueue c, i.taskId = id) ∧
    ((deliveredOn c s.log ++ s.chainQueue c).map (·.recordId)).Sublist (startedRecsOf id s.log) ∧
    ((deliveredOn c s.log ++ s.chainQueue c).map (·.recordId)).Nodup := by
  have hc := chainOk hr
  have hid : ∀ i ∈ deliveredOn c s.log ++ s.chainQueue c, i.taskId = id := fun i hi =>
    insert_id hr (dispatched_queued hr (hc.own c i hi).1) hq
  have hn : (startedRecs s.log).Nodup := (recOk hr).sorted.imp fun h => h.1
  have hsub : ((deliveredOn c s.log ++ s.chainQueue c).map (·.recordId)).Sublist (startedRecs s.log) := by
    rw [(recOk hr).start, fifo hr]
    simp only [appendRecs_append, List.append_assoc]
    exact (hc.order c).trans (List.sublist_append_left _ _)
  refine ⟨hid, sublist_within hn hsub (startedRecsOf_sublist id s.log) ?_, hn.sublist hsub⟩
  · intro x hx
    obtain ⟨i, hi, rfl⟩ := List.mem_map.1 hx
    have h1 := dispatched_queued hr (hc.own c i hi).2
    obtain ⟨ls, hl⟩ := hr
    obtain ⟨rtn, n, ts, h2⟩ := cause hl h1
    rw [hid i hi] at h2
    exact mem_startedRecsOf h2

/-- **C21.** While the user holds the chain nothing is left out: what `next*` has returned followed by what
it would return next are exactly the runs registered while the chain belonged to its task. -/
theorem C21_complete {env : Env} {s : St} (hr : Reachable env s) {c : Nat} (hc : s.chainHeld c = true) :
    (deliveredOn c s.log ++ s.chainQueue c).map (·.recordId) = regsOn c s.log :=
  chainRuns hr hc

/-- **C21.** An instance put on a chain is RUNNING, and its state cell is no other instance's. -/
theorem C21_running {env : Env} {s s' : St} {l : Label} (hr : Reachable env s) (hs : step env s l = some s')
    {c : Nat} {i : Instance} (hi : i ∈ s'.chainQueue c) (hn : i ∉ s.chainQueue c) :
    s'.hdrState i.hdr = RUNNING ∧ ∀ c' j, j ∈ deliveredOn c' s.log ++ s.chainQueue c' → j.hdr ≠ i.hdr := by
  have hx := instStep hr (step_act hs)
  have hsame : s'.chainQueue = s.chainQueue → False := fun h => hn (by rw [← h]; exact hi)
  cases hx with
  | dull _ h => exact (hsame h.cq).elim
  | miss _ _ _ _ _ h => exact (hsame h.cq).elim
  | quiet _ _ _ _ _ _ h => exact (hsame h.cq).elim
  | dropped _ _ _ _ _ _ _ _ _ _ _ _ h => exact (hsame h).elim
  | found _ _ _ _ _ _ _ _ _ _ _ _ _ _ _ _ _ h => exact (hsame h).elim
  | plain _ _ _ _ _ _ h => exact (hsame h.cq).elim
  | nobody _ _ _ _ _ _ _ _ _ _ _ _ h => exact (hsame h).elim
  | mark _ _ _ _ _ _ _ _ _ h => exact (hsame h).elim
  | refused _ _ _ _ _ _ _ _ h => exact (hsame h).elim
  | drop _ _ _ _ _ _ h => exact (hsame h).elim
  | insert t hmt hh hn' hcs hq =>
    rw [hq, set_apply] at hi
    split at hi
    · cases hi
    · exact (hn hi).elim
  | deliver c' j rest hheld ha hqu hmt hh hn' hcs hq =>
    rw [hq, set_apply] at hi
    split at hi
    · rename_i h; subst h; rw [hqu] at hn; exact (hn (List.mem_cons_of_mem _ hi)).elim
    · exact (hn hi).elim
  | newInst id box rest mt he hcn hm hdr hmt hh hn' hcs hq hch hnc hl =>
    rw [hq, set_apply] at hi
    split at hi
    · rename_i h; subst h
      rcases List.mem_append.1 hi with hi | hi
      · exact (hn hi).elim
      · cases List.mem_singleton.1 hi
        refine ⟨by rw [hh, set_same], ?_⟩
        intro c' j hj
        have : Alive s j := by
          rcases List.mem_append.1 hj with hj | hj
          · exact Or.inr (Or.inl ⟨c', mem_deliveredOn.1 hj⟩)
          · exact Or.inl ⟨c', hj⟩
        have := (instOk hr).lt j this
        exact Nat.ne_of_lt this
    · exact (hn hi).elim

/-- **C21.** The state cells of different runs on a chain are different. -/
theorem C21_cells {env : Env} {s : St} (hr : Reachable env s) {c c' : Nat} {i j : Instance}
    (hi : i ∈ deliveredOn c s.log ++ s.chainQueue c) (hj : j ∈ deliveredOn c' s.log ++ s.chainQueue c')
    (he : i.hdr = j.hdr) : i = j := by
  have alive : ∀ {c i}, i ∈ deliveredOn c s.log ++ s.chainQueue c → Alive s i := by
    intro c i hj
    rcases List.mem_append.1 hj with hj | hj
    · exact Or.inr (Or.inl ⟨c, mem_deliveredOn.1 hj⟩)
    · exact Or.inl ⟨c, hj⟩
  exact (instOk hr).inj i j (alive hi) (alive hj) he

/-! ## C22 -/

/-- **C22.** From the moment on which the state of an instance is not RUNNING, no cancellation through it
goes through: the call is refused, without an effect, and no cancellation is performed. -/
theorem C22_refused {env : Env} {s s' : St} {ls : List Label} (hr : Reachable env s) {i : Instance}
    (hf : s.hdrState i.hdr ≠ RUNNING) (hl : run env s ls = some s') :
    cancelInstance s' i = none ∧ (∀ w, step env s' (.uCancel w i) = none) ∧
    ∀ w j, .uCancel w j ∈ ls → j.hdr ≠ i.hdr := by
  have key : ∀ ls s s', Reachable env s → s.hdrState i.hdr ≠ RUNNING → run env s ls = some s' →
      ∀ w j, .uCancel w j ∈ ls → j.hdr ≠ i.hdr := by
    intro ls
    induction ls with
    | nil => intro _ _ _ _ _ _ _ h; cases h
    | cons l ls ih =>
      intro s s' hr hf h w j hj
      simp only [run] at h
      split at h
      · rename_i s1 h1
        rcases List.mem_cons.1 hj with rfl | hj
        · intro he
          have ha := step_act h1
          cases ha with
          | ucancel _ _ _ hrun => rw [he] at hrun; exact hf hrun
        · have h2 : run env s [l] = some s1 := by simp only [run, h1]
          refine ih s1 s' (hr.step h1) ?_ h w j hj
          rw [C19_final hr hf h2]; exact hf
      · cases h
  have hf' : s'.hdrState i.hdr ≠ RUNNING := by rw [C19_final hr hf hl]; exact hf
  refine ⟨by simp [cancelInstance, hf'], ?_, key ls s s' hr hf hl⟩
  intro w
  simp only [step, uCancel, cancelInstance]
  split
  · simp [hf']
  · rfl

/-- **C22**, the converse: while the instance is RUNNING the request goes out, as the last event of the
channel. -/
theorem C22_sent {env : Env} {s : St} {w : Nat} {i : Instance} (hw : s.waiters w = .none)
    (hf : s.hdrState i.hdr = RUNNING) :
    ∃ s', step env s (.uCancel w i) = some s' ∧ s'.chan = s.chan ++ [.cancelTask i.taskId i.recordId] ∧
      s'.waiters w = .sent i.hdr := by
  simp [step, uCancel, cancelInstance, hw, hf, set_same]

/-! ## C23 -/

theorem Ending.waits {env : Env} {s : St} {k : EndKind} {id : Nat} {rec : Int} {r : Option Bool} {s' : St}
    (h : Ending env s k id rec r s') : (s'.waiters = s.waiters ∧ s'.hdrState = s.hdrState) ∨
    ∃ mt i, mts s id = some mt ∧ i ∈ mt.innerList ∧ s'.hdrState = set s.hdrState i.hdr k.state ∧
      s'.waiters = fun w => if s.waiters w = .listening i.hdr then .woken i.hdr else s.waiters w := by
  cases h
  case found l m mt a i b hq hf hm hd hl hi =>
    exact Or.inr ⟨mt, i, by rw [mts_eq hf, hm], by rw [hl]; simp, rfl, rfl⟩
  all_goals exact Or.inl ⟨rfl, rfl⟩

/-- What a step does to caller `w`, and to the state it waits for. -/
theorem waiters_step {env : Env} {s s' : St} {l : Label} (hr : Reachable env s) (ha : Act env s l s') (w : Nat) :
    (s'.waiters w = s.waiters w ∧ ∀ h, s.waiters w = .listening h → s'.hdrState h = s.hdrState h) ∨
    (∃ h, s.waiters w = .listening h ∧ s'.waiters w = .woken h ∧ s.hdrState h = RUNNING ∧ s'.hdrState h ≠ RUNNING) ∨
    (∃ h, s.waiters w = .sent h ∧ s'.waiters w = .listening h ∧ s'.hdrState = s.hdrState ∧ l = .uListen w) ∨
    (∃ i, s.waiters w = .none ∧ s'.waiters w = .sent i.hdr ∧ s.hdrState i.hdr = RUNNING ∧ l = .uCancel w i) ∨
    (∃ h, s.waiters w = .woken h ∧ s'.waiters w = .returned (s.hdrState h) ∧ l = .uReturn w) ∨
    (∃ h, s.waiters w = .listening h ∧ s'.waiters w = .timedOut ∧ l = .uGiveUp w) := by
  have hend : ∀ {k id rec r s2 rest}, Ending env { s with chan := rest } k id rec r s2 →
      s'.waiters = s2.waiters → s'.hdrState = s2.hdrState → (s'.waiters w = s.waiters w ∧ ∀ h, s.waiters w = .listening h → s'.hdrState h = s.hdrState h) ∨
    (∃ h, s.waiters w = .listening h ∧ s'.waiters w = .woken h ∧ s.hdrState h = RUNNING ∧ s'.hdrState h ≠ RUNNING) := by
    intro k id rec r s2 rest he h1 h2
    rw [h1, h2]
    rcases he.waits with ⟨h3, h4⟩ | ⟨mt, i, h3, h4, h5, h6⟩
    · rw [h3, h4]; exact Or.inl ⟨rfl, fun _ _ => rfl⟩
    · rw [h6, h5]
      by_cases hw : s.waiters w = .listening i.hdr
      · right
        refine ⟨i.hdr, hw, by simp only [hw, if_true], ((instOk hr).inner id mt h3 i h4).2.1, ?_⟩
        rw [set_same]; exact k.state_ne
      · left
        refine ⟨by simp only [hw, if_false], fun h hh => ?_⟩
        rw [set_other]
        intro he; subst he; exact hw hh
  have hset : ∀ {v : Nat} {x : Waiter} , v ≠ w → set s.waiters v x w = s.waiters w := by
    intro v x hv; rw [set_other _ _ _ (Ne.symm hv)]
  cases ha
  case recv_cancel id rec rest he hc =>
    rcases hend (Ending.of_cancel env _ id rec) rfl rfl with h | h
    · exact Or.inl h
    · exact Or.inr (Or.inl h)
  case recv_timeout id rec rest he hc =>
    rcases hend (Ending.of_timeout env _ id rec) rfl rfl with h | h
    · exact Or.inl h
    · exact Or.inr (Or.inl h)
  case recv_finish b rest he hc =>
    rcases hend (Ending.of_finish env _ _ _) rfl rfl with h | h
    · exact Or.inl h
    · exact Or.inr (Or.inl h)
  case recv_append id box rest he hc =>
    left
    refine ⟨by simp, fun h _ => ?_⟩
    have hs := instStep hr (Act.recv_append id box rest he hc)
    have hnr : s.hdrState s.nextHdr = RUNNING :=
      Classical.byContradiction fun hx => absurd ((instOk hr).high s.nextHdr hx) (by omega)
    have hx : (maintainTaskStatus { s with chan := rest } id box).hdrState = s.hdrState ∨
        (maintainTaskStatus { s with chan := rest } id box).hdrState = set s.hdrState s.nextHdr RUNNING := by
      simp only [maintainTaskStatus, registerInstance]
      (repeat' split) <;> simp
    simp only [done_hdrState]
    rcases hx with hx | hx <;> rw [hx]
    rw [← hnr, set_self]
  case ucancel v i hv hrun =>
    by_cases hw : v = w
    · subst hw
      exact Or.inr (Or.inr (Or.inr (Or.inl ⟨i, hv, by simp [set_same], hrun, rfl⟩)))
    · exact Or.inl ⟨hset hw, fun _ _ => rfl⟩
  case ulisten v h hv =>
    by_cases hw : v = w
    · subst hw
      exact Or.inr (Or.inr (Or.inl ⟨h, hv, by simp [set_same], rfl, rfl⟩))
    · exact Or.inl ⟨hset hw, fun _ _ => rfl⟩
  case ureturn v h hv =>
    by_cases hw : v = w
    · subst hw
      exact Or.inr (Or.inr (Or.inr (Or.inr (Or.inl ⟨h, hv, by simp [set_same], rfl⟩))))
    · exact Or.inl ⟨hset hw, fun _ _ => rfl⟩
  case ugiveup v h hv =>
    by_cases hw : v = w
    · subst hw
      exact Or.inr (Or.inr (Or.inr (Or.inr (Or.inr ⟨h, hv, by simp [set_same], rfl⟩))))
    · exact Or.inl ⟨hset hw, fun _ _ => rfl⟩
  all_goals first | exact Or.inl ⟨rfl, fun _ _ => rfl⟩ | exact Or.inl ⟨by simp, fun _ _ => by simp⟩

/-- **C23, partial**: a call of `cancel_with_wait` that has reached `listen` while the instance was still
RUNNING is woken when the instance ends; if it has returned, it has returned the final state of the instance
(or, for the variant with a time limit, an error because the limit was reached). What is missing is the time between the request
and `listen`: `C23_fails`. -/
theorem C23_woken_partial {env : Env} {s s' : St} {ls : List Label} (hr : Reachable env s) {w h : Nat}
    (hw : s.waiters w = .listening h) (hf : s.hdrState h = RUNNING) (hl : run env s ls = some s')
    (he : s'.hdrState h ≠ RUNNING) :
    s'.waiters w = .woken h ∨ s'.waiters w = .returned (s'.hdrState h) ∨ s'.waiters w = .timedOut ∧ .uGiveUp w ∈ ls := by
  suffices H : ∀ ls s s', Reachable env s →
      ((s.waiters w = .listening h ∧ s.hdrState h = RUNNING) ∨ (s.waiters w = .woken h ∧ s.hdrState h ≠ RUNNING) ∨
        (s.waiters w = .returned (s.hdrState h) ∧ s.hdrState h ≠ RUNNING)) →
      run env s ls = some s' →
      ((s'.waiters w = .listening h ∧ s'.hdrState h = RUNNING) ∨ (s'.waiters w = .woken h ∧ s'.hdrState h ≠ RUNNING) ∨
        (s'.waiters w = .returned (s'.hdrState h) ∧ s'.hdrState h ≠ RUNNING) ∨
        (s'.waiters w = .timedOut ∧ .uGiveUp w ∈ ls)) by
    rcases H ls s s' hr (Or.inl ⟨hw, hf⟩) hl with ⟨_, h1⟩ | ⟨h1, _⟩ | ⟨h1, _⟩ | h1
    · exact absurd h1 he
    · exact Or.inl h1
    · exact Or.inr (Or.inl h1)
    · exact Or.inr (Or.inr h1)
  have htimed : ∀ ls s s', Reachable env s → s.waiters w = .timedOut → run env s ls = some s' → s'.waiters w = .timedOut := by
    intro ls s s' hr h1 h2
    refine onward (fun x => x.waiters w = .timedOut) (fun _ => True) ?_ ls s s' hr (fun _ _ => trivial) h1 h2
    intro s l s' hr _ h1 _ ha
    rcases waiters_step hr ha w with ⟨h, _⟩ | ⟨_, h, _⟩ | ⟨_, h, _⟩ | ⟨_, h, _⟩ | ⟨_, h, _⟩ | ⟨_, h, _⟩
    · rw [h, h1]
    all_goals rw [h1] at h; cases h
  clear hw hf hl he hr s s' ls
  intro ls
  induction ls with
  | nil =>
    intro s s' hr h1 h2
    cases h2
    rcases h1 with h1 | h1 | h1
    · exact Or.inl h1
    · exact Or.inr (Or.inl h1)
    · exact Or.inr (Or.inr (Or.inl h1))
  | cons l ls ih =>
    intro s s' hr h1 h2
    simp only [run] at h2
    split at h2
    · rename_i s1 hs1
      have hone : run env s [l] = some s1 := by simp only [run, hs1]
      have lift : _ → _ := fun hx => ih s1 s' (hr.step hs1) hx h2
      have fin : ∀ P : Prop, ((s'.waiters w = .listening h ∧ s'.hdrState h = RUNNING) ∨ (s'.waiters w = .woken h ∧ s'.hdrState h ≠ RUNNING) ∨
        (s'.waiters w = .returned (s'.hdrState h) ∧ s'.hdrState h ≠ RUNNING) ∨
        (s'.waiters w = .timedOut ∧ .uGiveUp w ∈ ls)) → ((s'.waiters w = .listening h ∧ s'.hdrState h = RUNNING) ∨ (s'.waiters w = .woken h ∧ s'.hdrState h ≠ RUNNING) ∨
        (s'.waiters w = .returned (s'.hdrState h) ∧ s'.hdrState h ≠ RUNNING) ∨
        (s'.waiters w = .timedOut ∧ .uGiveUp w ∈ l :: ls)) := by
        intro _ hx
        rcases hx with hx | hx | hx | hx
        · exact Or.inl hx
        · exact Or.inr (Or.inl hx)
        · exact Or.inr (Or.inr (Or.inl hx))
        · exact Or.inr (Or.inr (Or.inr ⟨hx.1, List.mem_cons_of_mem _ hx.2⟩))
      have hst := waiters_step hr (step_act hs1) w
      rcases h1 with ⟨h1, h3⟩ | ⟨h1, h3⟩ | ⟨h1, h3⟩
      · rcases hst with ⟨h5, h6⟩ | ⟨h', h5, h6, h7, h8⟩ | ⟨_, h5, _⟩ | ⟨_, h5, _⟩ | ⟨_, h5, _⟩ | ⟨_, h5, h6, rfl⟩
        · exact fin True (lift (Or.inl ⟨by rw [h5, h1], by rw [h6 h h1, h3]⟩))
        · rw [h1] at h5; cases h5
          exact fin True (lift (Or.inr (Or.inl ⟨h6, h8⟩)))
        · rw [h1] at h5; cases h5
        · rw [h1] at h5; cases h5
        · rw [h1] at h5; cases h5
        · exact Or.inr (Or.inr (Or.inr ⟨htimed ls s1 s' (hr.step hs1) h6 h2, List.mem_cons_self⟩))
      · have hk := C19_final hr h3 hone
        rcases hst with ⟨h5, h6⟩ | ⟨h', h5, h6, h7, h8⟩ | ⟨_, h5, _⟩ | ⟨_, h5, _⟩ | ⟨_, h5, h6, _⟩ | ⟨_, h5, h6, rfl⟩
        · exact fin True (lift (Or.inr (Or.inl ⟨by rw [h5, h1], by rw [hk]; exact h3⟩)))
        · rw [h1] at h5; cases h5
        · rw [h1] at h5; cases h5
        · rw [h1] at h5; cases h5
        · rw [h1] at h5; cases h5
          exact fin True (lift (Or.inr (Or.inr ⟨by rw [h6, hk], by rw [hk]; exact h3⟩)))
        · rw [h1] at h5; cases h5
      · have hk := C19_final hr h3 hone
        rcases hst with ⟨h5, h6⟩ | ⟨h', h5, h6, h7, h8⟩ | ⟨_, h5, _⟩ | ⟨_, h5, _⟩ | ⟨_, h5, h6, _⟩ | ⟨_, h5, h6, rfl⟩
        · exact fin True (lift (Or.inr (Or.inr ⟨by rw [h5, h1, hk], by rw [hk]; exact h3⟩)))
        all_goals rw [h1] at h5; cases h5
    · cases h2

/-- **C23, partial**: a woken caller returns, whatever the other threads do in the meantime: the return is
enabled and yields the final state. -/
theorem C23_returns_partial {env : Env} {s : St} (hr : Reachable env s) {w h : Nat} (hw : s.waiters w = .woken h) :
    ∃ s', step env s (.uReturn w) = some s' ∧ s'.waiters w = .returned (s.hdrState h) ∧ s.hdrState h ≠ RUNNING := by
  refine ⟨{ s with waiters := set s.waiters w (.returned (s.hdrState h)) }, by simp [step, uReturn, hw], by simp [set_same], ?_⟩
  have H := Reachable.induct (env := env) (fun s => ∀ w h, s.waiters w = .woken h → s.hdrState h ≠ RUNNING) ?_ ?_ s hr
  · exact H w h hw
  · intro w h hx; cases hx
  · intro s l s' hr hs ha w h hx
    rcases waiters_step hr ha w with ⟨h5, h6⟩ | ⟨h', h5, h6, h7, h8⟩ | ⟨_, h5, h6, _⟩ | ⟨_, h5, h6, _⟩ | ⟨_, h5, h6, _⟩ | ⟨_, h5, h6, rfl⟩
    · rw [h5] at hx
      rw [final_step hr ha (hs w h hx)]; exact hs w h hx
    · rw [hx] at h6; cases h6; exact h8
    all_goals rw [hx] at h6; cases h6

/-- A caller that reaches `listen` after the instance has ended is not woken, ever. -/
theorem C23_stuck {env : Env} {s s' : St} {ls : List Label} (hr : Reachable env s) {w h : Nat}
    (hw : s.waiters w = .listening h) (hf : s.hdrState h ≠ RUNNING) (hl : run env s ls = some s')
    (hg : .uGiveUp w ∉ ls) : s'.waiters w = .listening h := by
  induction ls generalizing s with
  | nil => cases hl; exact hw
  | cons l ls ih =>
    simp only [run] at hl
    split at hl
    · rename_i s1 hs1
      have hone : run env s [l] = some s1 := by simp only [run, hs1]
      refine ih (hr.step hs1) ?_ (by rw [C19_final hr hf hone]; exact hf) hl (fun hx => hg (List.mem_cons_of_mem _ hx))
      rcases waiters_step hr (step_act hs1) w with ⟨h5, h6⟩ | ⟨h', h5, h6, h7, h8⟩ | ⟨_, h5, h6, _⟩ | ⟨_, h5, h6, _⟩ | ⟨_, h5, h6, _⟩ | ⟨_, h5, h6, rfl⟩
      · rw [h5, hw]
      · rw [hw] at h5; cases h5; exact absurd h7 hf
      · rw [hw] at h5; cases h5
      · rw [hw] at h5; cases h5
      · rw [hw] at h5; cases h5
      · exact absurd List.mem_cons_self hg
    · cases hl

/-! ## C24 -/

/-- **C24, partial**: a handle obtained from a chain that the user still holds and that belongs to the current
registration of the task is not RUNNING once its run was stopped or retired, from then on, whatever happens
to chain and task later. What is missing are runs that end after the task was removed or replaced, or after the chain was
dropped: `C24_fails_removed`, `C24_fails_dropped`. -/
theorem C24_reported_partial {env : Env} {s s' : St} {ls : List Label} (hr : Reachable env s) {c : Nat} {i : Instance}
    (hi : i ∈ deliveredOn c s.log) (hh : s.chainHeld c = true) (hc : chainOf i.taskId s.log = some c)
    (hs : .stopped i.taskId i.recordId ∈ s.log) (hl : run env s ls = some s') :
    s'.hdrState i.hdr ≠ RUNNING := by
  have h0 : s.hdrState i.hdr ≠ RUNNING := by
    obtain ⟨_, mt, h1, rfl⟩ := (chainOk hr).live i.taskId c hh hc
    rcases (chainOk hr).listed _ mt h1 i (List.mem_append_left _ hi) with h2 | h2
    · exact absurd hs ((instOk hr).inner _ mt h1 i h2).2.2.2
    · exact h2
  rw [C19_final hr h0 hl]; exact h0

/-- An instance not listed by any maintainer keeps its state. -/
theorem orphan_keeps {env : Env} {s s' : St} {ls : List Label} (hr : Reachable env s) {h : Nat}
    (hlt : h < s.nextHdr) (ho : ∀ id mt, mts s id = some mt → ∀ i ∈ mt.innerList, i.hdr ≠ h)
    (hl : run env s ls = some s') : s'.hdrState h = s.hdrState h := by
  have H := onward (env := env) (fun x => h < x.nextHdr ∧ (∀ id mt, mts x id = some mt → ∀ i ∈ mt.innerList, i.hdr ≠ h) ∧
    x.hdrState h = s.hdrState h) (fun _ => True) ?_ ls s s' hr (fun _ _ => trivial) ⟨hlt, ho, rfl⟩ hl
  · exact H.2.2
  rintro s1 l s2 hr1 _ ⟨h1, h2, h3⟩ _ ha
  have hi := instStep hr1 ha
  cases hi with
  | dull _ hx => exact ⟨by rw [hx.nh]; exact h1, fun id mt hm => h2 id mt (by rw [← hx.mts]; exact hm), by rw [hx.hdr, h3]⟩
  | miss _ _ _ _ _ hx => exact ⟨by rw [hx.nh]; exact h1, fun id mt hm => h2 id mt (by rw [← hx.mts]; exact hm), by rw [hx.hdr, h3]⟩
  | quiet _ _ _ _ _ _ hx => exact ⟨by rw [hx.nh]; exact h1, fun id mt hm => h2 id mt (by rw [← hx.mts]; exact hm), by rw [hx.hdr, h3]⟩
  | plain _ _ _ _ _ _ hx => exact ⟨by rw [hx.nh]; exact h1, fun id mt hm => h2 id mt (by rw [← hx.mts]; exact hm), by rw [hx.hdr, h3]⟩
  | found k id rec r mt a i b hb hm hdr hil hi hmt hh hn =>
    refine ⟨by rw [hn]; exact h1, ?_, ?_⟩
    · intro j mt' hm'
      rw [hmt] at hm'
      split at hm'
      · cases hm'
        intro x hx
        refine h2 id mt hm x ?_
        rw [hil]
        rcases List.mem_append.1 hx with hx | hx <;> simp [hx]
      · exact h2 j mt' hm'
    · rw [hh, set_other, h3]
      exact Ne.symm (h2 id mt hm i (by rw [hil]; simp))
  | newInst id box rest mt he hcn hm hdr hmt hh hn =>
    refine ⟨by rw [hn]; omega, ?_, ?_⟩
    · intro j mt' hm'
      rw [hmt] at hm'
      split at hm'
      · cases hm'
        intro x hx
        rcases List.mem_append.1 hx with hx | hx
        · exact h2 id mt hm x hx
        · cases List.mem_singleton.1 hx
          exact Nat.ne_of_gt h1
      · exact h2 j mt' hm'
    · rw [hh, set_other, h3]
      omega
  | dropped k id rec r mt hb hm hdr hmt hh hn =>
    refine ⟨by rw [hn]; exact h1, ?_, by rw [hh, h3]⟩
    intro j mt' hm'
    rw [hmt] at hm'
    split at hm'
    · cases hm'
    · exact h2 j mt' hm'
  | nobody id box rest mt he hc hm hdr hmt hh hn =>
    refine ⟨by rw [hn]; exact h1, ?_, by rw [hh, h3]⟩
    intro j mt' hm'
    rw [hmt] at hm'
    split at hm'
    · cases hm'
    · exact h2 j mt' hm'
  | mark id new tag r ht hmt hh hn =>
    refine ⟨by rw [hn]; exact h1, ?_, by rw [hh, h3]⟩
    intro j mt' hm'
    rw [hmt] at hm'
    split at hm'
    · rcases ht with ⟨_, rfl, _⟩ | ⟨m, he, rfl, rfl, _⟩
      · cases hm'
      · rcases add3Tag hr1 he with ⟨_, hx⟩ | ⟨c, _, hx⟩ <;> rw [hx] at hm' <;> cases hm'
        intro i hi; cases hi
    · exact h2 j mt' hm'
  | refused _ _ _ _ hmt hh hn => exact ⟨by rw [hn]; exact h1, fun id mt hm => h2 id mt (by rw [← hmt]; exact hm), by rw [hh, h3]⟩
  | drop _ _ hmt hh hn => exact ⟨by rw [hn]; exact h1, fun id mt hm => h2 id mt (by rw [← hmt]; exact hm), by rw [hh, h3]⟩
  | insert _ hmt hh hn => exact ⟨by rw [hn]; exact h1, fun id mt hm => h2 id mt (by rw [← hmt]; exact hm), by rw [hh, h3]⟩
  | deliver _ _ _ _ _ _ hmt hh hn => exact ⟨by rw [hn]; exact h1, fun id mt hm => h2 id mt (by rw [← hmt]; exact hm), by rw [hh, h3]⟩

/-- A handle that is still RUNNING although its run was stopped stays so for ever. -/
theorem C24_stuck {env : Env} {s s' : St} {ls : List Label} (hr : Reachable env s) {c : Nat} {i : Instance}
    (hi : i ∈ deliveredOn c s.log) (hs : .stopped i.taskId i.recordId ∈ s.log) (hf : s.hdrState i.hdr = RUNNING)
    (hl : run env s ls = some s') : s'.hdrState i.hdr = RUNNING := by
  have ha : Alive s i := Or.inr (Or.inl ⟨c, mem_deliveredOn.1 hi⟩)
  rw [orphan_keeps hr ((instOk hr).lt i ha) ?_ hl, hf]
  intro id mt hm j hj he
  have := (instOk hr).inj j i (Or.inr (Or.inr ⟨id, mt, hm, hj⟩)) ha he
  subst this
  obtain ⟨h1, _, _, h2⟩ := (instOk hr).inner id mt hm j hj
  rw [h1] at hs; exact h2 hs

/-! ## C25 -/

/-- What `next*` does when called: an instance, `Expired`, or nothing yet (it waits, or says "empty"). -/
def nextExpires (env : Env) (s : St) (c : Nat) : Prop :=
  step env s (.uNext c) = some { s with log := .expired c :: s.log }

/-- **C25.** For a chain the user holds: once its task has been removed or replaced, or could not be inserted,
`next*` returns `Expired`; while the request to insert the task is under way, and while the task is
registered, it does not: it returns the next instance, or nothing when there is none. -/
theorem C25_expires {env : Env} {s : St} (hr : Reachable env s) {id c : Nat} (hh : s.chainHeld c = true)
    (hq : .insert id c ∈ queuedTags s.log) :
    (.insert id c ∈ dispatchedTags s.log ∧ chainOf id s.log ≠ some c → nextExpires env s c) ∧
    (.insert id c ∉ dispatchedTags s.log ∨ chainOf id s.log = some c →
      (s.chainQueue c = [] → step env s (.uNext c) = none) ∧
      ∀ i rest, s.chainQueue c = i :: rest → ∃ s', step env s (.uNext c) = some s' ∧
        s'.log = .delivered c i :: s.log) := by
  have hc := chainOk hr
  constructor
  · rintro ⟨h1, h2⟩
    have hst : s.chainState c = ABANDONED := by
      obtain ⟨r, h3⟩ := mem_dispatchedTags.1 h1
      rcases hc.res id c r h3 with rfl | rfl
      · exact hc.fail id c hh h3
      · exact hc.gone id c hh h3 h2
    simp [nextExpires, step, uNext, hh, hst]
  · intro h
    have hst : s.chainState c = LIVING := by
      by_cases hd : .insert id c ∈ dispatchedTags s.log
      · rcases h with h | h
        · exact absurd hd h
        · exact (hc.live id c hh h).1
      · rw [fifo hr, List.append_assoc] at hq
        rcases List.mem_append.1 hq with h1 | h1
        · exact absurd h1 hd
        · exact hc.wait id c hh h1
    have hne : s.chainState c ≠ ABANDONED := by rw [hst]; decide
    constructor
    · intro hx; simp [step, uNext, hh, hne, hx]
    · intro i rest hx
      exact ⟨{ s with chainQueue := set s.chainQueue c rest, log := .delivered c i :: s.log },
        by simp only [step, uNext, hh, if_true, if_neg hne, hx], rfl⟩

/-- **C25.** A chain whose task was removed or replaced never comes back to life. -/
theorem C25_forever {env : Env} {s s' : St} {ls : List Label} (hr : Reachable env s) {id c : Nat}
    (hd : .insert id c ∈ dispatchedTags s.log) (hn : chainOf id s.log ≠ some c) (hl : run env s ls = some s')
    (hh : s'.chainHeld c = true) : nextExpires env s' c := by
  have H := onward (env := env) (fun x => .insert id c ∈ dispatchedTags x.log ∧ chainOf id x.log ≠ some c)
    (fun _ => True) ?_ ls s s' hr (fun _ _ => trivial) ⟨hd, hn⟩ hl
  · exact (C25_expires (hr.run hl) hh (dispatched_queued (hr.run hl) H.1)).1 H
  rintro s1 l s2 hr1 hr2 ⟨h1, h2⟩ _ ha
  have hd2 : .insert id c ∈ dispatchedTags s2.log := by
    obtain ⟨r, h3⟩ := mem_dispatchedTags.1 h1
    exact mem_dispatchedTags.2 ⟨r, log_mono ha h3⟩
  refine ⟨hd2, ?_⟩
  have same : chainOf id s2.log = chainOf id s1.log → chainOf id s2.log ≠ some c := fun h => by rw [h]; exact h2
  have hi := instStep hr1 ha
  cases hi with
  | dull _ hx news hl hdull => exact same (by rw [hl, dull_chainOf hdull])
  | miss k _ _ _ _ hx hl => exact same (by rw [hl, chainOf_end])
  | quiet k _ _ _ _ _ hx hl => exact same (by rw [hl, chainOf_end]; rfl)
  | plain _ _ _ _ _ _ hx hl => exact same (by rw [hl]; rfl)
  | found k i rec r mt a x b hb hm hdr hil hi hmt hh hn hcs hq hch hnc hl => exact same (by rw [hl, chainOf_end]; rfl)
  | newInst _ _ _ _ _ _ _ _ _ _ _ _ _ _ _ hl => exact same (by rw [hl]; rfl)
  | dropped _ _ _ _ _ _ _ _ _ _ _ _ _ _ _ hl => exact same (by rw [hl, chainOf_end]; rfl)
  | nobody _ _ _ _ _ _ _ _ _ _ _ _ _ _ _ hl => exact same (by rw [hl]; rfl)
  | refused _ _ _ _ _ _ _ _ _ _ _ hl => exact same (by rw [hl]; rfl)
  | drop _ _ _ _ _ _ _ _ _ hl => exact same (by rw [hl])
  | insert _ _ _ _ _ _ _ _ hl => exact same (by rw [hl]; rfl)
  | deliver _ _ _ _ _ _ _ _ _ _ _ _ _ hl => exact same (by rw [hl]; rfl)
  | mark j new tag r ht hmt hh hn hcs hq hch hnc hl =>
    rw [hl]
    rcases ht with ⟨rfl, _⟩ | ⟨m, he, hid, _, rfl⟩
    · simp only [chainOf]
      split
      · simp
      · exact h2
    · rcases add3Tag hr1 he with ⟨rfl, _⟩ | ⟨c', rfl, _⟩
      · simp only [chainOf]
        split
        · simp
        · exact h2
      · simp only [chainOf]
        split
        · rename_i hj
          intro hx; cases hx
          refine insert_pending hr1 (id' := m.taskId) h1 ?_
          rw [he]; simp [epcTags]
        · exact h2

/-! ### Concrete executions -/

namespace Ex

/-- Task 1 is inserted with chain 0 and runs; the run is registered and its instance taken from the chain. -/
def taken : List Label := ins (every 1 101 3) ++ idle ++ idle ++ fire 1 0 ++ [.eRecv, .uNext 0]

def inst0 : Instance := ⟨0, 1, 0⟩

example : Reachable env0 (play env0 taken) ∧ deliveredOn 0 (play env0 taken).log = [inst0] ∧
    (play env0 taken).hdrState 0 = RUNNING ∧ (play env0 taken).chainHeld 0 = true ∧
    chainOf 1 (play env0 taken).log = some 0 := ⟨play_reachable (by rfl), rfl, rfl, rfl, rfl⟩

/-- The instance is cancelled through its handle, with waiting. -/
def cancelled : List Label := taken ++ [.uCancel 7 inst0, .uListen 7, .eRecv]

/-- The instance completes. -/
def completed : List Label := taken ++ [.rBody 0, .rFinish 0 103, .eRecv]

/-- C19, C20, C22, C24: the instance in either case; the call of caller 7 is woken. -/
example : (play env0 cancelled).hdrState 0 = CANCELLED ∧ stateWrites 0 (play env0 cancelled).log = [(RUNNING, CANCELLED)] ∧
    (play env0 completed).hdrState 0 = COMPLETED ∧ stateWrites 0 (play env0 completed).log = [(RUNNING, COMPLETED)] ∧
    (play env0 cancelled).waiters 7 = .woken 0 ∧ .stopped 1 0 ∈ (play env0 cancelled).log ∧
    .stopped 1 0 ∈ (play env0 completed).log ∧ (play env0 (cancelled ++ [.uReturn 7])).waiters 7 = .returned CANCELLED :=
  ⟨rfl, rfl, rfl, rfl, rfl, by decide +kernel, by decide +kernel, rfl⟩

/-- C20, C23: hypotheses of `C20_partial` and `C23_woken_partial`. -/
example : run env0 (init env0) cancelled = some (play env0 cancelled) ∧ inst0 ∈ deliveredOn 0 (play env0 cancelled).log ∧
    (play env0 (taken ++ [.uCancel 7 inst0, .uListen 7])).waiters 7 = .listening 0 ∧
    (play env0 (taken ++ [.uCancel 7 inst0, .uListen 7])).hdrState 0 = RUNNING :=
  ⟨play_run (by rfl), by decide +kernel, rfl, rfl⟩

/-- C20: a TIMEOUT. -/
example :
    let s := play env0 (ins { every 1 101 3 with maximumRunningTime := some 1 } ++ idle ++ idle ++ fire 1 0 ++
      [.eRecv, .uNext 0, .sAdd, .sWake 103, .sPop ⟨103, 1, 0⟩, .eRecv])
    s.hdrState 0 = TIMEOUT ∧ deliveredOn 0 s.log = [inst0] := ⟨rfl, rfl⟩

/-- Like `env0`, all bodies synchronous. -/
def envSync : Env := { env0 with kind := fun _ => .syncFn }

/-- **C20 fails** for synchronous bodies on tokio: the body of the run has panicked, and the instance says COMPLETED. -/
theorem C20_fails_panic : envSync.runtime = .tokio ∧ ∃ s, Reachable envSync s ∧ inst0 ∈ deliveredOn 0 s.log ∧
    s.hdrState inst0.hdr = COMPLETED ∧ .bodyPanicked 1 0 ∈ s.log ∧ .bodyEnded 1 0 ∉ s.log :=
  ⟨rfl, play envSync (taken ++ [.rPanic 0, .rFinish 0 103, .eRecv]), play_reachable (by rfl), by decide +kernel, rfl,
    by decide +kernel, by decide +kernel⟩

/-- C20: hypotheses of `C20_completed_partial`. -/
example : run env0 (init env0) completed = some (play env0 completed) ∧ inst0 ∈ deliveredOn 0 (play env0 completed).log ∧
    (play env0 completed).hdrState inst0.hdr = COMPLETED ∧ env0.kind 1 = .asyncFn :=
  ⟨play_run (by rfl), by decide +kernel, rfl, rfl⟩

/-- C21: two runs, the first one delivered, the second one still on the chain; a third one is under way. -/
example :
    let s := play env0 (taken ++ idle ++ idle ++ fire 1 1 ++ [.eRecv] ++ idle ++ idle ++ fire 1 2)
    deliveredOn 0 s.log = [inst0] ∧ s.chainQueue 0 = [⟨1, 1, 1⟩] ∧ startedRecsOf 1 s.log = [0, 1, 2] ∧
      regsOn 0 s.log = [0, 1] ∧ .insert 1 0 ∈ queuedTags s.log := ⟨rfl, rfl, rfl, rfl, by decide +kernel⟩

/-- **C23 fails.** Caller 7 asks for the cancellation; the event thread cancels the run before the caller gets to
`listen`. The instance is CANCELLED, and the call never returns. -/
theorem C23_fails : ∃ s, Reachable env0 s ∧ s.waiters 7 = .listening 0 ∧ s.hdrState 0 = CANCELLED ∧
    deliveredOn 0 s.log = [inst0] ∧ .stopped 1 0 ∈ s.log ∧
    ∀ ls s', run env0 s ls = some s' → .uGiveUp 7 ∉ ls → s'.waiters 7 = .listening 0 := by
  have hr : Reachable env0 (play env0 (taken ++ [.uCancel 7 inst0, .eRecv, .uListen 7])) := play_reachable (by rfl)
  refine ⟨_, hr, rfl, rfl, rfl, by decide +kernel, ?_⟩
  intro ls s' hl hg
  exact C23_stuck hr rfl (by decide +kernel) hl hg

/-- **C24 fails** for a run that ends after its task was removed: the run of the instance has completed and was retired,
the user still holds the chain, and the handle says RUNNING for ever. -/
theorem C24_fails_removed : ∃ s, Reachable env0 s ∧ deliveredOn 0 s.log = [inst0] ∧ s.chainHeld 0 = true ∧
    .bodyEnded 1 0 ∈ s.log ∧ .stopped 1 0 ∈ s.log ∧
    ∀ ls s', run env0 s ls = some s' → s'.hdrState inst0.hdr = RUNNING := by
  have hr : Reachable env0 (play env0 (taken ++ [.uSend (.remove 1), .eRecv, .eNext, .rBody 0, .rFinish 0 103, .eRecv])) :=
    play_reachable (by rfl)
  refine ⟨_, hr, rfl, rfl, by decide +kernel, by decide +kernel, ?_⟩
  intro ls s' hl
  exact C24_stuck (i := inst0) (c := 0) hr (by decide +kernel) (by decide +kernel) rfl hl

/-- **C24 fails** for a run that is cancelled after the chain was dropped, though the task is still known. -/
theorem C24_fails_dropped : ∃ s, Reachable env0 s ∧ deliveredOn 0 s.log = [inst0] ∧
    (s.flags 1).isSome ∧ .stopped 1 0 ∈ s.log ∧
    ∀ ls s', run env0 s ls = some s' → s'.hdrState inst0.hdr = RUNNING := by
  have hr : Reachable env0 (play env0 (taken ++ [.uDropChain 0, .uSend (.cancel 1 0), .eRecv])) :=
    play_reachable (by rfl)
  refine ⟨_, hr, rfl, rfl, by decide +kernel, ?_⟩
  intro ls s' hl
  exact C24_stuck (i := inst0) (c := 0) hr (by decide +kernel) (by decide +kernel) rfl hl

/-- C25: after removal the chain is expired, before it the instance was delivered. -/
example :
    let s := play env0 (taken ++ [.uSend (.remove 1), .eRecv, .eNext])
    s.chainHeld 0 = true ∧ .insert 1 0 ∈ dispatchedTags s.log ∧ chainOf 1 s.log = none ∧
      (play env0 (taken ++ [.uSend (.remove 1), .eRecv, .eNext, .uNext 0])).log.head? = some (.expired 0) :=
  ⟨rfl, by decide +kernel, rfl, rfl⟩

end Ex

end DelayTimer
