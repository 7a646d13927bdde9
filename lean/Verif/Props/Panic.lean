import Verif.Proofs.Panic
import Verif.Props.Parallel
import Verif.Props.Sweep
import Verif.Props.Instances

/-! Bodies that panic: C45. -/

namespace DelayTimer
open Spec

/-- The routine of the run `rec` of `id` is known from its start. -/
def RunsAs (id : Nat) (rec : Int) (rtn : Nat) (log : List Obs) : Prop := ∃ n ts, .started id rtn rec n ts ∈ log

/-- A body that panics takes the future of its run along. -/
def TakesAlong (env : Env) (rtn : Nat) : Prop := env.kind rtn = .asyncFn ∨ env.runtime = .smol

theorem takesAlong_iff {env : Env} {rtn : Nat} :
    TakesAlong env rtn ↔ survivesPanic (env.kind rtn) env.runtime = false := by
  unfold TakesAlong
  cases env.kind rtn <;> cases env.runtime <;> simp [survivesPanic]

/-! ## What is reported -/

theorem ended_of_finish {env : Env} {s : St} {id : Nat} {rec : Int} (hr : Reachable env s)
    (h : .finish id rec ∈ dispatchedTags s.log) : RunEnded id rec s.log := by
  obtain ⟨r, h⟩ := mem_dispatchedTags.1 h
  obtain ⟨l1, l2, hl⟩ := List.append_of_mem h
  refine ⟨l1, l2, _, r, hl, by simp [endTags], ?_⟩
  have h1 := fifo hr
  unfold Fifo at h1
  have h2 : dispatchedTags s.log = dispatchedTags l2 ++ .finish id rec :: dispatchedTags l1 := by
    rw [hl, dispatchedTags_append]; simp [dispatchedTags]
  rw [h2] at h1
  simp only [List.append_assoc, List.cons_append] at h1
  exact finAfter hr _ _ id rec h1

/-- In every state in which the future of a run has got past its body, the scheduler, the future and the event thread
can go on until the run has ended in the timer's books. -/
theorem can_end {env : Env} {s : St} {rec : Int} {r : RtInst} (hr : Reachable env s) (hadd : AddsOk env s)
    (hc : ¬ Crashed env s) (h : s.rt rec = some r) (hb : r.bodyDone = true) :
    ∃ ls s', (∀ l ∈ ls, l ∈ [Label.tAppend, .tGate, .rFinish rec 0, .eRecv, .eNext]) ∧ run env s ls = some s' ∧
      RunEnded r.taskId rec s'.log := by
  -- the events already sent are processed
  have drain : ∀ x, Reachable env x → AddsOk env x → .finish r.taskId rec ∈ queuedTags x.log →
      ∃ ls s', (∀ l ∈ ls, l ∈ [Label.tAppend, .tGate, .rFinish rec 0, .eRecv, .eNext]) ∧ run env x ls = some s' ∧
        RunEnded r.taskId rec s'.log := by
    intro x hx ha hq
    obtain ⟨ls, s', h1, h2, h3⟩ := drains hx ha
    refine ⟨ls, s', fun l hl => ?_, h2, ended_of_finish (hx.run h2) (by rw [h3]; exact hq)⟩
    rcases h1 l hl with rfl | rfl <;> simp
  -- the future sends its event
  have send : ∀ x q, Reachable env x → AddsOk env x → x.rt rec = some q → q.taskId = r.taskId → q.bodyDone = true → q.gate = true →
      ∃ ls s', (∀ l ∈ ls, l ∈ [Label.tAppend, .tGate, .rFinish rec 0, .eRecv, .eNext]) ∧ run env x ls = some s' ∧
        RunEnded r.taskId rec s'.log := by
    intro x q hx ha hq hi hd hg
    cases hf : q.finishSent with
    | true => exact drain x hx ha (mem_queuedTags.2 (by rw [← hi]; exact ((runLog hx).sent _ _ hq hf).1))
    | false =>
      have h1 : step env x (.rFinish rec 0) = some
          { push x (.finishTask { taskId := q.taskId, recordId := rec, finishTime := 0 }) with
            rt := setI x.rt rec (some { q with finishSent := true }) } := by
        simp [step, rFinish, hq, hd, hg, hf]
      obtain ⟨ls, s', h2, h3, h4⟩ := drain _ (hx.step h1) (adds_step ha rfl (step_act h1)) (by simp [push, queuedTags, TimerEvent.tag, hi])
      refine ⟨.rFinish rec 0 :: ls, s', ?_, ?_, h4⟩
      · intro l hl
        rcases List.mem_cons.1 hl with rfl | hl
        · simp
        · exact h2 l hl
      · simp only [run, h1]; exact h3
  -- the scheduler opens the gate
  have opens : ∀ x q p t, Reachable env x → AddsOk env x → x.rt rec = some q → q.taskId = r.taskId → q.bodyDone = true →
      x.tpc = .gate p t rec →
      ∃ ls s', (∀ l ∈ ls, l ∈ [Label.tAppend, .tGate, .rFinish rec 0, .eRecv, .eNext]) ∧ run env x ls = some s' ∧
        RunEnded r.taskId rec s'.log := by
    intro x q p t hx ha hq hi hd hp
    have h1 : ∃ x', step env x .tGate = some x' ∧ x'.rt = setI x.rt rec ((x.rt rec).map (fun r => { r with gate := true })) := by
      simp only [step, tGate, hp]
      split <;> exact ⟨_, rfl, rfl⟩
    obtain ⟨x', h1, h2⟩ := h1
    have h3 : x'.rt rec = some { q with gate := true } := by rw [h2, setI_same, hq]; rfl
    obtain ⟨ls, s', h4, h5, h6⟩ := send x' _ (hx.step h1) (adds_step ha rfl (step_act h1)) h3 hi hd rfl
    refine ⟨.tGate :: ls, s', ?_, ?_, h6⟩
    · intro l hl
      rcases List.mem_cons.1 hl with rfl | hl
      · simp
      · exact h4 l hl
    · simp only [run, h1]; exact h5
  cases hg : r.gate with
  | true => exact send s r hr hadd h rfl hb hg
  | false =>
    rcases gates hr rec r h hg with ⟨p, t, box, hp, rfl⟩ | ⟨p, t, hp⟩
    · have h1 : step env s .tAppend = some
          { push s (.appendTaskHandle t.taskId box) with tpc := .gate p t box.recordId } := by
        simp [step, tAppend, hp, limit_ok hc hp]
      obtain ⟨ls, s', h4, h5, h6⟩ := opens _ r p t (hr.step h1) (adds_step hadd rfl (step_act h1)) h rfl hb rfl
      refine ⟨.tAppend :: ls, s', ?_, ?_, h6⟩
      · intro l hl
        rcases List.mem_cons.1 hl with rfl | hl
        · simp
        · exact h4 l hl
      · simp only [run, h1]; exact h5
    · exact opens s r p t hr hadd h rfl hb hp

/-- **C45, partial**: synchronous bodies on tokio. If the body of a run panics, then whatever state the timer is in
(unless the scheduler thread or the event thread is gone),
the run can end in its books: the event that reports its completion gets sent and processed without any further
action of a user. -/
theorem C45_partial {env : Env} {pre : List Label} {s : St} {id rtn : Nat} {rec : Int}
    (hrun : run env (init env) pre = some s) (hadd : Addable env pre)
    (hp : .bodyPanicked id rec ∈ s.log) (hs : RunsAs id rec rtn s.log) (hk : env.kind rtn = .syncFn)
    (ht : env.runtime = .tokio) (hc : ¬ Crashed env s) :
    ∃ ls s', (∀ l ∈ ls, l ∈ [Label.tAppend, .tGate, .rFinish rec 0, .eRecv, .eNext]) ∧ run env s ls = some s' ∧
      RunEnded id rec s'.log := by
  have hr : Reachable env s := ⟨_, hrun⟩
  obtain ⟨n, ts, hs⟩ := hs
  obtain ⟨r, h1, rfl, rfl⟩ := (runLog hr).started _ _ _ _ _ hs
  obtain ⟨r', h2, _, h3⟩ := (runLog hr).panicked _ _ hp
  rw [h1] at h2; cases h2
  rw [hk, ht] at h3
  exact can_end hr (adds_of_added hrun hadd) hc h1 h3

/-- **C45, partial**: a body that returns is reported for every kind and runtime, unless the scheduler thread or
the event thread is gone. -/
theorem C45_returns_partial {env : Env} {pre : List Label} {s : St} {id : Nat} {rec : Int}
    (hrun : run env (init env) pre = some s) (hadd : Addable env pre)
    (hp : .bodyEnded id rec ∈ s.log) (hc : ¬ Crashed env s) :
    ∃ ls s', (∀ l ∈ ls, l ∈ [Label.tAppend, .tGate, .rFinish rec 0, .eRecv, .eNext]) ∧ run env s ls = some s' ∧
      RunEnded id rec s'.log := by
  have hr : Reachable env s := ⟨_, hrun⟩
  obtain ⟨r, h1, rfl, h2⟩ := (runLog hr).ended _ _ hp
  exact can_end hr (adds_of_added hrun hadd) hc h1 h2

/-! ## What is not reported -/

/-- If an asynchronous body panics, or any body on smol, the completion of its run is never reported. -/
theorem C45_unreported {env : Env} {s : St} {id rtn : Nat} {rec : Int} (hr : Reachable env s)
    (hp : .bodyPanicked id rec ∈ s.log) (hs : RunsAs id rec rtn s.log) (hk : TakesAlong env rtn) :
    .finish id rec ∉ queuedTags s.log := by
  intro hq
  obtain ⟨n, ts, hs⟩ := hs
  obtain ⟨r, h1, rfl, rfl⟩ := (runLog hr).started _ _ _ _ _ hs
  obtain ⟨r', h2, _, h3⟩ := (runLog hr).panicked _ _ hp
  rw [h1] at h2; cases h2
  rw [takesAlong_iff.1 hk] at h3
  obtain ⟨r', h2, _, h4⟩ := (runLog hr).reported _ _ (mem_queuedTags.1 hq)
  rw [h1] at h2; cases h2
  have h5 := ((runLog hr).sent _ _ h1 h4).2
  rw [(runLog hr).gone _ _ h1 (by simpa using h3)] at h5
  cases h5

/-- Such a run goes on for ever in the timer's books, unless somebody cancels it or it has a time limit. -/
theorem C45_never_ends {env : Env} {ls : List Label} {s : St} {id rtn : Nat} {rec : Int}
    (h : run env (init env) ls = some s) (hp : .bodyPanicked id rec ∈ s.log) (hs : RunsAs id rec rtn s.log)
    (hk : TakesAlong env rtn) (hc : ∀ l ∈ ls, ¬ CancelCall id rec l) (ht : ∀ t ∈ handed id ls, t.maximumRunningTime = none) :
    Ongoing id rec s.log := by
  have hr : Reachable env s := ⟨ls, h⟩
  refine ⟨startedRecsOf_iff.2 ?_, ?_⟩
  · obtain ⟨n, ts, hs⟩ := hs
    exact ⟨_, _, _, hs⟩
  rintro ⟨l1, l2, tag, r, h1, h2, _⟩
  have hq : tag ∈ queuedTags s.log :=
    dispatched_queued hr (mem_dispatchedTags.2 ⟨r, by rw [h1]; simp⟩)
  simp only [endTags, List.mem_cons, List.not_mem_nil, or_false] at h2
  rcases h2 with rfl | rfl | rfl
  · obtain ⟨l, h3, h4⟩ := cause h hq
    exact hc l h3 h4
  · obtain ⟨t, h3, _, _, _, _, _, h4, _⟩ := timeout_due h hq
    rw [ht t h3] at h4; cases h4
  · exact C45_unreported hr hp hs hk hq

/-- A run that has just been started has not ended. -/
theorem fresh_ongoing {env : Env} {s s' : St} {k : Nat} {p : List Nat} {t : Task} {rec : Int} (hr : Reachable env s)
    (hp : s.tpc = .spawn p t rec)
    (hl : s'.log = .started k t.routine rec s.ticks (env.clock s.ticks) :: s.log) :
    rec ∉ startedRecsOf k s.log ∧ Ongoing k rec s'.log := by
  have hfr : ∀ id rtn n ts, .started id rtn rec n ts ∉ s.log := by
    intro id rtn n ts ho
    exact ((recOk hr).fresh p t rec hp |>.2 rec (mem_startedRecs.2 ⟨_, _, _, _, ho⟩)).1 rfl
  refine ⟨fun h => ?_, startedRecsOf_iff.2 ⟨_, _, _, by rw [hl]; exact List.mem_cons_self⟩, ?_⟩
  · obtain ⟨_, _, _, h⟩ := startedRecsOf_iff.1 h
    exact hfr _ _ _ _ h
  · rintro ⟨l1, l2, tag, r, h1, _, h2⟩
    have h3 : .append k rec ∈ dispatchedTags s'.log := by
      rw [h1, dispatchedTags_append]
      cases tag <;> simp [dispatchedTags, h2]
    rw [hl] at h3
    have h4 := dispatched_queued hr h3
    have h5 : rec ∈ startedRecs s.log := by
      rw [(recOk hr).start]
      exact List.mem_append_left _ (List.mem_filterMap.2 ⟨_, h4, rfl⟩)
    obtain ⟨_, _, _, _, h6⟩ := mem_startedRecs.1 h5
    exact hfr _ _ _ _ h6

theorem runsAs_run {env : Env} {ls : List Label} {s s' : St} {id rtn : Nat} {rec : Int} (h : run env s ls = some s')
    (hs : RunsAs id rec rtn s.log) : RunsAs id rec rtn s'.log := by
  obtain ⟨n, ts, hs⟩ := hs
  exact ⟨n, ts, log_mono_run h hs⟩

theorem starts_recs {env : Env} {s : St} {l : Label} {s' : St} (k : Nat) (h : Act env s l s') :
    startedRecsOf k s'.log = startedRecsOf k s.log ∨
    ∃ p t rec, s.tpc = .spawn p t rec ∧ s'.log = .started k t.routine rec s.ticks (env.clock s.ticks) :: s.log := by
  rcases log_cases h with ⟨n, hn, hmi, _⟩ | ⟨p, t, rec, _, _, hp, _, _, hn, _⟩ | ⟨_, _, hn, _⟩ | ⟨_, _, _, _, _, _, hn⟩ | ⟨_, _, _, _, hn, _⟩
  · rw [hn]; left
    clear hn
    induction n with
    | nil => rfl
    | cons o n ih =>
      have h1 := hmi o List.mem_cons_self
      cases o <;> first | exact h1.elim | exact ih (fun o ho => hmi o (List.mem_cons_of_mem _ ho))
  · by_cases hk : t.taskId = k
    · subst hk; exact Or.inr ⟨p, t, rec, hp, hn⟩
    · left; rw [hn]; simp [startedRecsOf, hk]
  · left; rw [hn]; rfl
  · left; rw [hn]; rfl
  · left; rw [hn]; rfl

/-- **C45 fails** in its effect: a task with a parallel limit of `m`, handed in once, `m` of whose bodies have panicked in
one of these ways and which has no time limit, is never started again, unless one of those runs is cancelled. -/
theorem C45_blocks {env : Env} {k m : Nat} {t : Task} {ls ls' : List Label} {s s' : St} {rs : List Int}
    (h : run env (init env) ls = some s) (h' : run env s ls' = some s') (ho : OnlyOnce k t (ls ++ ls'))
    (hm : t.maximumParallelRunnableNum = some m) (hx' : t.maximumRunningTime = none)
    (hn : rs.Nodup) (hlen : rs.length = m)
    (hp : ∀ rec ∈ rs, .bodyPanicked k rec ∈ s.log ∧ ∃ rtn, RunsAs k rec rtn s.log ∧ TakesAlong env rtn)
    (hc : ∀ l ∈ ls ++ ls', ∀ rec ∈ rs, ¬ CancelCall k rec l) :
    startedRecsOf k s'.log = startedRecsOf k s.log := by
  obtain ⟨hf, hw⟩ := once_states (env := env) ho hm
  have hh := once_handed ho
  have hsub : ∀ a b, ls ++ ls' = a ++ b → ∀ u ∈ handed k a, u = t := by
    intro a b he u hu
    have : u ∈ handed k (ls ++ ls') := by
      rw [he]; simp only [handed, List.flatMap_append, List.mem_append]; exact Or.inl hu
    rw [hh] at this
    simpa using this
  have most : ∀ a b x, ls ++ ls' = a ++ b → run env (init env) a = some x → AtMostOngoing k m x.log := by
    intro a b x he hx
    refine C27_partial hx (fun u hu => by rw [hsub a b he u hu]; exact hm) ?_ ?_
    · intro l1 l l2 y e hy
      exact hw l1 l (l2 ++ b) y (by rw [he, e]; simp) hy
    · intro l1 l2 y e hy
      exact hf l1 (l2 ++ b) y (by rw [he, e]; simp) hy
  have main : ∀ b a x, ls' = a ++ b → run env s a = some x → run env x b = some s' →
      startedRecsOf k s'.log = startedRecsOf k x.log := by
    intro b
    induction b with
    | nil => intro a x _ _ hx; cases hx; rfl
    | cons l b ih =>
      intro a x he hx hb
      simp only [run] at hb
      cases hy : step env x l with
      | none => rw [hy] at hb; cases hb
      | some y =>
        rw [hy] at hb
        have hxy : run env s (a ++ [l]) = some y := by rw [run_append, hx]; simp [run, hy]
        rw [ih (a ++ [l]) y (by rw [he]; simp) hxy hb]
        have hrx : run env (init env) (ls ++ a) = some x := by rw [run_append, h]; exact hx
        have hry : run env (init env) (ls ++ (a ++ [l])) = some y := by rw [run_append, h]; exact hxy
        have hsplit : ls ++ ls' = (ls ++ (a ++ [l])) ++ b := by rw [he]; simp
        rcases starts_recs k (step_act hy) with h1 | ⟨p, u, rec, h1, h2⟩
        · exact h1
        · exfalso
          obtain ⟨h3, h4⟩ := fresh_ongoing ⟨_, hrx⟩ h1 h2
          have h5 := most _ _ y hsplit hry (rec :: rs) ?_ ?_
          · simp only [List.length_cons] at h5; omega
          · refine List.nodup_cons.2 ⟨fun hmem => h3 ?_, hn⟩
            obtain ⟨_, rtn, ⟨n, ts, h6⟩, _⟩ := hp rec hmem
            exact startedRecsOf_iff.2 ⟨_, _, _, log_mono_run hx h6⟩
          · intro r hr
            rcases List.mem_cons.1 hr with rfl | hr
            · exact h4
            · obtain ⟨h6, rtn, h7, h8⟩ := hp r hr
              refine C45_never_ends hry (log_mono_run hxy h6) (runsAs_run hxy h7) h8 ?_ ?_
              · intro l' hl'
                exact hc l' (by rw [hsplit]; exact List.mem_append_left _ hl') r hr
              · intro u hu
                rw [hsub _ _ hsplit u hu]; exact hx'
  exact main ls' [] s rfl rfl h'

/-! ## Examples and counterexamples -/

namespace Ex

/-- Task 1, at most one run at a time, is added and runs; its body panics before the scheduler has told the event thread
about the run. -/
def broken : List Label :=
  add (upTo 1 (every 1 101 3)) ++ idles 2 ++ take 1 ++ [.tCheck 0, .tSpawn false, .rPanic 0]

/-- `C45_partial`: its hypotheses are met, in a state in which the run is not even registered. -/
example : Reachable envSync (play envSync broken) ∧ .bodyPanicked 1 0 ∈ (play envSync broken).log ∧
    RunsAs 1 0 1 (play envSync broken).log ∧ envSync.kind 1 = .syncFn ∧ envSync.runtime = .tokio ∧
    queuedTags (play envSync broken).log = [.add 1] :=
  ⟨play_reachable (by decide +kernel), by decide +kernel, ⟨2, 102, by decide +kernel⟩, rfl, rfl, by decide +kernel⟩

/-- `C45_returns_partial`: its hypotheses are met. -/
example : Reachable env0 (play env0 (broken.dropLast ++ [.rBody 0])) ∧
    .bodyEnded 1 0 ∈ (play env0 (broken.dropLast ++ [.rBody 0])).log :=
  ⟨play_reachable (by decide +kernel), by decide +kernel⟩

/-- The same with an asynchronous body: the registration goes its way, the next alarms are skipped. -/
def stuck : List Label :=
  [.tAppend, .tGate, .tSlot, .tMark, .tLapse, .eRecv] ++ idles 2 ++ skip 1 1 ++ idles 2 ++ skip 1 2

def envSmol : Env := { envSync with runtime := .smol }

def noCancel : Label → Bool
  | .uSend (.cancel _ _) => false
  | .uCancel _ _ => false
  | _ => true

theorem noCancel_of {k : Nat} {rec : Int} (l : Label) (h : noCancel l = true) : ¬ CancelCall k rec l := by
  intro hc
  cases l
  case uSend op => cases op <;> first | exact hc | cases h
  case uCancel w i => cases h
  all_goals exact hc

theorem broken_once (ls : List Label) (h : ∀ l ∈ ls, ¬ Brings 1 l) :
    OnlyOnce 1 (upTo 1 (every 1 101 3)) (broken ++ ls) := by
  refine ⟨rfl, [], .uSend (.add (upTo 1 (every 1 101 3))), broken.drop 1 ++ ls, rfl, Or.inl rfl, by simp, ?_⟩
  intro l hl
  rcases List.mem_append.1 hl with hl | hl
  · exact (tame_of (List.all_eq_true.1 (by decide) l hl)).1
  · exact h l hl

/-- `C45_unreported`, `C45_never_ends`, `C45_blocks`: their hypotheses are met. -/
example : run env0 (init env0) broken = some (play env0 broken) ∧ (run env0 (play env0 broken) stuck).isSome = true ∧
    OnlyOnce 1 (upTo 1 (every 1 101 3)) (broken ++ stuck) ∧ .bodyPanicked 1 0 ∈ (play env0 broken).log ∧
    RunsAs 1 0 1 (play env0 broken).log ∧ TakesAlong env0 1 ∧ (∀ l ∈ broken ++ stuck, ¬ CancelCall 1 0 l) ∧
    (upTo 1 (every 1 101 3)).maximumRunningTime = none ∧ attempts 1 (play env0 (broken ++ stuck)).log = [2, 5, 8] ∧
    startTicks 1 (play env0 (broken ++ stuck)).log = [2] := by
  refine ⟨play_run (by decide +kernel), by decide +kernel, broken_once _ fun l hl => ?_, by decide +kernel,
    ⟨2, 102, by decide +kernel⟩, Or.inl rfl, ?_, rfl, by decide +kernel, by decide +kernel⟩
  · exact (tame_of (List.all_eq_true.1 (by decide) l hl)).1
  · exact fun l hl => noCancel_of l (List.all_eq_true.1 (by decide) l hl)

end Ex

open Ex

/-- C45 in full, as far as the books are concerned. -/
def C45_statement : Prop :=
  ∀ (env : Env) (s : St) (id : Nat) (rec : Int), Reachable env s → .bodyPanicked id rec ∈ s.log →
    ∃ ls s', (∀ l ∈ ls, l ∈ [Label.tAppend, .tGate, .rFinish rec 0, .eRecv, .eNext]) ∧ run env s ls = some s' ∧
      RunEnded id rec s'.log

theorem no_end {env : Env} (hk : TakesAlong env 1) (hr : run env (init env) Ex.broken = some (play env Ex.broken))
    (hp : .bodyPanicked 1 0 ∈ (play env Ex.broken).log) (hs : RunsAs 1 0 1 (play env Ex.broken).log) {ls : List Label} {s' : St}
    (hl : ∀ l ∈ ls, ¬ Brings 1 l ∧ ¬ CancelCall 1 0 l) (h : run env (play env Ex.broken) ls = some s') :
    ¬ RunEnded 1 0 s'.log := by
  have h1 : run env (init env) (Ex.broken ++ ls) = some s' := by rw [run_append, hr]; exact h
  refine (C45_never_ends h1 (log_mono_run h hp) (runsAs_run h hs) hk ?_ ?_).2
  · intro l hl'
    rcases List.mem_append.1 hl' with hl' | hl'
    · exact noCancel_of l (List.all_eq_true.1 (by decide) l hl')
    · exact (hl l hl').2
  · intro t ht
    rw [once_handed (Ex.broken_once ls fun l h => (hl l h).1)] at ht
    simp only [List.mem_singleton] at ht
    subst ht; rfl

/-- **C45 fails** for asynchronous bodies (here on tokio). -/
theorem C45_fails_async : ¬ C45_statement := by
  intro h
  obtain ⟨ls, s', h1, h2, h3⟩ := h Ex.env0 (play Ex.env0 Ex.broken) 1 0 (play_reachable (by decide +kernel)) (by decide +kernel)
  refine no_end (Or.inl rfl) (play_run (by decide +kernel)) (by decide +kernel) ⟨2, 102, by decide +kernel⟩ ?_ h2 h3
  intro l hl
  have := h1 l hl
  simp only [List.mem_cons, List.not_mem_nil, or_false] at this
  rcases this with rfl | rfl | rfl | rfl | rfl <;> exact ⟨fun h => h, fun h => h⟩

/-- **C45 fails** for synchronous bodies on smol. -/
theorem C45_fails_smol : Ex.envSmol.kind 1 = .syncFn ∧ Ex.envSmol.runtime = .smol ∧ Reachable Ex.envSmol (play Ex.envSmol Ex.broken) ∧
    .bodyPanicked 1 0 ∈ (play Ex.envSmol Ex.broken).log ∧
    ∀ ls s', (∀ l ∈ ls, ¬ Brings 1 l ∧ ¬ CancelCall 1 0 l) → run Ex.envSmol (play Ex.envSmol Ex.broken) ls = some s' →
      ¬ RunEnded 1 0 s'.log :=
  ⟨rfl, rfl, play_reachable (by decide +kernel), by decide +kernel, fun _ _ hl h =>
    no_end (Or.inr rfl) (play_run (by decide +kernel)) (by decide +kernel) ⟨2, 102, by decide +kernel⟩ hl h⟩

end DelayTimer
