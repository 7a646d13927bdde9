import Verif.Proofs.Reports

/-! Spawned runs and what the log says about them. -/

namespace DelayTimer
open Spec

/-- Observations that say nothing about a spawned run. -/
def NoRun : Obs → Prop
  | .started .. => False
  | .bodyEnded .. => False
  | .bodyPanicked .. => False
  | .queued (.finish _ _) => False
  | _ => True

/-- What a step does to the spawned runs. -/
inductive RtStep (env : Env) (s s' : St) : Prop where
  | same (hn : ∀ o ∈ s'.log, o ∈ s.log ∨ NoRun o) (hr : s'.rt = s.rt)
  | gate (rec : Int) (hn : s'.log = s.log)
      (hr : s'.rt = setI s.rt rec ((s.rt rec).map (fun r => { r with gate := true })))
  | spawn (p : List Nat) (t : Task) (rec : Int) (hp : s.tpc = .spawn p t rec)
      (hn : s'.log = .started t.taskId t.routine rec s.ticks (env.clock s.ticks) :: s.log)
      (hr : s'.rt = setI s.rt rec (some { taskId := t.taskId, routine := t.routine, gate := false, bodyDone := false,
                                          finishSent := false, lost := false }))
  | body (rec : Int) (r : RtInst) (h : s.rt rec = some r) (hb : r.bodyDone = false) (hl : r.lost = false)
      (hn : s'.log = .bodyEnded r.taskId rec :: s.log)
      (hr : s'.rt = setI s.rt rec (some { r with bodyDone := true }))
  | caught (rec : Int) (r : RtInst) (h : s.rt rec = some r) (hb : r.bodyDone = false) (hl : r.lost = false)
      (hc : survivesPanic (env.kind r.routine) env.runtime = true)
      (hn : s'.log = .bodyPanicked r.taskId rec :: s.log)
      (hr : s'.rt = setI s.rt rec (some { r with bodyDone := true }))
  | lost (rec : Int) (r : RtInst) (h : s.rt rec = some r) (hb : r.bodyDone = false) (hl : r.lost = false)
      (hc : survivesPanic (env.kind r.routine) env.runtime = false)
      (hn : s'.log = .bodyPanicked r.taskId rec :: s.log)
      (hr : s'.rt = setI s.rt rec (some { r with lost := true }))
  | finish (rec : Int) (r : RtInst) (h : s.rt rec = some r) (hb : r.bodyDone = true) (hf : r.finishSent = false)
      (hn : s'.log = .queued (.finish r.taskId rec) :: s.log)
      (hr : s'.rt = setI s.rt rec (some { r with finishSent := true }))

theorem rt_step {env : Env} {s : St} {l : Label} {s' : St} (h : Act env s l s') : RtStep env s s' := by
  cases h
  case spawn p t rec hp => exact .spawn p t rec hp rfl rfl
  case body rec r hr hb hl => exact .body rec r hr hb hl rfl rfl
  case panic_caught rec r hr hb hl hc => exact .caught rec r hr hb hl hc rfl rfl
  case panic_lost rec r hr hb hl hc => exact .lost rec r hr hb hl hc rfl rfl
  case finish rec now r hr hb hg hf => exact .finish rec r hr hb hf rfl rfl
  case gate_panic p t rec hp hd => exact .gate rec rfl rfl
  case gate_again p t t' rec hp hd => exact .gate rec rfl rfl
  case gate_last p t t' rec hp hd => exact .gate rec rfl rfl
  case recv_cancel id rec rest he hc =>
    refine .same (fun o ho => ?_) (by simp)
    rcases cancelTask_log env true { s with chan := rest } id rec CANCELLED with h | h | ⟨_, _, h⟩ <;>
      (simp only [done_log, h, List.mem_cons] at ho
       first
         | (rcases ho with rfl | ho <;> first | exact Or.inr trivial | exact Or.inl ho)
         | (rcases ho with rfl | rfl | ho <;> first | exact Or.inr trivial | exact Or.inl ho)
         | (rcases ho with rfl | rfl | rfl | ho <;> first | exact Or.inr trivial | exact Or.inl ho))
  case recv_timeout id rec rest he hc =>
    refine .same (fun o ho => ?_) (by simp)
    rcases cancelTask_log env false { s with chan := rest } id rec TIMEOUT with h | h | ⟨_, _, h⟩ <;>
      (simp only [done_log, h, List.mem_cons] at ho
       first
         | (rcases ho with rfl | ho <;> first | exact Or.inr trivial | exact Or.inl ho)
         | (rcases ho with rfl | rfl | ho <;> first | exact Or.inr trivial | exact Or.inl ho)
         | (rcases ho with rfl | rfl | rfl | ho <;> first | exact Or.inr trivial | exact Or.inl ho))
  case recv_finish b rest he hc =>
    refine .same (fun o ho => ?_) (by simp)
    rcases finishTask_log env { s with chan := rest } b.taskId b.recordId with h | h | ⟨_, _, h⟩ <;>
      (simp only [done_log, h, List.mem_cons] at ho
       first
         | (rcases ho with rfl | ho <;> first | exact Or.inr trivial | exact Or.inl ho)
         | (rcases ho with rfl | rfl | ho <;> first | exact Or.inr trivial | exact Or.inl ho)
         | (rcases ho with rfl | rfl | rfl | ho <;> first | exact Or.inr trivial | exact Or.inl ho))
  case usend op =>
    refine .same (fun o ho => ?_) (by simp [push])
    simp only [push, List.mem_cons] at ho
    rcases ho with rfl | ho
    · right; cases op <;> trivial
    · exact Or.inl ho
  case spop u now n hp hu hmin hle =>
    refine .same (fun o ho => ?_) (by simp [push])
    simp only [List.mem_cons] at ho
    rcases ho with rfl | rfl | ho <;> first | exact Or.inr trivial | exact Or.inl ho
  all_goals try (exact .same (fun o ho => Or.inl ho) rfl)
  all_goals try (exact .same (fun o ho => Or.inl (by simpa using ho)) (by simp))
  all_goals try (
    refine .same (fun o ho => ?_) (by simp)
    simp only [done_log, push, uInsert, List.mem_cons] at ho
    rcases ho with rfl | ho
    · exact Or.inr trivial
    · exact Or.inl (by simpa using ho))

theorem mem_startedRecs {rec : Int} {log : List Obs} :
    rec ∈ startedRecs log ↔ ∃ id rtn n ts, .started id rtn rec n ts ∈ log := by
  induction log with
  | nil => simp [startedRecs]
  | cons o log ih =>
    cases o <;> simp only [startedRecs, List.mem_cons, List.mem_append, List.not_mem_nil, or_false, ih, reduceCtorEq, false_or,
      Obs.started.injEq]
    constructor
    · rintro (⟨a, b, c, d, h⟩ | rfl)
      · exact ⟨a, b, c, d, Or.inr h⟩
      · exact ⟨_, _, _, _, Or.inl ⟨rfl, rfl, rfl, rfl, rfl⟩⟩
    · rintro ⟨a, b, c, d, ⟨_, _, h, _⟩ | h⟩
      · exact Or.inr h
      · exact Or.inl ⟨a, b, c, d, h⟩

/-- One run goes on. -/
structure Onward (r r' : RtInst) : Prop where
  id : r'.taskId = r.taskId
  routine : r'.routine = r.routine
  body : r.bodyDone = true → r'.bodyDone = true
  lost : r.lost = true → r'.lost = true
  sent : r.finishSent = true → r'.finishSent = true

/-- The spawned runs and the log. -/
structure RunLog (env : Env) (s : St) : Prop where
  started : ∀ id rtn rec n ts, .started id rtn rec n ts ∈ s.log → ∃ r, s.rt rec = some r ∧ r.taskId = id ∧ r.routine = rtn
  ended : ∀ id rec, .bodyEnded id rec ∈ s.log → ∃ r, s.rt rec = some r ∧ r.taskId = id ∧ r.bodyDone = true
  panicked : ∀ id rec, .bodyPanicked id rec ∈ s.log → ∃ r, s.rt rec = some r ∧ r.taskId = id ∧
    (if survivesPanic (env.kind r.routine) env.runtime then r.bodyDone = true else r.lost = true)
  reported : ∀ id rec, .queued (.finish id rec) ∈ s.log → ∃ r, s.rt rec = some r ∧ r.taskId = id ∧ r.finishSent = true
  sent : ∀ rec r, s.rt rec = some r → r.finishSent = true → .queued (.finish r.taskId rec) ∈ s.log ∧ r.bodyDone = true
  gone : ∀ rec r, s.rt rec = some r → r.lost = true → r.bodyDone = false

theorem runLog_step {env : Env} {s : St} {l : Label} {s' : St} (hr : Reachable env s) (hs : RunLog env s)
    (h : Act env s l s') : RunLog env s' := by
  have hm : ∀ {o : Obs}, o ∈ s.log → o ∈ s'.log := fun ho => log_mono h ho
  obtain ⟨h1, h2, h3, h4, h5, h6⟩ := hs
  have go : ∀ x q q' o, s.rt x = some q → Onward q q' → s'.rt = setI s.rt x (some q') → s'.log = o :: s.log →
      (∀ a b c d e, o ≠ .started a b c d e) →
      (∀ rec r, s'.rt rec = some r → (rec = x ∧ r = q') ∨ s.rt rec = some r) ∧ s'.rt x = some q' ∧
      (∀ id rtn rec n ts, .started id rtn rec n ts ∈ s'.log → ∃ r, s'.rt rec = some r ∧ r.taskId = id ∧ r.routine = rtn) ∧
      (∀ id rec, .bodyEnded id rec ∈ s'.log → o = .bodyEnded id rec ∨
        ∃ r, s'.rt rec = some r ∧ r.taskId = id ∧ r.bodyDone = true) ∧
      (∀ id rec, .bodyPanicked id rec ∈ s'.log → o = .bodyPanicked id rec ∨ ∃ r, s'.rt rec = some r ∧ r.taskId = id ∧
        (if survivesPanic (env.kind r.routine) env.runtime then r.bodyDone = true else r.lost = true)) ∧
      (∀ id rec, .queued (.finish id rec) ∈ s'.log → o = .queued (.finish id rec) ∨
        ∃ r, s'.rt rec = some r ∧ r.taskId = id ∧ r.finishSent = true) := by
    intro x q q' o hx ho hr' hn hne
    have key : ∀ rec r, s.rt rec = some r → ∃ r', s'.rt rec = some r' ∧ Onward r r' := by
      intro rec r hq
      rw [hr', setI_apply]
      split
      · rename_i he; subst he
        rw [hx] at hq; cases hq
        exact ⟨_, rfl, ho⟩
      · exact ⟨r, hq, rfl, rfl, fun h => h, fun h => h, fun h => h⟩
    refine ⟨fun rec r hq => ?_, by rw [hr']; exact setI_same _ _ _, fun a b c d e hq => ?_, fun a b hq => ?_, fun a b hq => ?_,
      fun a b hq => ?_⟩
    · rw [hr', setI_apply] at hq
      split at hq
      · cases hq; exact Or.inl ⟨‹_›, rfl⟩
      · exact Or.inr hq
    all_goals
      rw [hn] at hq
      rcases List.mem_cons.1 hq with he | hq
      · first | exact Or.inl he.symm | exact absurd he.symm (hne _ _ _ _ _)
    · obtain ⟨r, q1, q2, q3⟩ := h1 a b c d e hq
      obtain ⟨r', q4, q5⟩ := key _ _ q1
      exact ⟨r', q4, q5.id.trans q2, q5.routine.trans q3⟩
    · obtain ⟨r, q1, q2, q3⟩ := h2 a b hq
      obtain ⟨r', q4, q5⟩ := key _ _ q1
      exact Or.inr ⟨r', q4, q5.id.trans q2, q5.body q3⟩
    · obtain ⟨r, q1, q2, q3⟩ := h3 a b hq
      obtain ⟨r', q4, q5⟩ := key _ _ q1
      refine Or.inr ⟨r', q4, q5.id.trans q2, ?_⟩
      rw [q5.routine]
      split
      · rename_i hc; rw [if_pos hc] at q3; exact q5.body q3
      · rename_i hc; rw [if_neg hc] at q3; exact q5.lost q3
    · obtain ⟨r, q1, q2, q3⟩ := h4 a b hq
      obtain ⟨r', q4, q5⟩ := key _ _ q1
      exact Or.inr ⟨r', q4, q5.id.trans q2, q5.sent q3⟩
  cases rt_step h with
  | same hn hr =>
    have key : ∀ {o}, o ∈ s'.log → ¬ NoRun o → o ∈ s.log := fun ho hno => (hn _ ho).resolve_right hno
    rw [← hr] at h1 h2 h3 h4 h5 h6
    exact ⟨fun _ _ _ _ _ ho => h1 _ _ _ _ _ (key ho (fun h => h)), fun _ _ ho => h2 _ _ (key ho (fun h => h)),
      fun _ _ ho => h3 _ _ (key ho (fun h => h)), fun _ _ ho => h4 _ _ (key ho (fun h => h)),
      fun _ _ ho hf => ⟨hm (h5 _ _ ho hf).1, (h5 _ _ ho hf).2⟩, h6⟩
  | gate x hn hr =>
    have key : ∀ rec r, s.rt rec = some r → ∃ g, s'.rt rec = some { r with gate := g } := by
      intro rec r hx
      rw [hr, setI_apply]
      split
      · rename_i he; subst he; exact ⟨true, by rw [hx]; rfl⟩
      · exact ⟨r.gate, hx⟩
    have back : ∀ rec r, s'.rt rec = some r → ∃ g, s.rt rec = some { r with gate := g } := by
      intro rec r hx
      rw [hr, setI_apply] at hx
      split at hx
      · rename_i he; subst he
        cases hq : s.rt rec with
        | none => rw [hq] at hx; cases hx
        | some q => rw [hq] at hx; cases hx; exact ⟨q.gate, rfl⟩
      · exact ⟨r.gate, hx⟩
    rw [← hn] at h1 h2 h3 h4 h5
    refine ⟨fun a b c d e ho => ?_, fun a b ho => ?_, fun a b ho => ?_, fun a b ho => ?_, fun a b ho hf => ?_, fun a b ho hf => ?_⟩
    · obtain ⟨r, q1, q2⟩ := h1 a b c d e ho
      obtain ⟨g, hg⟩ := key _ _ q1; exact ⟨_, hg, q2⟩
    · obtain ⟨r, q1, q2⟩ := h2 a b ho
      obtain ⟨g, hg⟩ := key _ _ q1; exact ⟨_, hg, q2⟩
    · obtain ⟨r, q1, q2⟩ := h3 a b ho
      obtain ⟨g, hg⟩ := key _ _ q1; exact ⟨_, hg, q2⟩
    · obtain ⟨r, q1, q2⟩ := h4 a b ho
      obtain ⟨g, hg⟩ := key _ _ q1; exact ⟨_, hg, q2⟩
    · obtain ⟨g, hg⟩ := back _ _ ho; exact h5 a { b with gate := g } hg hf
    · obtain ⟨g, hg⟩ := back _ _ ho; exact h6 a { b with gate := g } hg hf
  | spawn p t x hp hn hr' =>
    have hfr : ∀ id rtn n ts, .started id rtn x n ts ∉ s.log := by
      intro id rtn n ts ho
      exact ((recOk hr).fresh p t x hp |>.2 x (mem_startedRecs.2 ⟨_, _, _, _, ho⟩)).1 rfl
    have hnone : ∀ r, s.rt x ≠ some r := by
      intro r hx
      obtain ⟨⟨n, ts, ho⟩, _⟩ := (rtOk hr).rt _ _ hx
      exact hfr _ _ _ _ ho
    have key : ∀ rec r, s.rt rec = some r → s'.rt rec = some r := by
      intro rec r hx
      rw [hr', setI_other]
      · exact hx
      · rintro rfl; exact hnone _ hx
    have back : ∀ rec r, s'.rt rec = some r → s.rt rec = some r ∨ r.finishSent = false ∧ r.lost = false := by
      intro rec r hx
      rw [hr', setI_apply] at hx
      split at hx
      · cases hx; exact Or.inr ⟨rfl, rfl⟩
      · exact Or.inl hx
    have old : ∀ {o}, o ∈ s'.log → (∀ a b c d e, o ≠ .started a b c d e) → o ∈ s.log := by
      intro o ho hne
      rw [hn] at ho
      rcases List.mem_cons.1 ho with rfl | ho
      · exact absurd rfl (hne _ _ _ _ _)
      · exact ho
    refine ⟨fun a b c d e ho => ?_, fun a b ho => ?_, fun a b ho => ?_, fun a b ho => ?_, fun a b ho hf => ?_, fun a b ho hf => ?_⟩
    · rw [hn] at ho
      rcases List.mem_cons.1 ho with he | ho
      · cases he; exact ⟨_, by rw [hr']; exact setI_same _ _ _, rfl, rfl⟩
      · obtain ⟨r, q1, q2⟩ := h1 a b c d e ho; exact ⟨r, key _ _ q1, q2⟩
    · obtain ⟨r, q1, q2⟩ := h2 a b (old ho (by intros; simp)); exact ⟨r, key _ _ q1, q2⟩
    · obtain ⟨r, q1, q2⟩ := h3 a b (old ho (by intros; simp)); exact ⟨r, key _ _ q1, q2⟩
    · obtain ⟨r, q1, q2⟩ := h4 a b (old ho (by intros; simp)); exact ⟨r, key _ _ q1, q2⟩
    · rcases back _ _ ho with ho | ⟨ho, _⟩
      · exact ⟨hm (h5 _ _ ho hf).1, (h5 _ _ ho hf).2⟩
      · rw [ho] at hf; cases hf
    · rcases back _ _ ho with ho | ⟨_, ho⟩
      · exact h6 _ _ ho hf
      · rw [ho] at hf; cases hf
  | body x q hx hb hl hn hr' =>
    obtain ⟨k0, k, k1, k2, k3, k4⟩ := go x q { q with bodyDone := true } _ hx ⟨rfl, rfl, fun _ => rfl, fun h => h, fun h => h⟩ hr' hn (fun _ _ _ _ _ => by simp)
    refine ⟨k1, fun a b ho => ?_, fun a b ho => ?_, fun a b ho => ?_, fun a b ho hs => ?_, fun a b ho hs => ?_⟩
    · rcases k2 a b ho with h7 | h7
      · cases h7; exact ⟨_, k, rfl, rfl⟩
      · exact h7
    · rcases k3 a b ho with h7 | h7
      · cases h7
      · exact h7
    · rcases k4 a b ho with h7 | h7
      · cases h7
      · exact h7
    · rcases k0 a b ho with ⟨rfl, rfl⟩ | ho
      · exact ⟨hm (h5 _ _ hx hs).1, rfl⟩
      · exact ⟨hm (h5 _ _ ho hs).1, (h5 _ _ ho hs).2⟩
    · rcases k0 a b ho with ⟨rfl, rfl⟩ | ho
      · change q.lost = true at hs; rw [hl] at hs; cases hs
      · exact h6 _ _ ho hs
  | caught x q hx hb hl hc hn hr' =>
    obtain ⟨k0, k, k1, k2, k3, k4⟩ := go x q { q with bodyDone := true } _ hx ⟨rfl, rfl, fun _ => rfl, fun h => h, fun h => h⟩ hr' hn (fun _ _ _ _ _ => by simp)
    refine ⟨k1, fun a b ho => ?_, fun a b ho => ?_, fun a b ho => ?_, fun a b ho hs => ?_, fun a b ho hs => ?_⟩
    · rcases k2 a b ho with h7 | h7
      · cases h7
      · exact h7
    · rcases k3 a b ho with h7 | h7
      · cases h7; exact ⟨_, k, rfl, by simp [hc]⟩
      · exact h7
    · rcases k4 a b ho with h7 | h7
      · cases h7
      · exact h7
    · rcases k0 a b ho with ⟨rfl, rfl⟩ | ho
      · exact ⟨hm (h5 _ _ hx hs).1, rfl⟩
      · exact ⟨hm (h5 _ _ ho hs).1, (h5 _ _ ho hs).2⟩
    · rcases k0 a b ho with ⟨rfl, rfl⟩ | ho
      · change q.lost = true at hs; rw [hl] at hs; cases hs
      · exact h6 _ _ ho hs
  | lost x q hx hb hl hc hn hr' =>
    obtain ⟨k0, k, k1, k2, k3, k4⟩ := go x q { q with lost := true } _ hx ⟨rfl, rfl, fun h => h, fun _ => rfl, fun h => h⟩ hr' hn (fun _ _ _ _ _ => by simp)
    refine ⟨k1, fun a b ho => ?_, fun a b ho => ?_, fun a b ho => ?_, fun a b ho hs => ?_, fun a b ho hs => ?_⟩
    · rcases k2 a b ho with h7 | h7
      · cases h7
      · exact h7
    · rcases k3 a b ho with h7 | h7
      · cases h7; exact ⟨_, k, rfl, by simp [hc]⟩
      · exact h7
    · rcases k4 a b ho with h7 | h7
      · cases h7
      · exact h7
    · rcases k0 a b ho with ⟨rfl, rfl⟩ | ho
      · exact ⟨hm (h5 _ _ hx hs).1, (h5 _ _ hx hs).2⟩
      · exact ⟨hm (h5 _ _ ho hs).1, (h5 _ _ ho hs).2⟩
    · rcases k0 a b ho with ⟨rfl, rfl⟩ | ho
      · exact hb
      · exact h6 _ _ ho hs
  | finish x q hx hb hf hn hr' =>
    obtain ⟨k0, k, k1, k2, k3, k4⟩ := go x q { q with finishSent := true } _ hx ⟨rfl, rfl, fun h => h, fun h => h, fun _ => rfl⟩ hr' hn (fun _ _ _ _ _ => by simp)
    refine ⟨k1, fun a b ho => ?_, fun a b ho => ?_, fun a b ho => ?_, fun a b ho hs => ?_, fun a b ho hs => ?_⟩
    · rcases k2 a b ho with h7 | h7
      · cases h7
      · exact h7
    · rcases k3 a b ho with h7 | h7
      · cases h7
      · exact h7
    · rcases k4 a b ho with h7 | h7
      · cases h7; exact ⟨_, k, rfl, rfl⟩
      · exact h7
    · rcases k0 a b ho with ⟨rfl, rfl⟩ | ho
      · exact ⟨by rw [hn]; exact List.mem_cons_self, hb⟩
      · exact ⟨hm (h5 _ _ ho hs).1, (h5 _ _ ho hs).2⟩
    · rcases k0 a b ho with ⟨rfl, rfl⟩ | ho
      · exact h6 _ q hx hs
      · exact h6 _ _ ho hs

theorem runLog {env : Env} {s : St} (h : Reachable env s) : RunLog env s :=
  Reachable.induct (RunLog env) ⟨(by intro _ _ _ _ _ h; cases h), (by intro _ _ h; cases h), (by intro _ _ h; cases h),
    (by intro _ _ h; cases h), (by intro _ _ h; cases h), (by intro _ _ h; cases h)⟩
    (fun _ _ _ hr hs h => runLog_step hr hs h) s h

end DelayTimer
