import Verif.Proofs.Life

/-! Actions of other threads do not depend on the scheduler's position. -/

namespace DelayTimer
theorem dropMark_with_tpc (s : St) (p : TPC) (m : Option TaskMark) :
    dropMark { s with tpc := p } m = { dropMark s m with tpc := p } := by
  cases m with
  | none => rfl
  | some m => simp only [dropMark, dropMaintainer]; cases m.maintainer <;> rfl

theorem dropMaintainer_with_tpc (s : St) (p : TPC) (m : Option Maintainer) :
    dropMaintainer { s with tpc := p } m = { dropMaintainer s m with tpc := p } := by
  cases m <;> rfl

theorem notifyMark_with_tpc (s : St) (p : TPC) (id : Nat) (m : TaskMark) (mt : Maintainer) (rec : Int) (st : Nat) :
    notifyMark { s with tpc := p } id m mt rec st =
      ((notifyMark s id m mt rec st).1, { (notifyMark s id m mt rec st).2 with tpc := p }) := by
  unfold notifyMark
  dsimp only
  by_cases h : s.chainState mt.chain = DROPPED
  · simp only [if_pos h]; rfl
  · simp only [if_neg h]
    cases mt.innerList.findIdx? (fun i => i.recordId == rec) with
    | none => rfl
    | some k =>
      dsimp only
      cases mt.innerList.drop k <;> rfl

theorem cancelTask_with_tpc (env : Env) (b : Bool) (s : St) (p : TPC) (id : Nat) (rec : Int) (st : Nat) :
    cancelTask env b { s with tpc := p } id rec st =
      ((cancelTask env b s id rec st).1, { (cancelTask env b s id rec st).2 with tpc := p }) := by
  unfold cancelTask
  dsimp only
  cases quitOne env (s.trace id) rec with
  | none => rfl
  | some l =>
    dsimp only
    cases s.flags id with
    | none => rfl
    | some m =>
      dsimp only
      cases m.maintainer with
      | none => rfl
      | some mt =>
        dsimp only
        have := notifyMark_with_tpc { s with trace := set s.trace id l, log := .stopped id rec :: s.log } p id
          { m with parallelRunnableNum := m.parallelRunnableNum - 1, maintainer := some mt } mt rec st
        dsimp only at this
        rw [this]
        cases notifyMark { s with trace := set s.trace id l, log := .stopped id rec :: s.log } id
          { m with parallelRunnableNum := m.parallelRunnableNum - 1, maintainer := some mt } mt rec st with
        | mk a b => cases a <;> rfl

theorem finishTask_with_tpc (env : Env) (s : St) (p : TPC) (id : Nat) (rec : Int) :
    finishTask env { s with tpc := p } id rec =
      ((finishTask env s id rec).1, { (finishTask env s id rec).2 with tpc := p }) := by
  unfold finishTask
  dsimp only
  cases quitOne env (s.trace id) rec with
  | none => rfl
  | some l =>
    dsimp only
    cases s.flags id with
    | none => rfl
    | some m =>
      dsimp only
      cases m.maintainer with
      | none => rfl
      | some mt =>
        dsimp only
        have := notifyMark_with_tpc { s with trace := set s.trace id l, log := .stopped id rec :: s.log } p id
          m mt rec COMPLETED
        dsimp only at this
        rw [this]
        cases notifyMark { s with trace := set s.trace id l, log := .stopped id rec :: s.log } id
          m mt rec COMPLETED with
        | mk a b => cases a <;> rfl

theorem maintain_with_tpc (s : St) (p : TPC) (id : Nat) (box : HandlerBox) :
    maintainTaskStatus { s with tpc := p } id box = { maintainTaskStatus s id box with tpc := p } := by
  have h : registerInstance { s with tpc := p } id box.recordId = { registerInstance s id box.recordId with tpc := p } := by
    unfold registerInstance
    dsimp only
    cases s.flags id with
    | none => rfl
    | some m =>
      dsimp only
      cases m.maintainer with
      | none => rfl
      | some mt =>
        dsimp only
        by_cases h : s.chainState mt.chain = DROPPED
        · simp only [if_pos h]; rfl
        · simp only [if_neg h]
  unfold maintainTaskStatus
  dsimp only
  rw [h]

theorem step_with_tpc (env : Env) (s : St) (p : TPC) {l : Label} (hl : ¬ TLabel l) :
    step env { s with tpc := p } l = (step env s l).map (fun s' => { s' with tpc := p }) := by
  cases l
  all_goals try (exact absurd trivial hl)
  all_goals try rfl
  case eRecv =>
    simp only [step, eRecv]
    cases he : s.epc <;> try rfl
    cases hc : s.chan with
    | nil => rfl
    | cons e rest =>
      cases e with
      | stopTimer => rfl
      | addTask t => rfl
      | insertTask t c => rfl
      | updateTask t =>
        dsimp only
        cases s.flags t.taskId with
        | none => rfl
        | some m => dsimp only; cases s.wheel m.slotMark <;> rfl
      | removeTask id =>
        dsimp only
        cases s.flags id with
        | none => rfl
        | some m => dsimp only; cases s.wheel m.slotMark <;> rfl
      | cancelTask id rec =>
        dsimp only
        have := cancelTask_with_tpc env true { s with chan := rest } p id rec CANCELLED
        dsimp only at this
        rw [he] at this
        rw [this]; rfl
      | advanceTask id =>
        dsimp only
        cases s.flags id with
        | none => rfl
        | some m =>
          dsimp only
          cases s.wheel m.slotMark with
          | none => rfl
          | some sl =>
            dsimp only
            cases sl.removeTask id with
            | mk a b => cases a <;> rfl
      | timeoutTask id rec =>
        dsimp only
        have := cancelTask_with_tpc env false { s with chan := rest } p id rec TIMEOUT
        dsimp only at this
        rw [he] at this
        rw [this]; rfl
      | appendTaskHandle id box =>
        dsimp only
        have := maintain_with_tpc { s with chan := rest } p id box
        dsimp only at this
        rw [he] at this
        rw [this]; rfl
      | finishTask b =>
        dsimp only
        have := finishTask_with_tpc env { s with chan := rest } p b.taskId b.recordId
        dsimp only at this
        rw [he] at this
        rw [this]; rfl
  case eNext =>
    simp only [step, eNext]
    cases he : s.epc with
    | idle => rfl
    | add1 t chain hand =>
      dsimp only
      split
      · rfl
      cases t.getNextExecTimestamp with
      | mk a b =>
        cases a with
        | none => cases chain <;> rfl
        | some e => rfl
    | add2 t chain hand exec ts => rfl
    | add3 tag m =>
      have := dropMark_with_tpc s p (s.flags m.taskId)
      rw [he] at this
      dsimp only
      rw [this]; rfl
    | remove id ok =>
      have := dropMark_with_tpc s p (s.flags id)
      rw [he] at this
      dsimp only
      rw [this]; rfl
    | adv1 t => rfl
    | adv2 t hand =>
      dsimp only
      cases s.wheel (hand + 1) <;> rfl
  case rBody rec =>
    simp only [step, rBody]
    cases s.rt rec with
    | none => rfl
    | some r => dsimp only; cases (r.bodyDone || r.lost) <;> rfl
  case rPanic rec =>
    simp only [step, rPanic]
    cases s.rt rec with
    | none => rfl
    | some r =>
      dsimp only
      cases (r.bodyDone || r.lost) <;> cases (survivesPanic (env.kind r.routine) env.runtime) <;> rfl
  case rFinish rec now =>
    simp only [step, rFinish]
    cases s.rt rec with
    | none => rfl
    | some r =>
      dsimp only
      cases (r.bodyDone && r.gate && !r.finishSent) <;> rfl
  case sAdd =>
    simp only [step, sAdd]
    cases s.spc <;> cases s.unitChan <;> rfl
  case sWake now =>
    simp only [step, sWake]
    cases s.spc with
    | idle w => dsimp only; split <;> rfl
    | active a b => rfl
  case sPop u =>
    simp only [step, sPop]
    cases s.spc with
    | idle w => rfl
    | active a b =>
      cases b with
      | zero => rfl
      | succ n => dsimp only; split <;> rfl
  case sRest =>
    simp only [step, sRest]
    cases s.spc with
    | idle w => rfl
    | active a b =>
      cases b with
      | zero => rfl
      | succ n =>
        dsimp only
        cases heapMin s.heap with
        | none => rfl
        | some d => dsimp only; split <;> rfl
  case uNext c =>
    simp only [step, uNext]
    split
    · split
      · rfl
      · cases s.chainQueue c <;> rfl
    · rfl
  case uDropChain c =>
    simp only [step, uDropChain]
    split <;> rfl
  case uCancel w i =>
    simp only [step, uCancel, cancelInstance]
    cases s.waiters w <;> try rfl
    dsimp only
    by_cases h : s.hdrState i.hdr = RUNNING
    · simp only [h, ne_eq, not_true, if_false]; rfl
    · simp only [h, ne_eq, not_false_eq_true, if_true]; rfl
  case uListen w =>
    simp only [step, uListen]
    cases s.waiters w <;> rfl
  case uReturn w =>
    simp only [step, uReturn]
    cases s.waiters w <;> rfl
  case uGiveUp w =>
    simp only [step, uGiveUp]
    cases s.waiters w <;> rfl
end DelayTimer
