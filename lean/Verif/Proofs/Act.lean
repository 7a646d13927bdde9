import Verif.Proofs.Frame

/-!
# Inversion of `step`

`Act env s l s'` lists every way an action can succeed, with its conditions and the resulting state
spelled out. `step_act` shows that every successful `step` is one of these; invariants are then
proved by cases on `Act`.
-/

namespace DelayTimer

inductive Act (env : Env) (s : St) : Label → St → Prop
  | load_go (h : s.tpc = .head) (hm : s.motivation = true) : Act env s .tLoad { s with tpc := .store }
  | load_halt (h : s.tpc = .head) (hm : s.motivation = false) :
      Act env s .tLoad { s with tpc := .halted, log := .halted :: s.log }
  | store (h : s.tpc = .store) :
      Act env s .tStore { s with globalTime := env.clock s.ticks, tpc := .arrive }
  | arrive (sl : Slot) (h : s.tpc = .arrive) (hw : s.wheel s.secondHand = some sl) :
      Act env s .tArrive { s with
        wheel := set s.wheel s.secondHand (some sl.arrivalTimeTasks.2)
        tpc := .batch sl.arrivalTimeTasks.1 }
  | arrive_missing (h : s.tpc = .arrive) (hw : s.wheel s.secondHand = none) :
      Act env s .tArrive { s with tpc := .head }
  | pop_hit (pending : List Nat) (id : Nat) (sl : Slot) (t : Task) (h : s.tpc = .batch pending)
      (hmem : id ∈ pending) (hw : s.wheel s.secondHand = some sl)
      (hr : (sl.removeTask id).1 = some t) :
      Act env s (.tPop id) { s with
        wheel := set s.wheel s.secondHand (some (sl.removeTask id).2)
        tpc := .check (pending.erase id) t
        log := .attempted id s.ticks :: s.log }
  | pop_miss (pending : List Nat) (id : Nat) (h : s.tpc = .batch pending) (hmem : id ∈ pending)
      (hw : ∀ sl, s.wheel s.secondHand = some sl → (sl.removeTask id).1 = none) :
      Act env s (.tPop id) { s with tpc := .batch (pending.erase id) }
  | check_nolimit (pending : List Nat) (t : Task) (rec : Int) (h : s.tpc = .check pending t)
      (hrec : freshId env s.recs rec = true) (hmax : t.maximumParallelRunnableNum = none) :
      Act env s (.tCheck rec) { s with recs := rec :: s.recs, tpc := .spawn pending t rec }
  | check_nomark (pending : List Nat) (t : Task) (rec : Int) (k : Nat) (h : s.tpc = .check pending t)
      (hrec : freshId env s.recs rec = true) (hmax : t.maximumParallelRunnableNum = some k)
      (hf : s.flags t.taskId = none) :
      Act env s (.tCheck rec) { s with recs := rec :: s.recs, tpc := .batch pending }
  | check_skip (pending : List Nat) (t : Task) (rec : Int) (k : Nat) (m : TaskMark)
      (h : s.tpc = .check pending t)
      (hrec : freshId env s.recs rec = true) (hmax : t.maximumParallelRunnableNum = some k)
      (hf : s.flags t.taskId = some m) (hle : k ≤ m.parallelRunnableNum) :
      Act env s (.tCheck rec) { s with
        recs := rec :: s.recs, tpc := .rearm pending t false
        log := .skipped t.taskId s.ticks :: s.log }
  | check_ok (pending : List Nat) (t : Task) (rec : Int) (k : Nat) (m : TaskMark)
      (h : s.tpc = .check pending t)
      (hrec : freshId env s.recs rec = true) (hmax : t.maximumParallelRunnableNum = some k)
      (hf : s.flags t.taskId = some m) (hlt : m.parallelRunnableNum < k) :
      Act env s (.tCheck rec) { s with recs := rec :: s.recs, tpc := .spawn pending t rec }
  | spawn_panic (pending : List Nat) (t : Task) (rec : Int) (h : s.tpc = .spawn pending t rec) :
      Act env s (.tSpawn true) { s with tpc := .panicked }
  | spawn (pending : List Nat) (t : Task) (rec : Int) (h : s.tpc = .spawn pending t rec) :
      Act env s (.tSpawn false) { s with
        tpc := .append pending t
          { taskId := t.taskId, recordId := rec, startTime := env.clock s.ticks,
            endTime := t.getMaximumRunningTime (env.clock s.ticks) }
        rt := setI s.rt rec
          (some { taskId := t.taskId, routine := t.routine, gate := false, bodyDone := false,
                  finishSent := false, lost := false })
        log := .started t.taskId t.routine rec s.ticks (env.clock s.ticks) :: s.log }
  | append (pending : List Nat) (t : Task) (box : HandlerBox) (h : s.tpc = .append pending t box) :
      Act env s .tAppend
        { push s (.appendTaskHandle t.taskId box) with tpc := .gate pending t box.recordId }
  | gate_panic (pending : List Nat) (t : Task) (rec : Int) (h : s.tpc = .gate pending t rec)
      (hd : t.downCountAndSetValid env.overflowChecks = none) :
      Act env s .tGate { s with
        rt := setI s.rt rec ((s.rt rec).map (fun r => { r with gate := true })), tpc := .panicked }
  | gate_again (pending : List Nat) (t t' : Task) (rec : Int) (h : s.tpc = .gate pending t rec)
      (hd : t.downCountAndSetValid env.overflowChecks = some (true, t')) :
      Act env s .tGate { s with
        rt := setI s.rt rec ((s.rt rec).map (fun r => { r with gate := true }))
        tpc := .rearm pending t' true }
  | gate_last (pending : List Nat) (t t' : Task) (rec : Int) (h : s.tpc = .gate pending t rec)
      (hd : t.downCountAndSetValid env.overflowChecks = some (false, t')) :
      Act env s .tGate { s with
        rt := setI s.rt rec ((s.rt rec).map (fun r => { r with gate := true }))
        tpc := .batch pending }
  | slot_none (pending : List Nat) (t : Task) (upd : Bool) (h : s.tpc = .rearm pending t upd)
      (hn : t.getNextExecTimestamp.1 = none) :
      Act env s .tSlot { s with tpc := .batch pending }
  | slot_missing (pending : List Nat) (t : Task) (upd : Bool) (exec : Nat)
      (h : s.tpc = .rearm pending t upd)
      (hn : t.getNextExecTimestamp.1 = some exec)
      (hw : s.wheel (((checkedSub exec (env.clock s.ticks)).getD 1 + nextSecondHand s) % SLOT_COUNT)
        = none) :
      Act env s .tSlot { s with tpc := .batch pending }
  | slot_ok (pending : List Nat) (t : Task) (upd : Bool) (exec : Nat) (sl : Slot) (step slot : Nat)
      (h : s.tpc = .rearm pending t upd)
      (hn : t.getNextExecTimestamp.1 = some exec)
      (hstep : step = (checkedSub exec (env.clock s.ticks)).getD 1)
      (hslot : slot = (step + nextSecondHand s) % SLOT_COUNT)
      (hw : s.wheel slot = some sl) :
      Act env s .tSlot { s with
        wheel := set s.wheel slot
          (some (sl.addTask { t.getNextExecTimestamp.2 with cylinderLine := step / SLOT_COUNT }))
        tpc := .mark pending t.taskId slot upd }
  | mark_none (pending : List Nat) (id slot : Nat) (upd : Bool) (h : s.tpc = .mark pending id slot upd)
      (hf : s.flags id = none) : Act env s .tMark { s with tpc := .batch pending }
  | mark_some (pending : List Nat) (id slot : Nat) (upd : Bool) (m : TaskMark)
      (h : s.tpc = .mark pending id slot upd) (hf : s.flags id = some m) :
      Act env s .tMark { s with
        flags := set s.flags id (some { m with
          slotMark := slot
          parallelRunnableNum := if upd then m.parallelRunnableNum + 1 else m.parallelRunnableNum })
        tpc := .batch pending }
  | lapse (h : s.tpc = .batch []) :
      Act env s .tLapse { s with
        secondHand := (s.secondHand + 1) % SLOT_COUNT
        ticks := s.ticks + 1
        tpc := .head }
  | recv_stop (rest : List TimerEvent) (he : s.epc = .idle) (hc : s.chan = .stopTimer :: rest) :
      Act env s .eRecv (done env { s with chan := rest, motivation := false } .stop none (some true))
  | recv_add (t : Task) (rest : List TimerEvent) (he : s.epc = .idle) (hc : s.chan = .addTask t :: rest) :
      Act env s .eRecv { s with chan := rest, epc := .add1 t none s.secondHand }
  | recv_insert (t : Task) (c : Nat) (rest : List TimerEvent) (he : s.epc = .idle)
      (hc : s.chan = .insertTask t c :: rest) :
      Act env s .eRecv { s with chan := rest, epc := .add1 t (some c) s.secondHand }
  | recv_update_skip (t : Task) (rest : List TimerEvent) (he : s.epc = .idle)
      (hc : s.chan = .updateTask t :: rest)
      (hs : ∀ m, s.flags t.taskId = some m → s.wheel m.slotMark = none) :
      Act env s .eRecv (done env { s with chan := rest } (.update t.taskId) none (some true))
  | recv_update (t : Task) (rest : List TimerEvent) (m : TaskMark) (sl : Slot) (he : s.epc = .idle)
      (hc : s.chan = .updateTask t :: rest)
      (hf : s.flags t.taskId = some m) (hw : s.wheel m.slotMark = some sl) :
      Act env s .eRecv (done env
        { s with chan := rest, wheel := set s.wheel m.slotMark (some (sl.updateTask t)) }
        (.update t.taskId) none (some true))
  | recv_advance_err (id : Nat) (rest : List TimerEvent) (he : s.epc = .idle)
      (hc : s.chan = .advanceTask id :: rest)
      (hs : ∀ m sl, s.flags id = some m → s.wheel m.slotMark = some sl → (sl.removeTask id).1 = none) :
      Act env s .eRecv (done env { s with chan := rest } (.advance id) none none)
  | recv_advance (id : Nat) (rest : List TimerEvent) (m : TaskMark) (sl : Slot) (t : Task)
      (he : s.epc = .idle) (hc : s.chan = .advanceTask id :: rest)
      (hf : s.flags id = some m) (hw : s.wheel m.slotMark = some sl)
      (hr : (sl.removeTask id).1 = some t) :
      Act env s .eRecv { s with
        chan := rest
        wheel := set s.wheel m.slotMark (some (sl.removeTask id).2)
        epc := .adv1 { t with cylinderLine := 0 } }
  | recv_remove_skip (id : Nat) (rest : List TimerEvent) (he : s.epc = .idle)
      (hc : s.chan = .removeTask id :: rest)
      (hs : ∀ m, s.flags id = some m → s.wheel m.slotMark = none) :
      Act env s .eRecv { s with chan := rest, epc := .remove id false }
  | recv_remove (id : Nat) (rest : List TimerEvent) (m : TaskMark) (sl : Slot) (he : s.epc = .idle)
      (hc : s.chan = .removeTask id :: rest)
      (hf : s.flags id = some m) (hw : s.wheel m.slotMark = some sl) :
      Act env s .eRecv { s with
        chan := rest
        wheel := set s.wheel m.slotMark (some (sl.removeTask id).2)
        epc := .remove id true }
  | recv_cancel (id : Nat) (rec : Int) (rest : List TimerEvent) (he : s.epc = .idle)
      (hc : s.chan = .cancelTask id rec :: rest) :
      Act env s .eRecv (done env (cancelTask env true { s with chan := rest } id rec CANCELLED).2
        (.cancel id rec) none (cancelTask env true { s with chan := rest } id rec CANCELLED).1)
  | recv_timeout (id : Nat) (rec : Int) (rest : List TimerEvent) (he : s.epc = .idle)
      (hc : s.chan = .timeoutTask id rec :: rest) :
      Act env s .eRecv (done env (cancelTask env false { s with chan := rest } id rec TIMEOUT).2
        (.timeout id rec) (some (.timeoutTask id rec))
        (cancelTask env false { s with chan := rest } id rec TIMEOUT).1)
  | recv_append (id : Nat) (box : HandlerBox) (rest : List TimerEvent) (he : s.epc = .idle)
      (hc : s.chan = .appendTaskHandle id box :: rest) :
      Act env s .eRecv (done env (maintainTaskStatus { s with chan := rest } id box)
        (.append id box.recordId) (some (.runningTask box.taskId box.recordId)) (some true))
  | recv_finish (b : FinishTaskBody) (rest : List TimerEvent) (he : s.epc = .idle)
      (hc : s.chan = .finishTask b :: rest) :
      Act env s .eRecv (done env (finishTask env { s with chan := rest } b.taskId b.recordId).2
        (.finish b.taskId b.recordId) (some (.finishTask b))
        (finishTask env { s with chan := rest } b.taskId b.recordId).1)
  | next_add1_err (t : Task) (chain : Option Nat) (hand : Nat) (he : s.epc = .add1 t chain hand)
      (hn : t.getNextExecTimestamp.1 = none) :
      Act env s .eNext
        (done env (dropMaintainer s (freshMaintainer chain)) (addTag t chain) none none)
  | next_add1 (t : Task) (chain : Option Nat) (hand exec : Nat) (he : s.epc = .add1 t chain hand)
      (hn : t.getNextExecTimestamp.1 = some exec) :
      Act env s .eNext
        { s with epc := .add2 t.getNextExecTimestamp.2 chain hand exec s.globalTime }
  | next_add2 (t : Task) (chain : Option Nat) (hand exec ts seed slot : Nat) (sl : Slot)
      (he : s.epc = .add2 t chain hand exec ts)
      (hseed : seed = (checkedSub exec ts).getD (t.taskId % SLOT_COUNT) + hand + 1)
      (hslot : slot = seed % SLOT_COUNT) (hw : s.wheel slot = some sl) :
      Act env s .eNext { s with
        wheel := set s.wheel slot (some (sl.addTask { t with cylinderLine := seed / SLOT_COUNT }))
        epc := .add3 (addTag t chain)
          { taskId := t.taskId, slotMark := slot, parallelRunnableNum := 0,
            maintainer := freshMaintainer chain } }
  | next_add2_missing (t : Task) (chain : Option Nat) (hand exec ts seed slot : Nat)
      (he : s.epc = .add2 t chain hand exec ts)
      (hseed : seed = (checkedSub exec ts).getD (t.taskId % SLOT_COUNT) + hand + 1)
      (hslot : slot = seed % SLOT_COUNT) (hw : s.wheel slot = none) :
      Act env s .eNext { s with
        epc := .add3 (addTag t chain)
          { taskId := t.taskId, slotMark := slot, parallelRunnableNum := 0,
            maintainer := freshMaintainer chain } }
  | next_add3 (tag : Tag) (m : TaskMark) (he : s.epc = .add3 tag m) :
      Act env s .eNext (done env
        { dropMark s (s.flags m.taskId) with flags := set s.flags m.taskId (some m) }
        tag none (some true))
  | next_remove (id : Nat) (ok : Bool) (he : s.epc = .remove id ok) :
      Act env s .eNext (done env
        { dropMark s (s.flags id) with flags := set s.flags id none }
        (.remove id) (some (.removeTask id)) (if ok then some true else none))
  | next_adv1 (t : Task) (he : s.epc = .adv1 t) :
      Act env s .eNext { s with epc := .adv2 t s.secondHand }
  | next_adv2 (t : Task) (hand : Nat) (sl : Slot) (he : s.epc = .adv2 t hand)
      (hw : s.wheel (hand + 1) = some sl) :
      Act env s .eNext (done env { s with wheel := set s.wheel (hand + 1) (some (sl.addTask t)) }
        (.advance t.taskId) none (some true))
  | next_adv2_missing (t : Task) (hand : Nat) (he : s.epc = .adv2 t hand)
      (hw : s.wheel (hand + 1) = none) :
      Act env s .eNext (done env s (.advance t.taskId) none none)
  | body (rec : Int) (r : RtInst) (hr : s.rt rec = some r) (hb : r.bodyDone = false) (hl : r.lost = false) :
      Act env s (.rBody rec) { s with
        rt := setI s.rt rec (some { r with bodyDone := true })
        log := .bodyEnded r.taskId rec :: s.log }
  | panic_caught (rec : Int) (r : RtInst) (hr : s.rt rec = some r) (hb : r.bodyDone = false) (hl : r.lost = false)
      (hc : survivesPanic (env.kind r.routine) env.runtime = true) :
      Act env s (.rPanic rec) { s with
        rt := setI s.rt rec (some { r with bodyDone := true })
        log := .bodyPanicked r.taskId rec :: s.log }
  | panic_lost (rec : Int) (r : RtInst) (hr : s.rt rec = some r) (hb : r.bodyDone = false) (hl : r.lost = false)
      (hc : survivesPanic (env.kind r.routine) env.runtime = false) :
      Act env s (.rPanic rec) { s with
        rt := setI s.rt rec (some { r with lost := true })
        log := .bodyPanicked r.taskId rec :: s.log }
  | finish (rec : Int) (now : Nat) (r : RtInst) (hr : s.rt rec = some r) (hb : r.bodyDone = true)
      (hg : r.gate = true) (hf : r.finishSent = false) :
      Act env s (.rFinish rec now)
        { push s (.finishTask { taskId := r.taskId, recordId := rec, finishTime := now }) with
          rt := setI s.rt rec (some { r with finishSent := true }) }
  | sadd (w : Nat) (u : RecycleUnit) (rest : List RecycleUnit) (hp : s.spc = .idle w)
      (hu : s.unitChan = u :: rest) :
      Act env s .sAdd { s with unitChan := rest, heap := u :: s.heap }
  | swake (w now : Nat) (hp : s.spc = .idle w) (hle : w ≤ now) :
      Act env s (.sWake now) { s with spc := .active now 200 }
  | spop (u : RecycleUnit) (now n : Nat) (hp : s.spc = .active now (n + 1)) (hu : u ∈ s.heap)
      (hmin : ∀ v ∈ s.heap, u.deadline ≤ v.deadline) (hle : u.deadline ≤ now) :
      Act env s (.sPop u) { push s (.timeoutTask u.taskId u.recordId) with
        heap := s.heap.erase u
        spc := .active now n
        log := .swept u now :: .queued (.timeout u.taskId u.recordId) :: s.log }
  | srest (now n w : Nat) (hp : s.spc = .active now n)
      (hw : n = 0 ∧ w = now + 3 ∨ heapMin s.heap = none ∧ w = now + 3 ∨
        n ≠ 0 ∧ ∃ d, heapMin s.heap = some d ∧ now < d ∧ w = d) :
      Act env s .sRest { s with spc := .idle w }
  | usend (op : UserOp) : Act env s (.uSend op) (push s op.event)
  | uinsert (t : Task) : Act env s (.uInsert t) (uInsert s t)
  | unext_expired (c : Nat) (hh : s.chainHeld c = true) (hs : s.chainState c = ABANDONED) :
      Act env s (.uNext c) { s with log := .expired c :: s.log }
  | unext (c : Nat) (i : Instance) (rest : List Instance) (hh : s.chainHeld c = true)
      (hs : s.chainState c ≠ ABANDONED) (hq : s.chainQueue c = i :: rest) :
      Act env s (.uNext c)
        { s with chainQueue := set s.chainQueue c rest, log := .delivered c i :: s.log }
  | udrop (c : Nat) (hh : s.chainHeld c = true) :
      Act env s (.uDropChain c)
        { s with chainState := set s.chainState c DROPPED, chainHeld := set s.chainHeld c false }
  | ucancel (w : Nat) (i : Instance) (hw : s.waiters w = .none) (hr : s.hdrState i.hdr = RUNNING) :
      Act env s (.uCancel w i)
        { push s (.cancelTask i.taskId i.recordId) with waiters := set s.waiters w (.sent i.hdr) }
  | ulisten (w h : Nat) (hw : s.waiters w = .sent h) :
      Act env s (.uListen w) { s with waiters := set s.waiters w (.listening h) }
  | ureturn (w h : Nat) (hw : s.waiters w = .woken h) :
      Act env s (.uReturn w) { s with waiters := set s.waiters w (.returned (s.hdrState h)) }
  | ugiveup (w h : Nat) (hw : s.waiters w = .listening h) :
      Act env s (.uGiveUp w) { s with waiters := set s.waiters w .timedOut }

theorem step_act {env : Env} {s s' : St} {l : Label} (h : step env s l = some s') :
    Act env s l s' := by
  cases l with
  | tLoad =>
    simp only [step, tLoad] at h
    split at h <;> try contradiction
    split at h <;> cases h
    · exact .load_go ‹_› ‹_›
    · exact .load_halt ‹_› (by simp_all)
  | tStore =>
    simp only [step, tStore] at h
    split at h <;> try contradiction
    cases h; exact .store ‹_›
  | tArrive =>
    simp only [step, tArrive] at h
    split at h <;> try contradiction
    split at h <;> cases h
    · exact .arrive _ ‹_› ‹_›
    · exact .arrive_missing ‹_› ‹_›
  | tPop id =>
    simp only [step, tPop] at h
    split at h <;> try contradiction
    split at h <;> try contradiction
    split at h
    · split at h <;> cases h
      · rename_i sl hw _ t sl' hr
        have h1 : (sl.removeTask id).1 = some t := by rw [hr]
        have h2 : (sl.removeTask id).2 = sl' := by rw [hr]
        subst h2
        exact .pop_hit _ _ _ _ ‹_› ‹_› ‹_› h1
      · rename_i sl hw _ sl' hr
        refine .pop_miss _ _ ‹_› ‹_› ?_
        intro sl2 h2
        rw [hw] at h2; cases h2; rw [hr]
    · cases h
      refine .pop_miss _ _ ‹_› ‹_› ?_
      intro sl2 h2; simp_all
  | tCheck rec =>
    simp only [step, tCheck] at h
    split at h <;> try contradiction
    split at h <;> try contradiction
    split at h
    · cases h; exact .check_nolimit _ _ _ ‹_› ‹_› ‹_›
    · split at h
      · cases h; exact .check_nomark _ _ _ _ ‹_› ‹_› ‹_› ‹_›
      · split at h <;> cases h
        · exact .check_skip _ _ _ _ _ ‹_› ‹_› ‹_› ‹_› ‹_›
        · exact .check_ok _ _ _ _ _ ‹_› ‹_› ‹_› ‹_› (by omega)
  | tSpawn p =>
    simp only [step, tSpawn] at h
    split at h <;> try contradiction
    cases p <;> simp at h <;> subst h
    · exact .spawn _ _ _ ‹_›
    · exact .spawn_panic _ _ _ ‹_›
  | tAppend =>
    simp only [step, tAppend] at h
    split at h <;> try contradiction
    split at h <;> cases h
    exact .append _ _ _ ‹_›
  | tGate =>
    simp only [step, tGate] at h
    split at h <;> try contradiction
    split at h <;> cases h
    · exact .gate_panic _ _ _ ‹_› ‹_›
    · exact .gate_again _ _ _ _ ‹_› ‹_›
    · exact .gate_last _ _ _ _ ‹_› ‹_›
  | tSlot =>
    simp only [step, tSlot] at h
    split at h <;> try contradiction
    split at h
    · cases h
    split at h
    · rename_i hr; cases h
      exact .slot_none _ _ _ ‹_› (by rw [hr])
    · rename_i t _ _ _ _ exec t' hr
      have h1 : (t.getNextExecTimestamp).1 = some exec := by rw [hr]
      have h2 : (t.getNextExecTimestamp).2 = t' := by rw [hr]
      subst h2
      split at h <;> cases h
      · exact .slot_missing _ _ _ _ ‹_› h1 ‹_›
      · exact .slot_ok _ _ _ _ _ _ _ ‹_› h1 rfl rfl ‹_›
  | tMark =>
    simp only [step, tMark] at h
    split at h <;> try contradiction
    split at h <;> cases h
    · exact .mark_none _ _ _ _ ‹_› ‹_›
    · exact .mark_some _ _ _ _ _ ‹_› ‹_›
  | tLapse =>
    simp only [step, tLapse] at h
    split at h <;> try contradiction
    cases h; exact .lapse ‹_›
  | eRecv =>
    simp only [step, eRecv] at h
    split at h <;> try contradiction
    rename_i e rest he hc
    cases e with
    | stopTimer => cases h; exact .recv_stop _ he hc
    | addTask t => cases h; exact .recv_add _ _ he hc
    | insertTask t c => cases h; exact .recv_insert _ _ _ he hc
    | updateTask t =>
      dsimp only at h
      split at h
      · cases h
        exact .recv_update_skip _ _ he hc (by intro m hm; simp_all)
      · split at h <;> cases h
        · exact .recv_update_skip _ _ he hc (by intro m hm; simp_all)
        · exact .recv_update _ _ _ _ he hc ‹_› ‹_›
    | removeTask id =>
      dsimp only at h
      split at h
      · cases h; exact .recv_remove_skip _ _ he hc (by intro m hm; simp_all)
      · split at h <;> cases h
        · exact .recv_remove_skip _ _ he hc (by intro m hm; simp_all)
        · exact .recv_remove _ _ _ _ he hc ‹_› ‹_›
    | advanceTask id =>
      dsimp only at h
      split at h
      · cases h; exact .recv_advance_err _ _ he hc (by intro m sl hm; simp_all)
      · split at h
        · cases h; exact .recv_advance_err _ _ he hc (by intro m sl hm; simp_all)
        · split at h
          · rename_i hr; cases h
            refine .recv_advance_err _ _ he hc ?_
            intro m2 sl2 hm hw2
            simp_all
          · rename_i sl hw _ t sl' hr
            have h1 : (sl.removeTask id).1 = some t := by rw [hr]
            have h2 : (sl.removeTask id).2 = sl' := by rw [hr]
            subst h2; cases h
            exact .recv_advance _ _ _ _ _ he hc ‹_› ‹_› h1
    | cancelTask id rec => cases h; exact .recv_cancel _ _ _ he hc
    | timeoutTask id rec => cases h; exact .recv_timeout _ _ _ he hc
    | finishTask b => cases h; exact .recv_finish _ _ he hc
    | appendTaskHandle id box => cases h; exact .recv_append _ _ _ he hc
  | eNext =>
    simp only [step, eNext] at h
    split at h
    · contradiction
    · split at h
      · cases h
      split at h
      · rename_i hr; cases h; exact .next_add1_err _ _ _ ‹_› (by rw [hr])
      · rename_i t _ _ _ _ _ exec t' hr
        have h1 : (t.getNextExecTimestamp).1 = some exec := by rw [hr]
        have h2 : (t.getNextExecTimestamp).2 = t' := by rw [hr]
        subst h2; cases h
        exact .next_add1 _ _ _ _ ‹_› h1
    · split at h <;> cases h
      · exact .next_add2 _ _ _ _ _ _ _ _ ‹_› rfl rfl ‹_›
      · exact .next_add2_missing _ _ _ _ _ _ _ ‹_› rfl rfl ‹_›
    · simp only [dropMark_flags] at h; cases h; exact .next_add3 _ _ ‹_›
    · simp only [dropMark_flags] at h; cases h; exact .next_remove _ _ ‹_›
    · cases h; exact .next_adv1 _ ‹_›
    · split at h <;> cases h
      · exact .next_adv2 _ _ _ ‹_› ‹_›
      · exact .next_adv2_missing _ _ ‹_› ‹_›
  | rBody rec =>
    simp only [step, rBody] at h
    split at h <;> try contradiction
    split at h <;> try contradiction
    cases h; exact .body _ _ ‹_› (by simp_all) (by simp_all)
  | rPanic rec =>
    simp only [step, rPanic] at h
    split at h <;> try contradiction
    split at h <;> try contradiction
    split at h <;> cases h
    · exact .panic_caught _ _ ‹_› (by simp_all) (by simp_all) ‹_›
    · exact .panic_lost _ _ ‹_› (by simp_all) (by simp_all) (by simp_all)
  | rFinish rec now =>
    simp only [step, rFinish] at h
    split at h <;> try contradiction
    split at h <;> try contradiction
    rename_i hc; simp at hc
    cases h; exact .finish _ _ _ ‹_› hc.1.1 hc.1.2 hc.2
  | sAdd =>
    simp only [step, sAdd] at h
    split at h <;> try contradiction
    cases h; exact .sadd _ _ _ ‹_› ‹_›
  | sWake now =>
    simp only [step, sWake] at h
    split at h <;> try contradiction
    split at h <;> try contradiction
    cases h; exact .swake _ _ ‹_› ‹_›
  | sPop u =>
    simp only [step, sPop] at h
    split at h <;> try contradiction
    split at h <;> try contradiction
    rename_i hc
    cases h; exact .spop _ _ _ ‹_› hc.1 hc.2.1 hc.2.2
  | sRest =>
    simp only [step, sRest] at h
    split at h
    · cases h; exact .srest _ _ _ ‹_› (.inl ⟨rfl, rfl⟩)
    · split at h
      · cases h; exact .srest _ _ _ ‹_› (.inr (.inl ⟨‹_›, rfl⟩))
      · split at h <;> try contradiction
        cases h
        exact .srest _ _ _ ‹_› (.inr (.inr ⟨by omega, _, ‹_›, by omega, by omega⟩))
    · contradiction
  | uSend op => simp only [step] at h; cases h; exact .usend _
  | uInsert t => simp only [step] at h; cases h; exact .uinsert _
  | uNext c =>
    simp only [step, uNext] at h
    split at h <;> try contradiction
    split at h
    · cases h; exact .unext_expired _ ‹_› ‹_›
    · split at h <;> try contradiction
      cases h; exact .unext _ _ _ ‹_› ‹_› ‹_›
  | uDropChain c =>
    simp only [step, uDropChain] at h
    split at h <;> try contradiction
    cases h; exact .udrop _ ‹_›
  | uCancel w i =>
    simp only [step, uCancel, cancelInstance] at h
    split at h <;> try contradiction
    split at h <;> try contradiction
    rename_i hc
    split at hc <;> try contradiction
    cases hc; cases h
    exact .ucancel _ _ ‹_› (by simp_all)
  | uListen w =>
    simp only [step, uListen] at h
    split at h <;> try contradiction
    cases h; exact .ulisten _ _ ‹_›
  | uReturn w =>
    simp only [step, uReturn] at h
    split at h <;> try contradiction
    cases h; exact .ureturn _ _ ‹_›
  | uGiveUp w =>
    simp only [step, uGiveUp] at h
    split at h <;> try contradiction
    cases h; exact .ugiveup _ _ ‹_›

/-! ## Executions -/

theorem run_append (env : Env) (s : St) (l₁ l₂ : List Label) :
    run env s (l₁ ++ l₂) = (run env s l₁).bind (fun s' => run env s' l₂) := by
  induction l₁ generalizing s with
  | nil => rfl
  | cons l ls ih =>
    simp only [List.cons_append, run]
    cases step env s l with
    | none => rfl
    | some s' => exact ih s'

theorem Reachable.init (env : Env) : Reachable env (init env) := ⟨[], rfl⟩

theorem Reachable.run {env : Env} {s s' : St} {ls : List Label} (hs : Reachable env s)
    (h : DelayTimer.run env s ls = some s') : Reachable env s' := by
  obtain ⟨l0, h0⟩ := hs
  exact ⟨l0 ++ ls, by rw [run_append, h0]; exact h⟩

theorem Reachable.step {env : Env} {s s' : St} {l : Label} (hs : Reachable env s)
    (h : DelayTimer.step env s l = some s') : Reachable env s' :=
  hs.run (ls := [l]) (by simp [DelayTimer.run, h])

/-- An execution preserves whatever every action preserves. -/
theorem run_induct {env : Env} (P : St → Prop)
    (hstep : ∀ s l s', P s → Act env s l s' → P s') :
    ∀ ls s s', P s → run env s ls = some s' → P s' := by
  intro ls
  induction ls with
  | nil => intro s s' hs h; cases h; exact hs
  | cons l ls ih =>
    intro s s' hs h
    simp only [run] at h
    split at h
    · rename_i s1 h1; exact ih s1 s' (hstep _ _ _ hs (step_act h1)) h
    · contradiction

/-- Like `run_induct`, with a condition on the labels. -/
theorem run_induct_of {env : Env} (P : St → Prop) (Q : Label → Prop)
    (hstep : ∀ s l s', P s → Q l → Act env s l s' → P s') :
    ∀ ls s s', (∀ l ∈ ls, Q l) → P s → run env s ls = some s' → P s' := by
  intro ls
  induction ls with
  | nil => intro s s' _ hs h; cases h; exact hs
  | cons l ls ih =>
    intro s s' hq hs h
    simp only [run] at h
    split at h
    · rename_i s1 h1
      exact ih s1 s' (fun l hl => hq l (List.mem_cons_of_mem _ hl))
        (hstep _ _ _ hs (hq l List.mem_cons_self) (step_act h1)) h
    · contradiction

/-- Induction over reachable states. -/
theorem Reachable.induct {env : Env} (P : St → Prop) (h0 : P (DelayTimer.init env))
    (hstep : ∀ s l s', Reachable env s → P s → Act env s l s' → P s') :
    ∀ s, Reachable env s → P s := by
  suffices H : ∀ ls s s', Reachable env s → P s → DelayTimer.run env s ls = some s' → P s' by
    intro s ⟨ls, h⟩
    exact H ls _ s (.init env) h0 h
  intro ls
  induction ls with
  | nil => intro s s' _ hs h; cases h; exact hs
  | cons l ls ih =>
    intro s s' hr hs h
    simp only [DelayTimer.run] at h
    split at h
    · rename_i s1 h1
      exact ih s1 s' (hr.step h1) (hstep _ _ _ hr hs (step_act h1)) h
    · contradiction

end DelayTimer
