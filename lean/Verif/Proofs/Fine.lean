import Verif.Model.Fine
import Verif.Props.Instances

namespace DelayTimer.Fine

open Locks (Shards Mode conflict)

/-- One place of a table shown with another content. -/
def over {α : Type} (o : Option (Nat × α)) (f : Nat → α) : Nat → α :=
  match o with
  | none => f
  | some kv => set f kv.1 kv.2

/-- What `Model/System.lean` shows otherwise than the memory as it is. -/
structure Patch where
  pend : List TimerEvent := []
  tr : Option (Nat × List HandlerBox) := none
  fl : Option (Nat × Option TaskMark) := none
  hd : Option (Nat × Nat) := none
  cs : Option (Nat × Nat) := none
  hl : Option (Nat × Bool) := none
  units : List RecycleUnit := []
  reps : List PublicEvent := []

/-- The state as it is shown. -/
def view (p : Patch) (s : St) : St :=
  { s with
    chan := p.pend ++ s.chan
    trace := over p.tr s.trace
    flags := over p.fl s.flags
    hdrState := over p.hd s.hdrState
    chainState := over p.cs s.chainState
    chainHeld := over p.hl s.chainHeld
    unitChan := s.unitChan ++ p.units
    reports := s.reports ++ p.reps }

theorem over_other {α : Type} {o : Option (Nat × α)} {f : Nat → α} {x : Nat} (h : ∀ kv, o = some kv → kv.1 ≠ x) :
    over o f x = f x := by
  cases o with
  | none => rfl
  | some kv => exact set_other _ _ _ (fun e => h kv rfl e.symm)

theorem over_set {α : Type} {o : Option (Nat × α)} {f : Nat → α} {x : Nat} {v : α}
    (h : ∀ kv, o = some kv → kv.1 ≠ x) : over o (set f x v) = set (over o f) x v := by
  cases o with
  | none => rfl
  | some kv =>
    funext y
    have := h kv rfl
    simp only [over, set]
    split <;> split <;> first | rfl | (rename_i a b; exact absurd (a.symm.trans b) this)

theorem over_none {α : Type} (f : Nat → α) : over none f = f := rfl

theorem over_some {α : Type} (f : Nat → α) (i : Nat) (v : α) : over (some (i, v)) f = set f i v := rfl

/-- The other threads do not see the difference. -/
structure Unseen (p : Patch) (s : St) (l : Label) : Prop where
  mark : ∀ g kv, asks s l = some g → p.fl = some kv → kv.1 ≠ g.id
  woken : ∀ kv, p.hd = some kv → ∀ w, s.waiters w ≠ .woken kv.1
  ended : ∀ kv, p.hd = some kv → s.hdrState kv.1 ≠ RUNNING
  gone : ∀ kv, p.cs = some kv → s.chainHeld kv.1 = false ∧ kv.1 ≠ s.nextChain
  same : ∀ kv, p.hl = some kv → ∃ v, p.cs = some (kv.1, v)

theorem view_push (p : Patch) (s : St) (e : TimerEvent) : push (view p s) e = view p (push s e) := by
  simp only [push, view, List.append_assoc]

theorem view_tPop (p : Patch) (s : St) (id : Nat) : tPop (view p s) id = (tPop s id).map (view p) := by
  unfold tPop
  show (match s.tpc with | .batch pending => _ | _ => _) = _
  cases s.tpc <;> try rfl
  dsimp only
  split
  · show (match s.wheel s.secondHand with | some sl => _ | none => _) = _
    cases s.wheel s.secondHand with
    | none => rfl
    | some sl =>
      dsimp only
      cases hr : sl.removeTask id with
      | mk a b => cases a <;> rfl
  · rfl

theorem view_tAppend (env : Env) (p : Patch) (s : St) : tAppend env (view p s) = (tAppend env s).map (view p) := by
  unfold tAppend
  show (match s.tpc with | .append pending t box => _ | _ => _) = _
  cases s.tpc <;> try rfl
  dsimp only
  split
  · rfl
  · rw [view_push]; rfl

theorem view_tSlot (env : Env) (p : Patch) (s : St) : tSlot env (view p s) = (tSlot env s).map (view p) := by
  unfold tSlot
  show (match s.tpc with | .rearm pending t upd => _ | _ => _) = _
  cases s.tpc <;> try rfl
  dsimp only
  split
  · rfl
  · rename_i t _ _
    cases hr : t.getNextExecTimestamp with
    | mk a b =>
      cases a with
      | none => rfl
      | some exec =>
        dsimp only
        show (match s.wheel (((checkedSub exec (env.clock s.ticks)).getD 1 + nextSecondHand s) % SLOT_COUNT) with
          | none => _ | some sl => _) = _
        cases s.wheel (((checkedSub exec (env.clock s.ticks)).getD 1 + nextSecondHand s) % SLOT_COUNT) <;> rfl

theorem view_sPop (p : Patch) (s : St) (u : RecycleUnit) : sPop (view p s) u = (sPop s u).map (view p) := by
  unfold sPop
  show (match s.spc with | .active now (n + 1) => _ | _ => _) = _
  cases s.spc with
  | idle w => rfl
  | active now n =>
    cases n with
    | zero => rfl
    | succ n =>
      dsimp only
      simp only [show (view p s).heap = s.heap from rfl]
      split
      · simp only [view_push]; rfl
      · rfl

theorem view_sRest (p : Patch) (s : St) : sRest (view p s) = (sRest s).map (view p) := by
  unfold sRest
  show (match s.spc with | .active now 0 => _ | .active now (_ + 1) => _ | .idle _ => _) = _
  cases s.spc with
  | idle w => rfl
  | active now n =>
    cases n with
    | zero => rfl
    | succ n =>
      dsimp only
      show (match heapMin s.heap with | none => _ | some d => _) = _
      cases heapMin s.heap with
      | none => rfl
      | some d => dsimp only; split <;> rfl

theorem view_step {env : Env} {p : Patch} {s s' : St} {l : Label} (hl : ofEvents l = false) (hu : Unseen p s l)
    (h : step env s l = some s') : step env (view p s) l = some (view p s') := by
  by_cases h1 : ∃ id, l = .tPop id
  · obtain ⟨id, rfl⟩ := h1
    exact (view_tPop p s id).trans (by rw [show tPop s id = some s' from h]; rfl)
  by_cases h2 : l = .tAppend
  · subst h2; exact (view_tAppend env p s).trans (by rw [show tAppend env s = some s' from h]; rfl)
  by_cases h3 : l = .tSlot
  · subst h3; exact (view_tSlot env p s).trans (by rw [show tSlot env s = some s' from h]; rfl)
  by_cases h4 : ∃ u, l = .sPop u
  · obtain ⟨u, rfl⟩ := h4
    exact (view_sPop p s u).trans (by rw [show sPop s u = some s' from h]; rfl)
  by_cases h5 : l = .sRest
  · subst h5; exact (view_sRest p s).trans (by rw [show sRest s = some s' from h]; rfl)
  have ha := step_act h
  clear h
  cases ha
  all_goals try (exact absurd hl (by decide))
  all_goals try (exact absurd ⟨_, rfl⟩ h1)
  all_goals try (exact absurd rfl h2)
  all_goals try (exact absurd rfl h3)
  all_goals try (exact absurd ⟨_, rfl⟩ h4)
  all_goals try (exact absurd rfl h5)
  all_goals try (simp [step, tLoad, tStore, tArrive, tSpawn, tGate, tLapse, rBody, rPanic, rFinish,
    sAdd, sWake, uListen, uReturn, uGiveUp, push, view, *]; done)
  case check_nolimit pending t rec h hrec hmax =>
    show tCheck env (view p s) rec = _
    simp only [tCheck, show (view p s).tpc = s.tpc from rfl, show (view p s).recs = s.recs from rfl, h, hrec, hmax, if_true]
    rfl
  case check_nomark pending t rec k h hrec hmax hf =>
    have hk : (view p s).flags t.taskId = none :=
      (over_other fun kv e => hu.mark ⟨t.taskId, .read⟩ kv (by simp only [asks, h, hmax]; rfl) e).trans hf
    show tCheck env (view p s) rec = _
    simp only [tCheck, show (view p s).tpc = s.tpc from rfl, show (view p s).recs = s.recs from rfl, h, hrec, hmax, if_true, hk]
    rfl
  case check_skip pending t rec k m h hrec hmax hf hle =>
    have hk : (view p s).flags t.taskId = some m :=
      (over_other fun kv e => hu.mark ⟨t.taskId, .read⟩ kv (by simp only [asks, h, hmax]; rfl) e).trans hf
    show tCheck env (view p s) rec = _
    simp only [tCheck, show (view p s).tpc = s.tpc from rfl, show (view p s).recs = s.recs from rfl, h, hrec, hmax, if_true, hk,
      if_pos hle]
    rfl
  case check_ok pending t rec k m h hrec hmax hf hlt =>
    have hk : (view p s).flags t.taskId = some m :=
      (over_other fun kv e => hu.mark ⟨t.taskId, .read⟩ kv (by simp only [asks, h, hmax]; rfl) e).trans hf
    show tCheck env (view p s) rec = _
    simp only [tCheck, show (view p s).tpc = s.tpc from rfl, show (view p s).recs = s.recs from rfl, h, hrec, hmax, if_true, hk,
      if_neg (Nat.not_le.2 hlt)]
    rfl
  case mark_none pending id slot upd h hf =>
    have hk : (view p s).flags id = none :=
      (over_other fun kv e => hu.mark ⟨id, .write⟩ kv (by simp only [asks, h]) e).trans hf
    show tMark (view p s) = _
    simp only [tMark, show (view p s).tpc = s.tpc from rfl, h, hk]
    rfl
  case mark_some pending id slot upd m h hf =>
    have hk : (view p s).flags id = some m :=
      (over_other fun kv e => hu.mark ⟨id, .write⟩ kv (by simp only [asks, h]) e).trans hf
    show tMark (view p s) = _
    simp only [tMark, show (view p s).tpc = s.tpc from rfl, h, hk]
    simp only [view, over_set fun kv e => hu.mark ⟨id, .write⟩ kv (by simp only [asks, h]) e]
  case uinsert t =>
    have h6 : ∀ kv, p.cs = some kv → kv.1 ≠ s.nextChain := fun kv e => (hu.gone kv e).2
    have h7 : ∀ kv, p.hl = some kv → kv.1 ≠ s.nextChain := fun kv e => by
      obtain ⟨v, hv⟩ := hu.same kv e
      exact (hu.gone _ hv).2
    show some (uInsert (view p s) t) = _
    simp only [uInsert, view_push]
    simp only [view, push, over_set h6, over_set h7]
  case unext_expired c h hs =>
    have h6 : ∀ kv, p.cs = some kv → kv.1 ≠ c := fun kv e e' => by
      have := (hu.gone kv e).1; rw [e', h] at this; cases this
    have h7 : ∀ kv, p.hl = some kv → kv.1 ≠ c := fun kv e => by
      obtain ⟨v, hv⟩ := hu.same kv e
      exact h6 _ hv
    show uNext (view p s) c = _
    simp only [uNext, show (view p s).chainHeld c = true from (over_other h7).trans h,
      show (view p s).chainState c = ABANDONED from (over_other h6).trans hs, if_true]
    rfl
  case unext c i rest h hs hq =>
    have h6 : ∀ kv, p.cs = some kv → kv.1 ≠ c := fun kv e e' => by
      have := (hu.gone kv e).1; rw [e', h] at this; cases this
    have h7 : ∀ kv, p.hl = some kv → kv.1 ≠ c := fun kv e => by
      obtain ⟨v, hv⟩ := hu.same kv e
      exact h6 _ hv
    show uNext (view p s) c = _
    have h8 : (view p s).chainState c ≠ ABANDONED := fun e => hs ((over_other h6).symm.trans e)
    simp only [uNext, show (view p s).chainHeld c = true from (over_other h7).trans h, if_neg h8, if_true,
      show (view p s).chainQueue c = i :: rest from hq]
    rfl
  case udrop c h =>
    have h6 : ∀ kv, p.cs = some kv → kv.1 ≠ c := fun kv e e' => by
      have := (hu.gone kv e).1; rw [e', h] at this; cases this
    have h7 : ∀ kv, p.hl = some kv → kv.1 ≠ c := fun kv e => by
      obtain ⟨v, hv⟩ := hu.same kv e
      exact h6 _ hv
    show uDropChain (view p s) c = _
    simp only [uDropChain, show (view p s).chainHeld c = true from (over_other h7).trans h, if_true]
    simp only [view, over_set h6, over_set h7]
  case ucancel w i hw hr =>
    have h6 : (view p s).hdrState i.hdr = RUNNING :=
      (over_other fun kv e e' => hu.ended kv e (by rw [e']; exact hr)).trans hr
    show uCancel (view p s) w i = _
    simp only [uCancel, show (view p s).waiters w = .none from hw, cancelInstance, h6, ne_eq, not_true, if_false, view_push]
    rfl
  case ureturn w h hw =>
    have h6 : (view p s).hdrState h = s.hdrState h :=
      over_other fun kv e e' => hu.woken kv e w (by rw [e']; exact hw)
    show uReturn (view p s) w = _
    simp only [uReturn, show (view p s).waiters w = .woken h from hw, h6]
    rfl

/-! ## What is shown at each position -/

/-- The chain `c` was in state `cs` when it was looked at; a drop since then is not shown yet. -/
def hidden {α : Type} (s : St) (c : Nat) (v : α) : Option (Nat × α) :=
  if s.chainState c = DROPPED then some (c, v) else none

/-- The mark as it is after `push_back`. -/
def listed (m : TaskMark) (mt : Maintainer) (inst : Instance) : TaskMark :=
  { m with maintainer := some { mt with innerList := mt.innerList ++ [inst] } }

/-- A run that is being registered counts as registered, one that is being ended as running, until the access that makes
the difference for the others. -/
def patchOf (env : Env) (f : FSt) : Patch :=
  match f.pos with
  | .level => {}
  | .took e => { pend := [e] }
  | .looked e _ => { pend := [e] }
  | .quitted k old => { pend := [k.ev], tr := some (k.id, old) }
  | .locked k old m _ => { pend := [k.ev], tr := some (k.id, old), fl := some (k.id, some m) }
  | .found k old m mt cs _ =>
    { pend := [k.ev], tr := some (k.id, old), fl := some (k.id, some m), cs := hidden f.core mt.chain cs,
      hl := hidden f.core mt.chain true }
  | .stored k old m mt cs inst was =>
    { pend := [k.ev], tr := some (k.id, old), fl := some (k.id, some m), cs := hidden f.core mt.chain cs,
      hl := hidden f.core mt.chain true, hd := some (inst.hdr, was) }
  | .uncounted k => { fl := some (k.id, (f.core.flags k.id).map dec), reps := late env k.ev (some true) }
  | .registering id box _ _ => { pend := [.appendTaskHandle id box] }
  | .pushing id box _ mt cs =>
    { pend := [.appendTaskHandle id box], cs := hidden f.core mt.chain cs, hl := hidden f.core mt.chain true }
  | .listing id box m mt inst =>
    { fl := some (id, some (listed m mt inst)), units := unitsOf box, tr := some (id, f.core.trace id ++ [box]),
      reps := late env (.appendTaskHandle id box) (some true) }
  | .units id box =>
    { units := unitsOf box, tr := some (id, f.core.trace id ++ [box]), reps := late env (.appendTaskHandle id box) (some true) }
  | .tracing id box =>
    { tr := some (id, f.core.trace id ++ [box]), reps := late env (.appendTaskHandle id box) (some true) }
  | .report ps => { reps := ps }

/-- The task an event of the first kind looks for. -/
def target : TimerEvent → Option Nat
  | .updateTask t => some t.taskId
  | .advanceTask id => some id
  | .removeTask id => some id
  | _ => none

/-- The run an event ends. -/
def stopOf : TimerEvent → Option Stop
  | .cancelTask id r => some ⟨.cancelTask id r, id, r, .cancel⟩
  | .timeoutTask id r => some ⟨.timeoutTask id r, id, r, .timeout⟩
  | .finishTask b => some ⟨.finishTask b, b.taskId, b.recordId, .finish⟩
  | _ => none

/-- The mark after an early decrement. -/
def edited (k : Stop) (m : TaskMark) : TaskMark := if k.how.early then dec m else m

/-- A chain that was not dropped when it was looked at. -/
def Seen (s : St) (c cs : Nat) : Prop :=
  cs ≠ DROPPED ∧ (s.chainState c = cs ∨ s.chainState c = DROPPED ∧ s.chainHeld c = false)

/-- What the event thread knows at each position. -/
def Ok (env : Env) (f : FSt) : Prop :=
  match f.pos with
  | .level => True
  | .took _ => f.core.epc = .idle
  | .looked e slot => f.core.epc = .idle ∧ ∃ id m, target e = some id ∧ f.gE = some ⟨id, .read⟩ ∧
      f.core.flags id = some m ∧ m.slotMark = slot
  | .quitted k old => f.core.epc = .idle ∧ stopOf k.ev = some k ∧ quitOne env old k.record = some (f.core.trace k.id)
  | .locked k old m mt => f.core.epc = .idle ∧ stopOf k.ev = some k ∧ quitOne env old k.record = some (f.core.trace k.id) ∧
      f.gE = some ⟨k.id, .write⟩ ∧ m.maintainer = some mt ∧ f.core.flags k.id = some (edited k m)
  | .found k old m mt cs inst =>
      f.core.epc = .idle ∧ stopOf k.ev = some k ∧ quitOne env old k.record = some (f.core.trace k.id) ∧
      f.gE = some ⟨k.id, .write⟩ ∧ m.maintainer = some mt ∧ Seen f.core mt.chain cs ∧
      ∃ n rest, mt.innerList.findIdx? (fun i => i.recordId == k.record) = some n ∧ mt.innerList.drop n = inst :: rest ∧
        f.core.flags k.id =
          some { edited k m with maintainer := some { mt with innerList := mt.innerList.take n ++ rest } }
  | .stored k old m mt cs inst was =>
      f.core.epc = .idle ∧ stopOf k.ev = some k ∧ quitOne env old k.record = some (f.core.trace k.id) ∧
      f.gE = some ⟨k.id, .write⟩ ∧ m.maintainer = some mt ∧ Seen f.core mt.chain cs ∧
      (∃ n rest, mt.innerList.findIdx? (fun i => i.recordId == k.record) = some n ∧ mt.innerList.drop n = inst :: rest ∧
        f.core.flags k.id =
          some { edited k m with maintainer := some { mt with innerList := mt.innerList.take n ++ rest } }) ∧
      was = RUNNING ∧ f.core.hdrState inst.hdr = k.how.state
  | .uncounted k => f.core.epc = .idle ∧ f.gE = some ⟨k.id, .write⟩
  | .registering id _ m mt => f.core.epc = .idle ∧ f.gE = some ⟨id, .write⟩ ∧ f.core.flags id = some m ∧
      m.maintainer = some mt
  | .pushing id _ m mt cs => f.core.epc = .idle ∧ f.gE = some ⟨id, .write⟩ ∧ f.core.flags id = some m ∧
      m.maintainer = some mt ∧ Seen f.core mt.chain cs
  | .listing id _ m mt _ => f.core.epc = .idle ∧ f.gE = some ⟨id, .write⟩ ∧ f.core.flags id = some m ∧
      m.maintainer = some mt
  | .units _ _ => f.core.epc = .idle
  | .tracing _ _ => f.core.epc = .idle
  | .report _ => f.core.epc = .idle

/-- The labels of the other threads, but for the dropping of a chain, which may be shown later than it happens. -/
def visible : Label → Bool
  | .eRecv | .eNext | .uDropChain _ => false
  | _ => true

/-- A state of `Model/System.lean`, and the labels of the other threads on the way to it. -/
def Via (env : Env) (L : List Label) (s : St) : Prop := ∃ ls, run env (init env) ls = some s ∧ ls.filter visible = L

theorem Via.reach {env : Env} {L : List Label} {s : St} (h : Via env L s) : Reachable env s := ⟨h.choose, h.choose_spec.1⟩

theorem Via.step {env : Env} {L : List Label} {s s' : St} {l : Label} (h : Via env L s) (h1 : DelayTimer.step env s l = some s') :
    Via env (L ++ [l].filter visible) s' := by
  obtain ⟨ls, h2, h3⟩ := h
  refine ⟨ls ++ [l], ?_, by rw [List.filter_append, h3]⟩
  rw [run_append, h2]
  simp [run, h1]

theorem Via.silent {env : Env} {L : List Label} {s s' : St} {l : Label} (h : Via env L s) (h1 : DelayTimer.step env s l = some s')
    (hv : visible l = false) : Via env L s' := by
  have := h.step h1
  rwa [List.filter_cons_of_neg (by simp [hv]), List.filter_nil, List.append_nil] at this

/-- What is shown is a state of `Model/System.lean`. -/
def Shown (env : Env) (L : List Label) (f : FSt) : Prop := Ok env f ∧ Via env L (view (patchOf env f) f.core)

variable {L : List Label}

/-! ## The other threads -/

/-- What they leave alone. -/
theorem other_frame {env : Env} {s s' : St} {l : Label} (hl : ofEvents l = false) (ha : Act env s l s') :
    s'.epc = s.epc ∧ s'.trace = s.trace ∧ s'.hdrState = s.hdrState ∧
    (∀ id, (∀ g, asks s l = some g → g.id = id → g.mode = .read) → s'.flags id = s.flags id) ∧
    (∀ c, c ≠ s.nextChain → l ≠ .uDropChain c → s'.chainState c = s.chainState c ∧ s'.chainHeld c = s.chainHeld c) := by
  cases ha
  all_goals try (exact absurd hl (by decide))
  all_goals try (exact ⟨rfl, rfl, rfl, fun _ _ => rfl, fun _ _ _ => ⟨rfl, rfl⟩⟩)
  case mark_some pending id slot upd m h hf =>
    refine ⟨rfl, rfl, rfl, fun j hj => ?_, fun _ _ _ => ⟨rfl, rfl⟩⟩
    by_cases e : j = id
    · exact nomatch hj ⟨id, .write⟩ (by simp only [asks, h]) e.symm
    · exact set_other _ _ _ e
  case uinsert t =>
    exact ⟨rfl, rfl, rfl, fun _ _ => rfl, fun c hc _ => ⟨set_other _ _ _ hc, set_other _ _ _ hc⟩⟩
  case udrop c h =>
    refine ⟨rfl, rfl, rfl, fun _ _ => rfl, fun d _ hd => ?_⟩
    have e : d ≠ c := fun e => hd (by rw [e])
    exact ⟨set_other _ _ _ e, set_other _ _ _ e⟩

/-- A chain of a maintainer was handed out. -/
theorem chain_lt {env : Env} {s : St} (hr : Reachable env s) {id : Nat} {m : TaskMark} {mt : Maintainer}
    (hf : s.flags id = some m) (hm : m.maintainer = some mt) : mt.chain < s.nextChain := by
  have h1 := (chainOk hr).cur id mt (by rw [mts_eq hf, hm])
  have h2 := mem_dispatchedTags.2 ⟨_, chainOf_dispatched h1⟩
  have := mem_insertChains (dispatched_queued hr h2)
  rw [insertChains_range hr] at this
  simpa using this

theorem clash_none {sh : Shards} {id : Nat} {m : Mode} {g : Guard} (h : clash sh (some ⟨id, m⟩) g.id g.mode = false) :
    g.id = id → conflict m g.mode = false := by
  intro e
  simp only [clash, e, beq_self_eq_true, Bool.true_and] at h
  exact h

theorem nothing {α : Type} {o : Option α} {P : α → Prop} (h : o = none) : ∀ kv, o = some kv → P kv := by
  intro kv e; rw [h] at e; cases e

theorem unseen_plain {p : Patch} {s : St} {l : Label} (hf : p.fl = none) (hd : p.hd = none) (hc : p.cs = none)
    (hh : p.hl = none) : Unseen p s l :=
  ⟨fun g kv _ => nothing (P := fun kv => kv.1 ≠ g.id) hf kv, nothing hd, nothing hd, nothing hc, nothing hh⟩

theorem unseen_mark {p : Patch} {s : St} {l : Label} {id : Nat} {v : Option TaskMark} (hf : p.fl = some (id, v))
    (hd : p.hd = none) (hc : p.cs = none) (hh : p.hl = none) (hg : ∀ g, asks s l = some g → g.id ≠ id) : Unseen p s l :=
  ⟨fun g kv ha h => (by rw [hf] at h; cases h; exact fun e => hg g ha e.symm), nothing hd, nothing hd, nothing hc,
    nothing hh⟩

theorem hidden_some {α : Type} {s : St} {c : Nat} {v : α} {kv : Nat × α} (h : hidden s c v = some kv) :
    s.chainState c = DROPPED ∧ kv = (c, v) := by
  unfold hidden at h
  split at h
  · exact ⟨by assumption, (Option.some.inj h).symm⟩
  · cases h

theorem hidden_none {α : Type} {s : St} {c : Nat} {v : α} (h : s.chainState c ≠ DROPPED) : hidden s c v = none := if_neg h

theorem hidden_pos {α : Type} {s : St} {c : Nat} {v : α} (h : s.chainState c = DROPPED) : hidden s c v = some (c, v) :=
  if_pos h

theorem hidden_congr {α : Type} {s s' : St} {c : Nat} {v : α} (h : s'.chainState c = s.chainState c) :
    hidden s' c v = hidden s c v := by unfold hidden; rw [h]

theorem over_undo {α : Type} {f : Nat → α} {c : Nat} {v w : α} (h : f c = v) : set (set f c w) c v = f := by
  rw [set_set, ← h, set_self]

/-- A drop that is not shown. -/
theorem view_drop {p : Patch} {s : St} {c cs : Nat} (h1 : s.chainState c = cs) (h2 : s.chainHeld c = true) :
    view { p with cs := some (c, cs), hl := some (c, true) }
      { s with chainState := set s.chainState c DROPPED, chainHeld := set s.chainHeld c false } =
    view { p with cs := none, hl := none } s := by
  simp only [view, over, over_undo h1, over_undo h2]

/-- A step of another thread between looking at the chain and the access that makes the difference. -/
theorem other_chain {env : Env} {p p' : Patch} {s s' : St} {l : Label} {c cs : Nat} (hl : ofEvents l = false)
    (h : step env s l = some s') (hseen : Seen s c cs) (hc : c ≠ s.nextChain)
    (hp : p = { p' with cs := hidden s c cs, hl := hidden s c true })
    (hu : s.chainState c = DROPPED ∨ l ≠ .uDropChain c → Unseen p s l)
    (hr : Via env L (view p s)) :
    Seen s' c cs ∧ Via env (L ++ [l].filter visible) (view { p' with cs := hidden s' c cs, hl := hidden s' c true } s') := by
  obtain ⟨h1, h2⟩ := hseen
  by_cases hd : s.chainState c ≠ DROPPED ∧ l = .uDropChain c
  · obtain ⟨hd, rfl⟩ := hd
    have h3 : s.chainState c = cs := by
      rcases h2 with h2 | h2
      · exact h2
      · exact absurd h2.1 hd
    have ha := step_act h
    cases ha
    rename_i hheld
    refine ⟨⟨h1, Or.inr ⟨set_same _ _ _, set_same _ _ _⟩⟩, ?_⟩
    rw [hidden_pos (set_same _ _ _), hidden_pos (set_same _ _ _), view_drop h3 hheld]
    rw [hp, hidden_none hd, hidden_none hd] at hr
    exact (congrArg (Via env · _) (List.append_nil L)).mpr hr
  · have hd' : s.chainState c = DROPPED ∨ l ≠ .uDropChain c := by
      by_cases e : s.chainState c = DROPPED
      · exact Or.inl e
      · exact Or.inr fun e' => hd ⟨e, e'⟩
    have hne : l ≠ .uDropChain c := by
      intro e
      rcases hd' with e' | e'
      · rcases h2 with h2 | h2
        · exact h1 (h2.symm.trans e')
        · have ha := step_act h
          rw [e] at ha
          cases ha
          rename_i hheld
          rw [h2.2] at hheld; cases hheld
      · exact e' e
    obtain ⟨_, _, _, _, hfr⟩ := other_frame hl (step_act h)
    obtain ⟨h3, h4⟩ := hfr c hc hne
    refine ⟨⟨h1, ?_⟩, ?_⟩
    · rw [h3, h4]; exact h2
    · rw [hidden_congr h3, hidden_congr h3, ← hp]
      exact hr.step (view_step hl (hu hd') h)

/-- The guards: a thread that gets past the write guard of `id` asks for another mark, one that gets past a read guard
for another one, or for reading. -/
theorem other_guard {env : Env} {sh : Shards} {f f' : FSt} {l : Label} (h : fstep env sh f (.other l) = some f') :
    ofEvents l = false ∧ f'.pos = f.pos ∧ f'.gE = f.gE ∧ step env f.core l = some f'.core ∧
    ∀ id m, f.gE = some ⟨id, m⟩ → ∀ g, asks f.core l = some g → g.id = id → conflict m g.mode = false := by
  unfold fstep at h
  dsimp only at h
  split at h
  · cases h
  · rename_i h1
    split at h
    · cases h
    · split at h
      · rename_i h3
        cases h4 : step env f.core l with
        | none => rw [h4] at h; cases h
        | some s =>
          rw [h4] at h; cases h
          exact ⟨by simpa using h1, rfl, rfl, rfl, fun id m _ g hg => by rw [h3] at hg; cases hg⟩
      · rename_i g0 h3
        split at h
        · cases h
        · rename_i h5
          cases h4 : step env f.core l with
          | none => rw [h4] at h; cases h
          | some s =>
            rw [h4] at h; cases h
            refine ⟨by simpa using h1, rfl, rfl, rfl, fun id m hE g hg => ?_⟩
            rw [h3] at hg; cases hg
            rw [hE] at h5
            exact clash_none (by simpa using h5)

theorem other_shown {env : Env} {sh : Shards} {f f' : FSt} {l : Label} (hs : Shown env L f)
    (h : fstep env sh f (.other l) = some f') : Shown env (L ++ [l].filter visible) f' := by
  obtain ⟨hl, hpos, hE, hstep, hg⟩ := other_guard h
  clear h
  obtain ⟨core, pos, gE, gT⟩ := f
  obtain ⟨core', pos', gE', gT'⟩ := f'
  dsimp only at hpos hE hstep hg
  subst hpos hE
  obtain ⟨ok, hr⟩ := hs
  have hw : ∀ id, gE' = some ⟨id, .write⟩ → ∀ g, asks core l = some g → g.id ≠ id := by
    intro id e g ha e'
    have := hg id .write e g ha e'
    cases hm : g.mode <;> rw [hm] at this <;> cases this
  have hrd : ∀ id, gE' = some ⟨id, .read⟩ → ∀ g, asks core l = some g → g.id = id → g.mode = .read := by
    intro id e g ha e'
    have := hg id .read e g ha e'
    cases hm : g.mode
    · rfl
    · rw [hm] at this; cases this
  obtain ⟨fe, ft, fh, ff, fc⟩ := other_frame hl (step_act hstep)
  have hfw : ∀ id, gE' = some ⟨id, .write⟩ → core'.flags id = core.flags id :=
    fun id e => ff id fun g ha e' => absurd e' (hw id e g ha)
  have hfr : ∀ id, gE' = some ⟨id, .read⟩ → core'.flags id = core.flags id :=
    fun id e => ff id (hrd id e)
  cases pos' with
  | level => exact ⟨trivial, hr.step (view_step hl (unseen_plain rfl rfl rfl rfl) hstep)⟩
  | took e => exact ⟨fe.trans ok, hr.step (view_step hl (unseen_plain rfl rfl rfl rfl) hstep)⟩
  | looked e slot =>
    obtain ⟨h1, id, m, h2, h3, h4, h5⟩ := ok
    exact ⟨⟨fe.trans h1, id, m, h2, h3, (hfr id h3).trans h4, h5⟩,
      hr.step (view_step hl (unseen_plain rfl rfl rfl rfl) hstep)⟩
  | quitted k old =>
    obtain ⟨h1, h2, h3⟩ := ok
    exact ⟨⟨fe.trans h1, h2, h3.trans (by rw [show core'.trace = core.trace from ft])⟩, hr.step (view_step hl (unseen_plain rfl rfl rfl rfl) hstep)⟩
  | locked k old m mt =>
    obtain ⟨h1, h2, h3, h4, h5, h6⟩ := ok
    exact ⟨⟨fe.trans h1, h2, h3.trans (by rw [show core'.trace = core.trace from ft]), h4, h5, (hfw _ h4).trans h6⟩,
      hr.step (view_step hl (unseen_mark rfl rfl rfl rfl (hw _ h4)) hstep)⟩
  | found k old m mt cs inst =>
    obtain ⟨h1, h2, h3, h4, h5, h6, n, rest, h7, h8, h9⟩ := ok
    have hlt : mt.chain < core.nextChain := chain_lt hr.reach (id := k.id) (m := m) (set_same _ _ _) h5
    have hu : Unseen (patchOf env ⟨core, .found k old m mt cs inst, gE', gT⟩) core l := by
      refine ⟨fun g kv ha e => ?_, nothing rfl, nothing rfl, fun kv e => ?_, fun kv e => ?_⟩
      · cases e; exact fun e => hw _ h4 g ha e.symm
      · obtain ⟨e1, rfl⟩ := hidden_some e
        refine ⟨?_, Nat.ne_of_lt hlt⟩
        rcases h6.2 with h | h
        · exact absurd (h.symm.trans e1) h6.1
        · exact h.2
      · obtain ⟨e1, rfl⟩ := hidden_some e
        exact ⟨cs, hidden_pos e1⟩
    obtain ⟨h10, h11⟩ := other_chain (p' := { pend := [k.ev], tr := some (k.id, old), fl := some (k.id, some m) })
      hl hstep h6 (Nat.ne_of_lt hlt) rfl (fun _ => hu) hr
    exact ⟨⟨fe.trans h1, h2, h3.trans (by rw [show core'.trace = core.trace from ft]), h4, h5, h10, n, rest, h7, h8,
        (hfw _ h4).trans h9⟩, h11⟩
  | stored k old m mt cs inst was =>
    obtain ⟨h1, h2, h3, h4, h5, h6, ⟨n, rest, h7, h8, h9⟩, h12, h13⟩ := ok
    have hlt : mt.chain < core.nextChain := chain_lt hr.reach (id := k.id) (m := m) (set_same _ _ _) h5
    have hu : Unseen (patchOf env ⟨core, .stored k old m mt cs inst was, gE', gT⟩) core l := by
      refine ⟨fun g kv ha e => ?_, fun kv e w hw' => ?_, fun kv e => ?_, fun kv e => ?_, fun kv e => ?_⟩
      · cases e; exact fun e => hw _ h4 g ha e.symm
      · cases e
        obtain ⟨_, _, _, e1⟩ := C23_returns_partial hr.reach (w := w) (h := inst.hdr) hw'
        exact e1 ((set_same _ _ _).trans h12)
      · cases e
        show core.hdrState inst.hdr ≠ RUNNING
        rw [h13]
        cases k.how <;> decide
      · obtain ⟨e1, rfl⟩ := hidden_some e
        refine ⟨?_, Nat.ne_of_lt hlt⟩
        rcases h6.2 with h | h
        · exact absurd (h.symm.trans e1) h6.1
        · exact h.2
      · obtain ⟨e1, rfl⟩ := hidden_some e
        exact ⟨cs, hidden_pos e1⟩
    obtain ⟨h10, h11⟩ := other_chain (p' := { pend := [k.ev], tr := some (k.id, old), fl := some (k.id, some m), hd := some (inst.hdr, was) })
      hl hstep h6 (Nat.ne_of_lt hlt) rfl (fun _ => hu) hr
    exact ⟨⟨fe.trans h1, h2, h3.trans (by rw [show core'.trace = core.trace from ft]), h4, h5, h10, ⟨n, rest, h7, h8,
        (hfw _ h4).trans h9⟩, h12, by rw [show core'.hdrState = core.hdrState from fh]; exact h13⟩, h11⟩
  | uncounted k =>
    obtain ⟨h1, h2⟩ := ok
    refine ⟨⟨fe.trans h1, h2⟩, ?_⟩
    have := hr.step (view_step hl (unseen_mark rfl rfl rfl rfl (hw _ h2)) hstep)
    simp only [patchOf, hfw _ h2] at this ⊢
    exact this
  | registering id box m mt =>
    obtain ⟨h1, h2, h3, h4⟩ := ok
    exact ⟨⟨fe.trans h1, h2, (hfw _ h2).trans h3, h4⟩, hr.step (view_step hl (unseen_plain rfl rfl rfl rfl) hstep)⟩
  | pushing id box m mt cs =>
    obtain ⟨h1, h2, h3, h4, h6⟩ := ok
    have hlt : mt.chain < core.nextChain := chain_lt hr.reach (id := id) (m := m) h3 h4
    have hu : Unseen (patchOf env ⟨core, .pushing id box m mt cs, gE', gT⟩) core l := by
      refine ⟨fun g kv _ e => (nomatch e), nothing rfl, nothing rfl, fun kv e => ?_, fun kv e => ?_⟩
      · obtain ⟨e1, rfl⟩ := hidden_some e
        refine ⟨?_, Nat.ne_of_lt hlt⟩
        rcases h6.2 with h | h
        · exact absurd (h.symm.trans e1) h6.1
        · exact h.2
      · obtain ⟨e1, rfl⟩ := hidden_some e
        exact ⟨cs, hidden_pos e1⟩
    obtain ⟨h10, h11⟩ := other_chain (p' := { pend := [.appendTaskHandle id box] })
      hl hstep h6 (Nat.ne_of_lt hlt) rfl (fun _ => hu) hr
    exact ⟨⟨fe.trans h1, h2, (hfw _ h2).trans h3, h4, h10⟩, h11⟩
  | listing id box m mt inst =>
    obtain ⟨h1, h2, h3, h4⟩ := ok
    refine ⟨⟨fe.trans h1, h2, (hfw _ h2).trans h3, h4⟩, ?_⟩
    have := hr.step (view_step hl (unseen_mark rfl rfl rfl rfl (hw _ h2)) hstep)
    simp only [patchOf, show core'.trace = core.trace from ft] at this ⊢
    exact this
  | units id box =>
    refine ⟨fe.trans ok, ?_⟩
    have := hr.step (view_step hl (unseen_plain rfl rfl rfl rfl) hstep)
    simp only [patchOf, show core'.trace = core.trace from ft] at this ⊢
    exact this
  | tracing id box =>
    refine ⟨fe.trans ok, ?_⟩
    have := hr.step (view_step hl (unseen_plain rfl rfl rfl rfl) hstep)
    simp only [patchOf, show core'.trace = core.trace from ft] at this ⊢
    exact this
  | report ps => exact ⟨fe.trans ok, hr.step (view_step hl (unseen_plain rfl rfl rfl rfl) hstep)⟩

/-! ## The event thread -/

theorem view_none (s : St) : view {} s = s := by
  simp [view, over]

/-- A drop that was not shown is shown now. -/
theorem drop_shown {env : Env} {p : Patch} {s : St} {c cs : Nat} (hseen : Seen s c cs)
    (hr : Via env L (view { p with cs := hidden s c cs, hl := hidden s c true } s)) :
    Via env L (view { p with cs := none, hl := none } s) := by
  by_cases hd : s.chainState c = DROPPED
  · rw [hidden_pos hd, hidden_pos hd] at hr
    have h2 : s.chainHeld c = false := by
      rcases hseen.2 with h | h
      · exact absurd (h.symm.trans hd) hseen.1
      · exact h.2
    refine hr.silent (l := .uDropChain c) ?_ rfl
    show uDropChain _ c = _
    have h1 : (view { p with cs := some (c, cs), hl := some (c, true) } s).chainHeld c = true := set_same _ _ _
    simp only [uDropChain, h1, if_true]
    simp only [view, over, over_undo hd, over_undo h2]
  · rw [hidden_none hd, hidden_none hd] at hr
    exact hr

theorem view_done {env : Env} {p : Patch} {s s' : St} {e : TimerEvent} {res : Option Bool} (hi : s.epc = .idle)
    (h : s' = view { p with reps := [] } s) :
    done env s' e.tag (publicOf e) res = view { p with reps := late env e res } (logged s e res) := by
  subst h
  unfold done late logged
  cases env.statusReport <;> rcases res with _ | _ | _ <;> cases publicOf e <;> simp [view, hi]

/-- The end of a run in `Model/System.lean`. -/
def endRun (env : Env) (k : Stop) (s : St) : Option Bool × St :=
  match k.how with
  | .cancel => cancelTask env true s k.id k.record CANCELLED
  | .timeout => cancelTask env false s k.id k.record TIMEOUT
  | .finish => finishTask env s k.id k.record

theorem eRecv_stop {env : Env} {s : St} {k : Stop} {rest : List TimerEvent} (hi : s.epc = .idle) (hc : s.chan = k.ev :: rest)
    (hk : stopOf k.ev = some k) :
    eRecv env s = some (done env (endRun env k { s with chan := rest }).2 k.ev.tag (publicOf k.ev)
      (endRun env k { s with chan := rest }).1) := by
  obtain ⟨e, id, r, how⟩ := k
  dsimp only at hc hk ⊢
  unfold eRecv
  rw [hi, hc]
  cases e <;> first | (cases hk; done) | (cases hk; rfl)

theorem endRun_unknown {env : Env} {s : St} {k : Stop} (h : quitOne env (s.trace k.id) k.record = none) :
    endRun env k s = (k.how.unknown, s) := by
  obtain ⟨e, id, r, how⟩ := k
  dsimp only at h
  cases how <;> simp [endRun, cancelTask, finishTask, h, How.unknown]

theorem endRun_unmarked {env : Env} {s : St} {k : Stop} {l : List HandlerBox}
    (h : quitOne env (s.trace k.id) k.record = some l) (hf : s.flags k.id = none) :
    endRun env k s = (k.how.unmarked, stoppedLog { s with trace := set s.trace k.id l } k) := by
  obtain ⟨e, id, r, how⟩ := k
  dsimp only at h hf
  cases how <;> simp [endRun, cancelTask, finishTask, h, hf, How.unmarked, stoppedLog]

theorem endRun_plain {env : Env} {s : St} {k : Stop} {l : List HandlerBox} {m : TaskMark}
    (h : quitOne env (s.trace k.id) k.record = some l) (hf : s.flags k.id = some m) (hm : m.maintainer = none) :
    endRun env k s =
      (some true, stoppedLog { s with trace := set s.trace k.id l, flags := set s.flags k.id (some (dec m)) } k) := by
  obtain ⟨e, id, r, how⟩ := k
  dsimp only at h hf
  cases how <;> simp [endRun, cancelTask, finishTask, h, hf, hm, stoppedLog, dec]

theorem endRun_dropped {env : Env} {s : St} {k : Stop} {l : List HandlerBox} {m : TaskMark} {mt : Maintainer}
    (h : quitOne env (s.trace k.id) k.record = some l) (hf : s.flags k.id = some m) (hm : m.maintainer = some mt)
    (hd : s.chainState mt.chain = DROPPED) :
    endRun env k s =
      (none, stoppedLog { s with
        trace := set s.trace k.id l
        chainState := set s.chainState mt.chain ABANDONED
        flags := set s.flags k.id (some { edited k m with maintainer := none }) } k) := by
  obtain ⟨e, id, r, how⟩ := k
  dsimp only at h hf
  cases how <;>
    simp [endRun, cancelTask, finishTask, notifyMark, dropMaintainer, h, hf, hm, hd, stoppedLog, dec, edited, How.early]

theorem endRun_missing {env : Env} {s : St} {k : Stop} {l : List HandlerBox} {m : TaskMark} {mt : Maintainer}
    (h : quitOne env (s.trace k.id) k.record = some l) (hf : s.flags k.id = some m) (hm : m.maintainer = some mt)
    (hd : s.chainState mt.chain ≠ DROPPED)
    (hn : mt.innerList.findIdx? (fun i => i.recordId == k.record) = none ∨
      ∃ n, mt.innerList.findIdx? (fun i => i.recordId == k.record) = some n ∧ mt.innerList.drop n = []) :
    endRun env k s =
      (none, stoppedLog { s with
        trace := set s.trace k.id l
        flags := set s.flags k.id (some (edited k m)) } k) := by
  obtain ⟨e, id, r, how⟩ := k
  dsimp only at h hf hn
  rcases hn with hn | ⟨n, hn, hn'⟩ <;> cases how <;>
    simp [endRun, cancelTask, finishTask, notifyMark, *, stoppedLog, dec, edited, How.early]

theorem endRun_found {env : Env} {s : St} {k : Stop} {l : List HandlerBox} {m : TaskMark} {mt : Maintainer} {n : Nat}
    {inst : Instance} {rest : List Instance}
    (h : quitOne env (s.trace k.id) k.record = some l) (hf : s.flags k.id = some m) (hm : m.maintainer = some mt)
    (hd : s.chainState mt.chain ≠ DROPPED)
    (hn : mt.innerList.findIdx? (fun i => i.recordId == k.record) = some n) (hr : mt.innerList.drop n = inst :: rest) :
    endRun env k s =
      (some true, { stoppedLog s k with
        trace := set s.trace k.id l
        flags := set s.flags k.id (some { dec m with maintainer := some { mt with innerList := mt.innerList.take n ++ rest } })
        hdrState := set s.hdrState inst.hdr k.how.state
        waiters := fun w => if s.waiters w = .listening inst.hdr then .woken inst.hdr else s.waiters w
        log := .stateSet inst.hdr (s.hdrState inst.hdr) k.how.state :: (stoppedLog s k).log }) := by
  obtain ⟨e, id, r, how⟩ := k
  dsimp only at h hf hn
  cases how <;>
    simp [endRun, cancelTask, finishTask, notifyMark, notifyInstance, *, stoppedLog, dec, How.state, set_same, set_set]

theorem level_shown {env : Env} {sh : Shards} {core : St} {gE gT : Option Guard} {f' : FSt}
    (hr : Via env L core) (h : micro env sh ⟨core, .level, gE, gT⟩ = some f') : Shown env L f' := by
  have next : ∀ (g : Option Guard) (f' : FSt),
      ((eNext env core).map fun s => (⟨s, .level, g, gT⟩ : FSt)) = some f' → Shown env L f' := by
    intro g f' h
    cases h1 : eNext env core with
    | none => rw [h1] at h; cases h
    | some s =>
      rw [h1] at h
      cases h
      refine ⟨trivial, ?_⟩
      show Via env L (view {} s)
      rw [view_none]
      exact hr.silent (l := .eNext) h1 rfl
  have stay : ∀ g : Option Guard, Shown env L ⟨core, .level, g, gT⟩ := fun g =>
    ⟨trivial, by show Via env L (view {} core); rw [view_none]; exact hr⟩
  unfold micro at h
  dsimp only at h
  cases hE : core.epc with
  | idle =>
    rw [hE] at h
    dsimp only at h
    split at h
    · cases h; exact stay none
    · split at h
      · cases h
      · rename_i e rest hc
        cases h
        rw [← hE]
        refine ⟨hE, ?_⟩
        show Via env L (view { pend := [e] } { core with chan := rest })
        have : view { pend := [e] } { core with chan := rest } = core := by
          simp [view, over, ← hc]
        rw [this]; exact hr
  | remove id ok =>
    rw [hE] at h
    dsimp only at h
    split at h
    · cases h; exact stay none
    · split at h
      · cases h
      · exact next _ _ h
  | add3 t m =>
    rw [hE] at h
    dsimp only at h
    split at h
    · cases h
    · exact next _ _ h
  | add1 t c hand => rw [hE] at h; exact next _ _ h
  | add2 t c hand e ts => rw [hE] at h; exact next _ _ h
  | adv1 t => rw [hE] at h; exact next _ _ h
  | adv2 t hand => rw [hE] at h; exact next _ _ h

/-- The end of a dispatch whose effect is that of `Model/System.lean`. -/
theorem ends_shown {env : Env} {f : FSt} {s v s' : St} {e : TimerEvent} {res : Option Bool} (hr : Via env L v)
    (hv : eRecv env v = some (done env s' e.tag (publicOf e) res)) (hi : s.epc = .idle) (hs : s' = s) :
    Shown env L (ends env f s e res) := by
  refine ⟨hi, ?_⟩
  show Via env L (view { reps := late env e res } (logged s e res))
  rw [← view_done (p := {}) (s' := s') hi (hs.trans (view_none s).symm)]
  exact hr.silent (l := .eRecv) hv rfl

theorem look_shown {env : Env} {sh : Shards} {core : St} {gE gT : Option Guard} {f' : FSt} {e : TimerEvent} {id : Nat}
    (hi : core.epc = .idle) (ht : target e = some id) (hr : Via env L (view { pend := [e] } core))
    (h : look env sh ⟨core, .took e, gE, gT⟩ e id = some f') : Shown env L f' := by
  unfold look at h
  split at h
  · cases h
  · cases hf : core.flags id with
    | some m =>
      rw [show (FSt.core ⟨core, .took e, gE, gT⟩).flags id = some m from hf] at h
      cases h
      exact ⟨⟨hi, id, m, ht, rfl, hf, rfl⟩, hr⟩
    | none =>
      rw [show (FSt.core ⟨core, .took e, gE, gT⟩).flags id = none from hf] at h
      cases e <;> cases ht <;> cases h
      · exact ends_shown hr (s' := core) (by simp [eRecv, view, over, hi, hf]; rw [← hi]) hi rfl
      · refine ⟨trivial, hr.silent (l := .eRecv) ?_ rfl⟩
        show eRecv env _ = _
        simp [eRecv, view, over, hi, hf, patchOf]
      · exact ends_shown hr (s' := core) (by simp [eRecv, view, over, hi, hf]; rw [← hi]) hi rfl

theorem wheel_shown {env : Env} {core : St} {gE gT : Option Guard} {f' : FSt} {e : TimerEvent} {id : Nat} {m : TaskMark}
    (hi : core.epc = .idle) (ht : target e = some id) (hf : core.flags id = some m)
    (hr : Via env L (view { pend := [e] } core))
    (h : atWheel env ⟨core, .looked e m.slotMark, gE, gT⟩ e m.slotMark = some f') : Shown env L f' := by
  cases e <;> cases ht <;> simp only [atWheel] at h <;> cases hw : core.wheel m.slotMark <;> rw [hw] at h
  · cases h
    exact ends_shown hr (s' := core) (by simp [eRecv, view, over, hi, hf, hw]; rw [← hi]) hi rfl
  · cases h
    exact ends_shown hr (by simp [eRecv, view, over, hi, hf, hw]) hi rfl
  · cases h
    refine ⟨trivial, hr.silent (l := .eRecv) ?_ rfl⟩
    show eRecv env _ = _
    simp [eRecv, view, over, hi, hf, hw, patchOf]
  · cases h
    refine ⟨trivial, hr.silent (l := .eRecv) ?_ rfl⟩
    show eRecv env _ = _
    simp [eRecv, view, over, hi, hf, hw, patchOf]
  · cases h
    exact ends_shown hr (s' := core) (by simp [eRecv, view, over, hi, hf, hw]; rw [← hi]) hi rfl
  · rename_i sl
    dsimp only at h
    cases hx : sl.removeTask id with
    | mk a b =>
      rw [hx] at h
      cases a with
      | none =>
        cases h
        exact ends_shown hr (s' := core) (by simp [eRecv, view, over, hi, hf, hw, hx]; rw [← hi]) hi rfl
      | some t =>
        cases h
        refine ⟨trivial, hr.silent (l := .eRecv) ?_ rfl⟩
        show eRecv env _ = _
        simp [eRecv, view, over, hi, hf, hw, hx, patchOf]

/-- The end of a dispatch that ends a run. -/
theorem stop_shown {env : Env} {f : FSt} {p : Patch} {core s : St} {k : Stop} {res : Option Bool}
    (hr : Via env L (view p core)) (hp : p.pend = [k.ev]) (hi : core.epc = .idle) (hk : stopOf k.ev = some k)
    (he : endRun env k (view { p with pend := [] } core) = (res, s)) (hs : s.epc = .idle) :
    Shown env L (ends env f s k.ev res) := by
  refine ends_shown (s' := s) hr ?_ hs rfl
  have := eRecv_stop (env := env) (s := view p core) (k := k) (rest := core.chan) hi (by simp [view, hp]) hk
  rw [this]
  have h2 : { view p core with chan := core.chan } = view { p with pend := [] } core := rfl
  rw [h2, he]

theorem quit_shown {env : Env} {core : St} {gE gT : Option Guard} {k : Stop} {q : Pos}
    (hi : core.epc = .idle) (hk : stopOf k.ev = some k) (hr : Via env L (view { pend := [k.ev] } core)) :
    Shown env L (quit env ⟨core, q, gE, gT⟩ k) := by
  unfold quit
  dsimp only
  cases hq : quitOne env (core.trace k.id) k.record with
  | none =>
    refine stop_shown hr rfl hi hk ?_ hi
    show endRun env k (view {} core) = _
    rw [view_none]
    exact endRun_unknown hq
  | some l =>
    refine ⟨⟨hi, hk, ?_⟩, ?_⟩
    · show quitOne env (core.trace k.id) k.record = some (set core.trace k.id l k.id)
      rw [set_same]; exact hq
    · show Via env L (view { pend := [k.ev], tr := some (k.id, core.trace k.id) }
        { core with trace := set core.trace k.id l })
      have : view { pend := [k.ev], tr := some (k.id, core.trace k.id) } { core with trace := set core.trace k.id l } =
          view { pend := [k.ev] } core := by
        simp only [view, over, over_undo]
      rw [this]; exact hr

theorem lock_shown {env : Env} {sh : Shards} {core : St} {gE gT : Option Guard} {k : Stop} {old : List HandlerBox} {f' : FSt}
    (hi : core.epc = .idle) (hk : stopOf k.ev = some k) (hq : quitOne env old k.record = some (core.trace k.id))
    (hr : Via env L (view { pend := [k.ev], tr := some (k.id, old) } core))
    (h : lockMark env sh ⟨core, .quitted k old, gE, gT⟩ k old = some f') : Shown env L f' := by
  unfold lockMark at h
  split at h
  · cases h
  · dsimp only at h
    cases hf : core.flags k.id with
    | none =>
      rw [hf] at h
      cases h
      refine stop_shown hr rfl hi hk ?_ hi
      rw [endRun_unmarked (l := core.trace k.id) (by simpa [view, over, set_same] using hq) (by simpa [view, over] using hf)]
      simp [view, over, stoppedLog, set_set, set_self]
    | some m =>
      rw [hf] at h
      dsimp only at h
      cases hm : m.maintainer with
      | none =>
        rw [hm] at h
        cases h
        refine stop_shown hr rfl hi hk ?_ hi
        rw [endRun_plain (l := core.trace k.id) (by simpa [view, over, set_same] using hq) (by simpa [view, over] using hf) hm]
        simp [view, over, stoppedLog, set_set, set_self]
      | some mt =>
        rw [hm] at h
        cases h
        refine ⟨⟨hi, hk, hq, rfl, hm, set_same _ _ _⟩, ?_⟩
        show Via env L (view { pend := [k.ev], tr := some (k.id, old), fl := some (k.id, some m) } _)
        have : view { pend := [k.ev], tr := some (k.id, old), fl := some (k.id, some m) }
            { core with flags := set core.flags k.id (some (if k.how.early then dec m else m)) } =
            view { pend := [k.ev], tr := some (k.id, old) } core := by
          simp only [view, over, over_undo hf]
        rw [this]; exact hr

theorem load_shown {env : Env} {core : St} {gE gT : Option Guard} {k : Stop} {old : List HandlerBox} {m : TaskMark}
    {mt : Maintainer} {q : Pos}
    (hi : core.epc = .idle) (hk : stopOf k.ev = some k) (hq : quitOne env old k.record = some (core.trace k.id))
    (hg : gE = some ⟨k.id, .write⟩) (hm : m.maintainer = some mt) (hf : core.flags k.id = some (edited k m))
    (hr : Via env L (view { pend := [k.ev], tr := some (k.id, old), fl := some (k.id, some m) } core)) :
    Shown env L (loadChain env ⟨core, q, gE, gT⟩ k old m mt) := by
  have hq' : quitOne env ((view { tr := some (k.id, old), fl := some (k.id, some m) } core).trace k.id) k.record =
      some (core.trace k.id) := by simpa [view, over, set_same] using hq
  have hf' : (view { tr := some (k.id, old), fl := some (k.id, some m) } core).flags k.id = some m := set_same _ _ _
  unfold loadChain
  dsimp only
  split
  · rename_i hd
    refine stop_shown hr rfl hi hk ?_ hi
    rw [endRun_dropped hq' hf' hm (by simpa [view, over] using hd)]
    simp [view, over, stoppedLog, set_set, set_self, edited]
  · rename_i hd
    have missing : (mt.innerList.findIdx? (fun i => i.recordId == k.record) = none ∨
        ∃ n, mt.innerList.findIdx? (fun i => i.recordId == k.record) = some n ∧ mt.innerList.drop n = []) →
        Shown env L (ends env ⟨core, q, gE, gT⟩ (stoppedLog core k) k.ev none) := by
      intro hn
      refine stop_shown hr rfl hi hk ?_ hi
      rw [endRun_missing hq' hf' hm (by simpa [view, over] using hd) hn]
      simp [view, over, stoppedLog, set_set, set_self, ← hf]
    split
    · exact missing (Or.inl (by assumption))
    · rename_i n hn
      split
      · exact missing (Or.inr ⟨n, hn, by assumption⟩)
      · rename_i inst rest hrest
        refine ⟨⟨hi, hk, hq, hg, hm, ⟨hd, Or.inl rfl⟩, n, rest, hn, hrest, set_same _ _ _⟩, ?_⟩
        show Via env L (view
          { pend := [k.ev], tr := some (k.id, old), fl := some (k.id, some m),
            cs := hidden core mt.chain (core.chainState mt.chain), hl := hidden core mt.chain true } _)
        rw [hidden_none hd, hidden_none hd]
        have : ∀ x, view { pend := [k.ev], tr := some (k.id, old), fl := some (k.id, some m) }
            { core with flags := set core.flags k.id x } =
            view { pend := [k.ev], tr := some (k.id, old), fl := some (k.id, some m) } core := by
          intro x
          simp only [view, over, set_set]
        rw [this]; exact hr

theorem store_shown {env : Env} {core : St} {gE gT : Option Guard} {k : Stop} {old : List HandlerBox} {m : TaskMark}
    {mt : Maintainer} {cs : Nat} {inst : Instance} {q : Pos}
    (ok : Ok env ⟨core, .found k old m mt cs inst, gE, gT⟩)
    (hr : Via env L (view (patchOf env ⟨core, .found k old m mt cs inst, gE, gT⟩) core)) :
    Shown env L (storeState ⟨core, q, gE, gT⟩ k old m mt cs inst) := by
  obtain ⟨h1, h2, h3, h4, h5, h6, n, rest, h7, h8, h9⟩ := ok
  have hmem : inst ∈ mt.innerList := List.mem_of_mem_drop (i := n) (by rw [h8]; exact List.mem_cons_self ..)
  have hrun := ((instOk hr.reach).inner k.id mt (by rw [mts_eq (m := m) (set_same _ _ _)]; exact h5) inst hmem).2.1
  refine ⟨⟨h1, h2, h3, h4, h5, h6, ⟨n, rest, h7, h8, h9⟩, hrun, set_same _ _ _⟩, ?_⟩
  show Via env L (view
    { pend := [k.ev], tr := some (k.id, old), fl := some (k.id, some m),
      cs := hidden core mt.chain cs, hl := hidden core mt.chain true, hd := some (inst.hdr, core.hdrState inst.hdr) }
    { core with hdrState := set core.hdrState inst.hdr k.how.state })
  have : ∀ p : Patch, p.hd = none → view { p with hd := some (inst.hdr, core.hdrState inst.hdr) }
      { core with hdrState := set core.hdrState inst.hdr k.how.state } = view p core := by
    intro p hp
    simp only [view, over, over_undo, hp]
  exact (congrArg (Via env L) (this (patchOf env ⟨core, .found k old m mt cs inst, gE, gT⟩) rfl)).mpr hr

theorem notify_shown {env : Env} {core : St} {gE gT : Option Guard} {k : Stop} {old : List HandlerBox} {m : TaskMark}
    {mt : Maintainer} {cs : Nat} {inst : Instance} {was : Nat} {q : Pos}
    (ok : Ok env ⟨core, .stored k old m mt cs inst was, gE, gT⟩)
    (hr : Via env L (view (patchOf env ⟨core, .stored k old m mt cs inst was, gE, gT⟩) core)) :
    Shown env L (notifyAll env ⟨core, q, gE, gT⟩ k inst was) := by
  obtain ⟨h1, h2, h3, h4, h5, h6, ⟨n, rest, h7, h8, h9⟩, h12, h13⟩ := ok
  dsimp only at h1 h3 h4 h6 h9 h13
  -- the memory after the access
  let s : St := { stoppedLog core k with
    waiters := fun w => if core.waiters w = .listening inst.hdr then .woken inst.hdr else core.waiters w
    log := .stateSet inst.hdr was k.how.state :: (stoppedLog core k).log }
  have hseen : Seen (logged s k.ev (some true)) mt.chain cs := h6
  have hcs : (over (hidden core mt.chain cs) core.chainState) mt.chain ≠ DROPPED := by
    by_cases hd : core.chainState mt.chain = DROPPED
    · rw [hidden_pos hd]
      show set core.chainState mt.chain cs mt.chain ≠ DROPPED
      rw [set_same]; exact h6.1
    · rw [hidden_none hd]; exact hd
  have hv := eRecv_stop (env := env) (s := view (patchOf env ⟨core, .stored k old m mt cs inst was, gE, gT⟩) core) (k := k)
    (rest := core.chan) h1 rfl h2
  rw [endRun_found (l := core.trace k.id) (m := m) (mt := mt) (n := n) (inst := inst) (rest := rest)
    (by simpa [view, over, patchOf, set_same] using h3) (by simp [view, over, patchOf, set_same]) h5 hcs h7 h8] at hv
  let m' : TaskMark := { dec m with maintainer := some { mt with innerList := mt.innerList.take n ++ rest } }
  let p : Patch := { fl := some (k.id, some m'), cs := hidden core mt.chain cs, hl := hidden core mt.chain true }
  have hlast : Via env L (view { p with reps := late env k.ev (some true) } (logged s k.ev (some true))) := by
    refine (congrArg (Via env L) ?_).mp (hr.silent (l := .eRecv) hv rfl)
    refine view_done (p := p) (s := s) h1 ?_
    simp only [view, over_none, over_some, patchOf, set_same, set_set, set_self, stoppedLog, s, p, m', List.nil_append,
      ← h13]
    rfl
  have hdrop := drop_shown (p := { fl := some (k.id, some m'), reps := late env k.ev (some true) }) hseen hlast
  unfold notifyAll
  dsimp only
  split
  · rename_i he
    refine ⟨h1, ?_⟩
    refine (congrArg (Via env L) ?_).mp hdrop
    have : set core.flags k.id (some { dec m with maintainer := some { mt with innerList := mt.innerList.take n ++ rest } }) =
        core.flags := by
      rw [edited, if_pos he] at h9
      rw [← h9, set_self]
    simp only [view, over, patchOf, ends, logged, stoppedLog, s, m', this]
    rfl
  · rename_i he
    refine ⟨⟨h1, h4⟩, ?_⟩
    refine (congrArg (Via env L) ?_).mp hdrop
    rw [edited, if_neg he] at h9
    simp only [view, over, patchOf, logged, stoppedLog, s, m', h9, Option.map, dec]
    rfl

theorem decLate_shown {env : Env} {core : St} {gE gT : Option Guard} {k : Stop} {q : Pos} (hi : core.epc = .idle)
    (hr : Via env L (view (patchOf env ⟨core, .uncounted k, gE, gT⟩) core)) :
    Shown env L (decLate env ⟨core, q, gE, gT⟩ k) := ⟨hi, hr⟩

/-- The common end of `appendTaskHandle`. -/
theorem registered_shown {env : Env} {f : FSt} {p : Patch} {core s : St} {id : Nat} {box : HandlerBox}
    (hr : Via env L (view p core)) (hp : p.pend = [.appendTaskHandle id box]) (hi : core.epc = .idle)
    (hs : registerInstance (view { p with pend := [] } core) id box.recordId = s) (hi' : s.epc = .idle) :
    Shown env L (registered f s id box) := by
  refine ⟨hi', ?_⟩
  have hv : eRecv env (view p core) = some (done env (maintainTaskStatus (view { p with pend := [] } core) id box)
      (TimerEvent.appendTaskHandle id box).tag (publicOf (.appendTaskHandle id box)) (some true)) := by
    unfold eRecv
    rw [show (view p core).epc = .idle from hi,
      show (view p core).chan = .appendTaskHandle id box :: core.chan by simp [view, hp]]
    show some _ = some _
    congr 2
    rw [show ({ view p core with chan := core.chan, epc := .idle } : St) = view { p with pend := [] } core by
      simp [view, hi]]
  refine (congrArg (Via env L) ?_).mp (hr.silent (l := .eRecv) hv rfl)
  refine view_done (p := { units := unitsOf box, tr := some (id, s.trace id ++ [box]) }) (s := s) hi' ?_
  simp only [maintainTaskStatus, hs]
  simp [view, over]

theorem lockRegister_shown {env : Env} {sh : Shards} {core : St} {gE gT : Option Guard} {id : Nat} {box : HandlerBox}
    {f' : FSt} {q : Pos} (hi : core.epc = .idle) (hr : Via env L (view { pend := [.appendTaskHandle id box] } core))
    (h : lockRegister sh ⟨core, q, gE, gT⟩ id box = some f') : Shown env L f' := by
  unfold lockRegister at h
  split at h
  · cases h
  · dsimp only at h
    cases hf : core.flags id with
    | none =>
      rw [hf] at h
      cases h
      refine registered_shown hr rfl hi ?_ hi
      rw [view_none]
      simp [registerInstance, hf]
    | some m =>
      rw [hf] at h
      dsimp only at h
      cases hm : m.maintainer with
      | none =>
        rw [hm] at h
        cases h
        refine registered_shown hr rfl hi ?_ hi
        rw [view_none]
        simp [registerInstance, hf, hm]
      | some mt =>
        rw [hm] at h
        cases h
        exact ⟨⟨hi, rfl, hf, hm⟩, hr⟩

theorem loadRegister_shown {env : Env} {core : St} {gE gT : Option Guard} {id : Nat} {box : HandlerBox}
    {m : TaskMark} {mt : Maintainer} {q : Pos} (hi : core.epc = .idle) (hg : gE = some ⟨id, .write⟩)
    (hf : core.flags id = some m) (hm : m.maintainer = some mt)
    (hr : Via env L (view { pend := [.appendTaskHandle id box] } core)) :
    Shown env L (loadRegister ⟨core, q, gE, gT⟩ id box m mt) := by
  unfold loadRegister
  dsimp only
  split
  · rename_i hd
    refine registered_shown hr rfl hi ?_ hi
    rw [view_none]
    simp [registerInstance, hf, hm, hd, dropMaintainer]
  · rename_i hd
    refine ⟨⟨hi, hg, hf, hm, hd, Or.inl rfl⟩, ?_⟩
    show Via env L (view
      { pend := [.appendTaskHandle id box], cs := hidden core mt.chain (core.chainState mt.chain),
        hl := hidden core mt.chain true } core)
    rw [hidden_none hd, hidden_none hd]
    exact hr

theorem pushInstance_shown {env : Env} {core : St} {gE gT : Option Guard} {id : Nat} {box : HandlerBox}
    {m : TaskMark} {mt : Maintainer} {cs : Nat} {q : Pos} (hi : core.epc = .idle) (hg : gE = some ⟨id, .write⟩)
    (hf : core.flags id = some m) (hm : m.maintainer = some mt) (hseen : Seen core mt.chain cs)
    (hr : Via env L (view (patchOf env ⟨core, .pushing id box m mt cs, gE, gT⟩) core)) :
    Shown env L (pushInstance ⟨core, q, gE, gT⟩ id box m mt) := by
  refine ⟨⟨hi, hg, hf, hm⟩, ?_⟩
  have hcs : (over (hidden core mt.chain cs) core.chainState) mt.chain ≠ DROPPED := by
    by_cases hd : core.chainState mt.chain = DROPPED
    · rw [hidden_pos hd]
      show set core.chainState mt.chain cs mt.chain ≠ DROPPED
      rw [set_same]; exact hseen.1
    · rw [hidden_none hd]; exact hd
  let inst : Instance := { hdr := core.nextHdr, taskId := id, recordId := box.recordId }
  let s : St := { core with
      nextHdr := core.nextHdr + 1
      hdrState := set core.hdrState core.nextHdr RUNNING
      chainQueue := set core.chainQueue mt.chain (core.chainQueue mt.chain ++ [inst]) }
  let p : Patch :=
    { fl := some (id, some (listed m mt inst)), cs := hidden core mt.chain cs, hl := hidden core mt.chain true,
      units := unitsOf box, tr := some (id, core.trace id ++ [box]) }
  have hv : eRecv env (view (patchOf env ⟨core, .pushing id box m mt cs, gE, gT⟩) core) =
      some (done env (view p s) (TimerEvent.appendTaskHandle id box).tag (publicOf (.appendTaskHandle id box)) (some true)) := by
    unfold eRecv
    rw [show (view (patchOf env ⟨core, .pushing id box m mt cs, gE, gT⟩) core).epc = .idle from hi,
      show (view (patchOf env ⟨core, .pushing id box m mt cs, gE, gT⟩) core).chan = .appendTaskHandle id box :: core.chan from rfl]
    show some _ = some _
    congr 2
    simp [maintainTaskStatus, registerInstance, view, patchOf, hf, hm, hcs, p, s, inst, over_none, over_some, listed, hi]
  have h2 := hr.silent (l := .eRecv) hv rfl
  rw [view_done (p := p) (s := s) hi rfl] at h2
  exact drop_shown (c := mt.chain) (cs := cs) (s := logged s (.appendTaskHandle id box) (some true))
    (p := { p with reps := late env (.appendTaskHandle id box) (some true) }) hseen h2

theorem listInstance_shown {env : Env} {core : St} {gE gT : Option Guard} {id : Nat} {box : HandlerBox}
    {m : TaskMark} {mt : Maintainer} {inst : Instance} {q : Pos} (hi : core.epc = .idle)
    (hr : Via env L (view (patchOf env ⟨core, .listing id box m mt inst, gE, gT⟩) core)) :
    Shown env L (listInstance ⟨core, q, gE, gT⟩ id box m mt inst) := ⟨hi, hr⟩

theorem micro_shown {env : Env} {sh : Shards} {f f' : FSt} (hs : Shown env L f) (h : micro env sh f = some f') :
    Shown env L f' := by
  obtain ⟨core, pos, gE, gT⟩ := f
  obtain ⟨ok, hr⟩ := hs
  cases pos with
  | level => exact level_shown (by rw [← view_none core]; exact hr) h
  | took e =>
    unfold micro at h
    cases e with
    | stopTimer =>
      cases h
      exact ends_shown hr (by simp [eRecv, view, over, patchOf, show core.epc = .idle from ok]) ok rfl
    | addTask t =>
      cases h
      refine ⟨trivial, hr.silent (l := .eRecv) ?_ rfl⟩
      show eRecv env _ = _
      simp [eRecv, view, over, patchOf, show core.epc = .idle from ok]
    | insertTask t c =>
      cases h
      refine ⟨trivial, hr.silent (l := .eRecv) ?_ rfl⟩
      show eRecv env _ = _
      simp [eRecv, view, over, patchOf, show core.epc = .idle from ok]
    | updateTask t => exact look_shown ok rfl hr h
    | advanceTask id => exact look_shown ok rfl hr h
    | removeTask id => exact look_shown ok rfl hr h
    | cancelTask id r => cases h; exact quit_shown ok rfl hr
    | timeoutTask id r => cases h; exact quit_shown ok rfl hr
    | finishTask b => cases h; exact quit_shown ok rfl hr
    | appendTaskHandle id box => exact lockRegister_shown ok hr h
  | looked e slot =>
    obtain ⟨h1, id, m, h2, h3, h4, h5⟩ := ok
    subst h5
    exact wheel_shown h1 h2 h4 hr h
  | quitted k old => exact lock_shown ok.1 ok.2.1 ok.2.2 hr h
  | locked k old m mt =>
    obtain ⟨h1, h2, h3, h4, h5, h6⟩ := ok
    cases h
    exact load_shown h1 h2 h3 h4 h5 h6 hr
  | found k old m mt cs inst => cases h; exact store_shown ok hr
  | stored k old m mt cs inst was => cases h; exact notify_shown ok hr
  | uncounted k => cases h; exact decLate_shown ok.1 hr
  | registering id box m mt =>
    obtain ⟨h1, h2, h3, h4⟩ := ok
    cases h
    exact loadRegister_shown h1 h2 h3 h4 hr
  | pushing id box m mt cs =>
    obtain ⟨h1, h2, h3, h4, h5⟩ := ok
    cases h
    exact pushInstance_shown h1 h2 h3 h4 h5 hr
  | listing id box m mt inst => cases h; exact listInstance_shown ok.1 hr
  | units id box =>
    simp only [micro] at h
    split at h
    · cases h; exact ⟨ok, hr⟩
    · cases h
      refine ⟨ok, (congrArg (Via env L) ?_).mp hr⟩
      simp [view, patchOf, over]
  | tracing id box =>
    cases h
    refine ⟨ok, hr⟩
  | report ps =>
    simp only [micro] at h
    split at h
    · cases h; exact ⟨ok, hr⟩
    · cases h
      refine ⟨trivial, (congrArg (Via env L) ?_).mp hr⟩
      simp [view, patchOf, over]

/-- The labels of the other threads. -/
def others (ls : List FLabel) : List Label := ls.filterMap fun | .other l => some l | _ => none

theorem fstep_shown {env : Env} {sh : Shards} {f f' : FSt} {l : FLabel} (hs : Shown env L f)
    (h : fstep env sh f l = some f') : Shown env (L ++ (others [l]).filter visible) f' := by
  cases l with
  | event =>
    have : L ++ (others [.event]).filter visible = L := List.append_nil L
    rw [this]; exact micro_shown hs h
  | drop =>
    have : L ++ (others [.drop]).filter visible = L := List.append_nil L
    rw [this]
    simp only [fstep] at h
    split at h
    · cases h; exact hs
    · cases h
  | other l => exact other_shown hs h

theorem frun_shown {env : Env} {sh : Shards} {ls : List FLabel} {f f' : FSt} {L : List Label} (hs : Shown env L f)
    (h : frun env sh f ls = some f') : Shown env (L ++ (others ls).filter visible) f' := by
  induction ls generalizing f L with
  | nil => cases h; simpa [others] using hs
  | cons l ls ih =>
    simp only [frun] at h
    split at h
    · rename_i f1 h1
      have := ih (fstep_shown hs h1) h
      rw [List.append_assoc, ← List.filter_append] at this
      have e : others [l] ++ others ls = others (l :: ls) := by
        simp only [others, ← List.filterMap_append, List.singleton_append]
      rwa [e] at this
    · cases h

theorem shown {env : Env} {sh : Shards} {ls : List FLabel} {f : FSt} (h : frun env sh (finit env) ls = some f) :
    Shown env ((others ls).filter visible) f := by
  refine frun_shown (f := finit env) (L := []) ⟨trivial, ?_⟩ h
  show Via env [] (view {} (init env))
  rw [view_none]
  exact ⟨[], rfl, rfl⟩

end DelayTimer.Fine
