import Verif.Proofs.Sweep

/-! Instances and chains. -/

namespace DelayTimer
open Spec

/-- Whatever every action of a reachable state preserves is preserved by every continuation; `Q` holds of the
actions taken. -/
theorem onward {env : Env} (P : St → Prop) (Q : Label → Prop)
    (hstep : ∀ s l s', Reachable env s → Reachable env s' → P s → Q l → Act env s l s' → P s') :
    ∀ ls s s', Reachable env s → (∀ l ∈ ls, Q l) → P s → run env s ls = some s' → P s' := by
  intro ls
  induction ls with
  | nil => intro s s' _ _ hs h; cases h; exact hs
  | cons l ls ih =>
    intro s s' hr hq hs h
    simp only [run] at h
    split at h
    · rename_i s1 h1
      exact ih s1 s' (hr.step h1) (fun x hx => hq x (List.mem_cons_of_mem _ hx))
        (hstep s l s1 hr (hr.step h1) hs (hq l List.mem_cons_self) (step_act h1)) h
    · cases h

/-- The maintainer of the chain of `id`. -/
def mts (s : St) (id : Nat) : Option Maintainer := (s.flags id).bind (·.maintainer)

theorem mts_eq {s : St} {id : Nat} {m : TaskMark} (h : s.flags id = some m) : mts s id = m.maintainer := by
  simp [mts, h]

/-- Everything about instances and chains is unchanged. -/
structure SameInst (s s' : St) : Prop where
  mts : ∀ id, mts s' id = DelayTimer.mts s id
  hdr : s'.hdrState = s.hdrState
  nh : s'.nextHdr = s.nextHdr
  cs : s'.chainState = s.chainState
  cq : s'.chainQueue = s.chainQueue
  ch : s'.chainHeld = s.chainHeld
  nc : s'.nextChain = s.nextChain

/-- Observations of no concern to instances and chains. -/
def Dull : Obs → Prop
  | .stateSet .. => False
  | .delivered .. => False
  | .stopped .. => False
  | .dispatched (.append ..) _ => False
  | .dispatched (.insert ..) _ => False
  | .dispatched (.add _) (some true) => False
  | .dispatched (.remove _) _ => False
  | .dispatched (.cancel ..) _ => False
  | .dispatched (.timeout ..) _ => False
  | .dispatched (.finish ..) _ => False
  | _ => True

/-- Giving up the maintainer of a chain. -/
def abandon (cs : Nat → Nat) (m : Option Maintainer) : Nat → Nat :=
  match m with
  | some m => set cs m.chain ABANDONED
  | none => cs

/-- How a step affects instances and chains. -/
inductive InstStep (s s' : St) : Label → Prop
  /-- not at all -/
  | dull (l : Label) (hs : SameInst s s') (news : List Obs) (hl : s'.log = news ++ s.log) (hd : ∀ o ∈ news, Dull o) :
      InstStep s s' l
  /-- an end event for a run that is not in the books -/
  | miss (k : EndKind) (id : Nat) (rec : Int) (r : Option Bool) (hb : ∀ b ∈ s.trace id, b.recordId ≠ rec)
      (hs : SameInst s s') (hl : s'.log = .dispatched (k.tag id rec) r :: s.log) : InstStep s s' .eRecv
  /-- an end event that stops a run without an instance on the current chain -/
  | quiet (k : EndKind) (id : Nat) (rec : Int) (r : Option Bool) (hb : ∃ b ∈ s.trace id, b.recordId = rec)
      (hm : ∀ mt, mts s id = some mt → s.chainState mt.chain ≠ DROPPED ∧ ∀ i ∈ mt.innerList, i.recordId ≠ rec)
      (hs : SameInst s s') (hl : s'.log = .dispatched (k.tag id rec) r :: .stopped id rec :: s.log) :
      InstStep s s' .eRecv
  /-- an end event that stops a run and finds the chain dropped -/
  | dropped (k : EndKind) (id : Nat) (rec : Int) (r : Option Bool) (mt : Maintainer)
      (hb : ∃ b ∈ s.trace id, b.recordId = rec) (hm : mts s id = some mt) (hd : s.chainState mt.chain = DROPPED)
      (hmt : ∀ j, mts s' j = if j = id then none else mts s j) (hh : s'.hdrState = s.hdrState)
      (hn : s'.nextHdr = s.nextHdr) (hcs : s'.chainState = set s.chainState mt.chain ABANDONED)
      (hq : s'.chainQueue = s.chainQueue) (hch : s'.chainHeld = s.chainHeld) (hnc : s'.nextChain = s.nextChain)
      (hl : s'.log = .dispatched (k.tag id rec) r :: .stopped id rec :: s.log) : InstStep s s' .eRecv
  /-- an end event that stops a run with an instance -/
  | found (k : EndKind) (id : Nat) (rec : Int) (r : Option Bool) (mt : Maintainer) (a : List Instance) (i : Instance)
      (b : List Instance) (hb : ∃ b ∈ s.trace id, b.recordId = rec) (hm : mts s id = some mt)
      (hd : s.chainState mt.chain ≠ DROPPED) (hil : mt.innerList = a ++ i :: b) (hi : i.recordId = rec)
      (hmt : ∀ j, mts s' j = if j = id then some { mt with innerList := a ++ b } else mts s j)
      (hh : s'.hdrState = set s.hdrState i.hdr k.state)
      (hn : s'.nextHdr = s.nextHdr) (hcs : s'.chainState = s.chainState)
      (hq : s'.chainQueue = s.chainQueue) (hch : s'.chainHeld = s.chainHeld) (hnc : s'.nextChain = s.nextChain)
      (hl : s'.log = .dispatched (k.tag id rec) r :: .stateSet i.hdr (s.hdrState i.hdr) k.state ::
        .stopped id rec :: s.log) : InstStep s s' .eRecv
  /-- registration of a run of a task without a chain -/
  | plain (id : Nat) (box : HandlerBox) (rest : List TimerEvent) (he : s.epc = .idle)
      (hc : s.chan = .appendTaskHandle id box :: rest) (hm : mts s id = none) (hs : SameInst s s')
      (hl : s'.log = .dispatched (.append id box.recordId) (some true) :: s.log) : InstStep s s' .eRecv
  /-- registration of a run of a task whose chain was dropped -/
  | nobody (id : Nat) (box : HandlerBox) (rest : List TimerEvent) (mt : Maintainer) (he : s.epc = .idle)
      (hc : s.chan = .appendTaskHandle id box :: rest) (hm : mts s id = some mt)
      (hd : s.chainState mt.chain = DROPPED)
      (hmt : ∀ j, mts s' j = if j = id then none else mts s j) (hh : s'.hdrState = s.hdrState)
      (hn : s'.nextHdr = s.nextHdr) (hcs : s'.chainState = set s.chainState mt.chain ABANDONED)
      (hq : s'.chainQueue = s.chainQueue) (hch : s'.chainHeld = s.chainHeld) (hnc : s'.nextChain = s.nextChain)
      (hl : s'.log = .dispatched (.append id box.recordId) (some true) :: s.log) : InstStep s s' .eRecv
  /-- registration of a run of a task with a chain -/
  | newInst (id : Nat) (box : HandlerBox) (rest : List TimerEvent) (mt : Maintainer) (he : s.epc = .idle)
      (hc : s.chan = .appendTaskHandle id box :: rest) (hm : mts s id = some mt)
      (hd : s.chainState mt.chain ≠ DROPPED)
      (hmt : ∀ j, mts s' j =
        if j = id then some { mt with innerList := mt.innerList ++ [⟨s.nextHdr, id, box.recordId⟩] } else mts s j)
      (hh : s'.hdrState = set s.hdrState s.nextHdr RUNNING) (hn : s'.nextHdr = s.nextHdr + 1)
      (hcs : s'.chainState = s.chainState)
      (hq : s'.chainQueue = set s.chainQueue mt.chain (s.chainQueue mt.chain ++ [⟨s.nextHdr, id, box.recordId⟩]))
      (hch : s'.chainHeld = s.chainHeld) (hnc : s'.nextChain = s.nextChain)
      (hl : s'.log = .dispatched (.append id box.recordId) (some true) :: s.log) : InstStep s s' .eRecv
  /-- the mark of `id` is replaced or removed -/
  | mark (id : Nat) (new : Option Maintainer) (tag : Tag) (r : Option Bool)
      (ht : (tag = .remove id ∧ new = none ∧ ∃ ok, s.epc = .remove id ok) ∨
        ∃ m, s.epc = .add3 tag m ∧ m.taskId = id ∧ new = m.maintainer ∧ r = some true)
      (hmt : ∀ j, mts s' j = if j = id then new else mts s j) (hh : s'.hdrState = s.hdrState)
      (hn : s'.nextHdr = s.nextHdr) (hcs : s'.chainState = abandon s.chainState (mts s id))
      (hq : s'.chainQueue = s.chainQueue) (hch : s'.chainHeld = s.chainHeld) (hnc : s'.nextChain = s.nextChain)
      (hl : s'.log = .dispatched tag r :: s.log) : InstStep s s' .eNext
  /-- `insert_task` fails -/
  | refused (t : Task) (c hand : Nat) (he : s.epc = .add1 t (some c) hand)
      (hmt : ∀ j, mts s' j = mts s j) (hh : s'.hdrState = s.hdrState)
      (hn : s'.nextHdr = s.nextHdr) (hcs : s'.chainState = set s.chainState c ABANDONED)
      (hq : s'.chainQueue = s.chainQueue) (hch : s'.chainHeld = s.chainHeld) (hnc : s'.nextChain = s.nextChain)
      (hl : s'.log = .dispatched (.insert t.taskId c) none :: s.log) : InstStep s s' .eNext
  /-- `insert_task` is called -/
  | insert (t : Task) (hmt : ∀ j, mts s' j = mts s j) (hh : s'.hdrState = s.hdrState)
      (hn : s'.nextHdr = s.nextHdr) (hcs : s'.chainState = set s.chainState s.nextChain LIVING)
      (hq : s'.chainQueue = set s.chainQueue s.nextChain []) (hch : s'.chainHeld = set s.chainHeld s.nextChain true)
      (hnc : s'.nextChain = s.nextChain + 1)
      (hl : s'.log = .queued (.insert t.taskId s.nextChain) :: s.log) : InstStep s s' (.uInsert t)
  /-- `next*` returns an instance -/
  | deliver (c : Nat) (i : Instance) (rest : List Instance) (hheld : s.chainHeld c = true)
      (ha : s.chainState c ≠ ABANDONED) (hqu : s.chainQueue c = i :: rest)
      (hmt : ∀ j, mts s' j = mts s j) (hh : s'.hdrState = s.hdrState)
      (hn : s'.nextHdr = s.nextHdr) (hcs : s'.chainState = s.chainState)
      (hq : s'.chainQueue = set s.chainQueue c rest) (hch : s'.chainHeld = s.chainHeld)
      (hnc : s'.nextChain = s.nextChain)
      (hl : s'.log = .delivered c i :: s.log) : InstStep s s' (.uNext c)
  /-- the user drops a chain -/
  | drop (c : Nat) (hheld : s.chainHeld c = true)
      (hmt : ∀ j, mts s' j = mts s j) (hh : s'.hdrState = s.hdrState)
      (hn : s'.nextHdr = s.nextHdr) (hcs : s'.chainState = set s.chainState c DROPPED)
      (hq : s'.chainQueue = s.chainQueue) (hch : s'.chainHeld = set s.chainHeld c false)
      (hnc : s'.nextChain = s.nextChain)
      (hl : s'.log = s.log) : InstStep s s' (.uDropChain c)

theorem mts_set (s : St) (f : Nat → Option TaskMark) (id : Nat) (m : Option TaskMark) (j : Nat)
    (hf : s.flags = set f id m) :
    mts s j = if j = id then m.bind (·.maintainer) else (f j).bind (·.maintainer) := by
  simp only [mts, hf, set_apply]; split <;> rfl

theorem Ending.instStep {env : Env} {s : St} {k : EndKind} {id : Nat} {rec : Int} {r : Option Bool} {s2 : St}
    {rest : List TimerEvent} {pub : Option PublicEvent}
    (hs : ∀ i, (s.trace i).Pairwise (fun a b => Earlier env a.recordId b.recordId))
    (h : Ending env { s with chan := rest } k id rec r s2) :
    InstStep s (done env s2 (k.tag id rec) pub r) .eRecv := by
  have hq := quitOne_sorted env (s.trace id) rec (hs id)
  have hfound : ∀ {l}, quitOne env (s.trace id) rec = some l → ∃ b ∈ s.trace id, b.recordId = rec := by
    intro l hl
    rw [hl] at hq
    split at hq
    · assumption
    · cases hq
  cases h with
  | miss hx =>
    refine .miss k id rec _ ?_ ⟨fun _ => rfl, rfl, rfl, rfl, rfl, rfl, rfl⟩ rfl
    intro b hb he
    change quitOne env (s.trace id) rec = none at hx
    rw [hx, if_pos ⟨b, hb, he⟩] at hq
    cases hq
  | nomark l hx hf =>
    refine .quiet k id rec _ (hfound hx) ?_ ⟨fun _ => rfl, rfl, rfl, rfl, rfl, rfl, rfl⟩ rfl
    intro mt hmt
    change s.flags id = none at hf
    rw [mts, hf] at hmt; cases hmt
  | nochain l m hx hf hm =>
    change s.flags id = some m at hf
    refine .quiet k id rec _ (hfound hx) ?_ ⟨fun j => ?_, rfl, rfl, rfl, rfl, rfl, rfl⟩ rfl
    · intro mt hmt
      rw [mts_eq hf, hm] at hmt; cases hmt
    · simp only [mts, done_flags, set_apply]
      split
      · rename_i hj; subst hj
        change s.flags j = some m at hf
        simp [hf]
      · rfl
  | dropped l m mt hx hf hm hd =>
    change s.flags id = some m at hf
    refine .dropped k id rec _ mt (hfound hx) (by rw [mts_eq hf, hm]) hd (fun j => ?_) rfl rfl rfl rfl rfl rfl rfl
    simp only [mts, done_flags, set_apply]
    split <;> rfl
  | unlisted l m mt hx hf hm hd hi =>
    change s.flags id = some m at hf
    refine .quiet k id rec _ (hfound hx) ?_ ⟨fun j => ?_, rfl, rfl, rfl, rfl, rfl, rfl⟩ rfl
    · intro mt' hmt
      rw [mts_eq hf, hm] at hmt; cases hmt
      exact ⟨hd, hi⟩
    · simp only [mts, done_flags, set_apply]
      split
      · rename_i hj; subst hj
        change s.flags j = some m at hf
        simp [hf]
      · rfl
  | found l m mt a i b hx hf hm hd hl hi =>
    change s.flags id = some m at hf
    refine .found k id rec _ mt a i b (hfound hx) (by rw [mts_eq hf, hm]) hd hl hi (fun j => ?_) rfl rfl rfl rfl rfl rfl rfl
    simp only [mts, done_flags, set_apply]
    split <;> rfl

theorem dropMark_chainState (s : St) (id : Nat) :
    (dropMark s (s.flags id)).chainState = abandon s.chainState (mts s id) := by
  unfold mts dropMark
  cases s.flags id with
  | none => rfl
  | some m => cases hm : m.maintainer <;> simp [dropMaintainer, abandon, hm]

theorem instStep {env : Env} {s : St} {l : Label} {s' : St} (hr : Reachable env s) (h : Act env s l s') :
    InstStep s s' l := by
  have hso := (traceOk hr).sorted
  cases h
  case recv_cancel id rec rest he hc => exact Ending.instStep hso (Ending.of_cancel env _ id rec)
  case recv_timeout id rec rest he hc => exact Ending.instStep hso (Ending.of_timeout env _ id rec)
  case recv_finish b rest he hc => exact Ending.instStep hso (Ending.of_finish env _ _ _)
  case recv_append id box rest he hc =>
    cases hm : mts s id with
    | none =>
      have hreg : registerInstance { s with chan := rest } id box.recordId = { s with chan := rest } := by
        unfold registerInstance
        simp only
        cases hf : s.flags id with
        | none => rfl
        | some m => rw [mts_eq hf] at hm; simp [hm]
      refine .plain id box rest he hc hm ?_ (by simp)
      refine ⟨fun j => ?_, ?_, ?_, ?_, ?_, by simp, by simp⟩
      · simp [mts, maintainTaskStatus, hreg]
      · simp [maintainTaskStatus, hreg]
      · simp [maintainTaskStatus, hreg]
      · simp [maintainTaskStatus, hreg]
      · simp [maintainTaskStatus, hreg]
    | some mt =>
      obtain ⟨m, hf, hmm⟩ : ∃ m, s.flags id = some m ∧ m.maintainer = some mt := by
        unfold mts at hm
        cases hf : s.flags id with
        | none => rw [hf] at hm; cases hm
        | some m => rw [hf] at hm; exact ⟨m, rfl, hm⟩
      by_cases hd : s.chainState mt.chain = DROPPED
      · have hreg : registerInstance { s with chan := rest } id box.recordId =
          { dropMaintainer { s with chan := rest } (some mt) with
            flags := set s.flags id (some { m with maintainer := none }) } := by
          simp [registerInstance, hf, hmm, hd]
        refine .nobody id box rest mt he hc hm hd (fun j => ?_) ?_ ?_ ?_ ?_ (by simp) (by simp) (by simp)
        · simp only [mts, done_flags, maintainTaskStatus, hreg, set_apply]; split <;> rfl
        · simp [maintainTaskStatus, hreg]
        · simp [maintainTaskStatus, hreg]
        · simp [maintainTaskStatus, hreg, dropMaintainer]
        · simp [maintainTaskStatus, hreg]
      · have hreg : registerInstance { s with chan := rest } id box.recordId =
          { s with
            chan := rest
            nextHdr := s.nextHdr + 1
            hdrState := set s.hdrState s.nextHdr RUNNING
            chainQueue := set s.chainQueue mt.chain (s.chainQueue mt.chain ++ [⟨s.nextHdr, id, box.recordId⟩])
            flags := set s.flags id
              (some { m with maintainer := some { mt with innerList := mt.innerList ++ [⟨s.nextHdr, id, box.recordId⟩] } }) } := by
          simp [registerInstance, hf, hmm, hd]
        refine .newInst id box rest mt he hc hm hd (fun j => ?_) ?_ ?_ ?_ ?_ (by simp) (by simp) (by simp)
        · simp only [mts, done_flags, maintainTaskStatus, hreg, set_apply]; split <;> rfl
        · simp [maintainTaskStatus, hreg]
        · simp [maintainTaskStatus, hreg]
        · simp [maintainTaskStatus, hreg]
        · simp [maintainTaskStatus, hreg]
  case next_add3 tag m he =>
    refine .mark m.taskId m.maintainer tag (some true) (Or.inr ⟨m, he, rfl, rfl, rfl⟩) (fun j => ?_) (by simp) (by simp) ?_ (by simp) (by simp) (by simp) (by simp)
    · simp only [mts, done_flags, set_apply]; split <;> simp
    · rw [← dropMark_chainState]; rfl
  case next_remove id ok he =>
    refine .mark id none (.remove id) _ (Or.inl ⟨rfl, rfl, ok, he⟩) (fun j => ?_) (by simp) (by simp) ?_ (by simp) (by simp) (by simp) (by simp; rfl)
    · simp only [mts, done_flags, set_apply]; split <;> simp
    · rw [← dropMark_chainState]; rfl
  case uinsert t => exact .insert t (fun _ => rfl) rfl rfl rfl rfl rfl rfl rfl
  case unext c i rest hh hs hq => exact .deliver c i rest hh hs hq (fun _ => rfl) rfl rfl rfl rfl rfl rfl rfl
  case udrop c hh => exact .drop c hh (fun _ => rfl) rfl rfl rfl rfl rfl rfl rfl
  case next_add1_err t chain hand he hn =>
    cases chain with
    | some c => exact .refused t c hand he (fun _ => rfl) rfl rfl rfl rfl rfl rfl rfl
    | none => exact .dull _ ⟨fun _ => rfl, rfl, rfl, rfl, rfl, rfl, rfl⟩ [_] rfl (by simp [Dull, addTag])
  case mark_some p id slot upd m hp hf =>
    refine .dull _ ⟨fun k => ?_, rfl, rfl, rfl, rfl, rfl, rfl⟩ [] rfl (by simp)
    simp only [mts, set_apply]
    split
    · rename_i hk; subst hk; simp [hf]
    · rfl
  case spop u now n hp hu hmin hle =>
    exact .dull _ ⟨fun _ => rfl, rfl, rfl, rfl, rfl, rfl, rfl⟩ [_, _] rfl (by simp [Dull])
  all_goals try (exact .dull _ ⟨fun _ => rfl, rfl, rfl, rfl, rfl, rfl, rfl⟩ [] rfl (by simp))
  case usend op => exact .dull _ ⟨fun _ => rfl, rfl, rfl, rfl, rfl, rfl, rfl⟩ [_] rfl (by simp [Dull])
  all_goals
    refine .dull _ ⟨fun _ => rfl, rfl, rfl, rfl, rfl, rfl, rfl⟩ [_] rfl ?_
    simp [Dull]

end DelayTimer
