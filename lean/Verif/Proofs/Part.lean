import Verif.Spec.Part
import Verif.Proofs.Sweep
import Verif.Proofs.Trace
import Verif.Proofs.Panic

/-!
The part of a state that has to do with some task ids, and that a timer used for these alone gets to the same part.
-/

namespace DelayTimer

open Spec

/-! ## Parts -/

def partSl (K : Nat → Bool) (sl : Slot) : Slot := sl.filter fun t => K t.taskId

def partW (K : Nat → Bool) (w : Nat → Option Slot) : Nat → Option Slot := fun i => (w i).map (partSl K)

def partF (K : Nat → Bool) (f : Nat → Option TaskMark) : Nat → Option TaskMark := fun k => if K k then f k else none

def partL (K : Nat → Bool) (f : Nat → List HandlerBox) : Nat → List HandlerBox := fun k => if K k then f k else []

def partR (K : Nat → Bool) (f : Int → Option RtInst) : Int → Option RtInst := fun r => (f r).filter fun x => K x.taskId

def partU (K : Nat → Bool) (us : List RecycleUnit) : List RecycleUnit := us.filter fun u => K u.taskId

/-- Where the scheduler is for the ids in `K`. -/
def partT (K : Nat → Bool) : TPC → TPC
  | .batch p => .batch (p.filter K)
  | .check p t => if K t.taskId then .check (p.filter K) t else .batch (p.filter K)
  | .spawn p t rec => if K t.taskId then .spawn (p.filter K) t rec else .batch (p.filter K)
  | .append p t box => if K t.taskId then .append (p.filter K) t box else .batch (p.filter K)
  | .gate p t rec => if K t.taskId then .gate (p.filter K) t rec else .batch (p.filter K)
  | .rearm p t u => if K t.taskId then .rearm (p.filter K) t u else .batch (p.filter K)
  | .mark p id slot u => if K id then .mark (p.filter K) id slot u else .batch (p.filter K)
  | .head => .head
  | .store => .store
  | .arrive => .arrive
  | .halted => .halted
  | .panicked => .panicked

/-- Where the event thread is for the ids in `K`. -/
def partE (K : Nat → Bool) : EPC → EPC
  | .idle => .idle
  | .add1 t c h => if K t.taskId then .add1 t c h else .idle
  | .add2 t c h e ts => if K t.taskId then .add2 t c h e ts else .idle
  | .add3 tag m => if K m.taskId then .add3 tag m else .idle
  | .remove id ok => if K id then .remove id ok else .idle
  | .adv1 t => if K t.taskId then .adv1 t else .idle
  | .adv2 t h => if K t.taskId then .adv2 t h else .idle

/-- What else has to do with the ids in `K`: the chains or not, and the sweeper or not; if not, what it does. -/
structure Side where
  chains : Bool
  sweeper : Option SPC

/-- The part of `s` that has to do with `K`; `r` are the ids drawn from the generator, `x` is where the scheduler is, and `b` says
what else has to do with `K`. -/
def part (K : Nat → Bool) (b : Side) (r : List Int) (x : TPC) (s : St) : St where
  wheel := partW K s.wheel
  flags := partF K s.flags
  secondHand := s.secondHand
  globalTime := s.globalTime
  motivation := s.motivation
  recs := r
  chan := s.chan.filter fun e => aboutTag K e.tag
  tpc := x
  epc := partE K s.epc
  trace := partL K s.trace
  hdrState := if b.chains then s.hdrState else fun _ => RUNNING
  nextHdr := if b.chains then s.nextHdr else 0
  chainState := if b.chains then s.chainState else fun _ => LIVING
  chainQueue := if b.chains then s.chainQueue else fun _ => []
  chainHeld := if b.chains then s.chainHeld else fun _ => false
  nextChain := if b.chains then s.nextChain else 0
  rt := partR K s.rt
  unitChan := partU K s.unitChan
  heap := partU K s.heap
  spc := b.sweeper.getD s.spc
  waiters := if b.chains then s.waiters else fun _ => .none
  reports := s.reports.filter (seenReport K)
  ticks := s.ticks
  log := s.log.filter (seen K b.chains)

/-- `p` is the part of `s`. -/
def Part (K : Nat → Bool) (b : Side) (s p : St) : Prop :=
  ∃ r x, p = part K b r x s ∧ (∀ a ∈ r, a ∈ s.recs) ∧ (x = partT K s.tpc ∨ s.tpc = .panicked)

/-- Only the ids in `K` have chains (`a`), or only the others. -/
structure Lone (K : Nat → Bool) (a : Bool) (s : St) : Prop where
  chan : ∀ t c, .insertTask t c ∈ s.chan → K t.taskId = a
  add1 : ∀ t c h, s.epc = .add1 t (some c) h → K t.taskId = a
  add2 : ∀ t c h e ts, s.epc = .add2 t (some c) h e ts → K t.taskId = a
  add3 : ∀ tag m, s.epc = .add3 tag m → K m.taskId = !a → m.maintainer = none
  flags : ∀ k m, s.flags k = some m → K k = !a → m.maintainer = none

/-! ## Filters and updates -/

theorem partW_set {K : Nat → Bool} (w : Nat → Option Slot) (i : Nat) (sl : Slot) :
    partW K (set w i (some sl)) = set (partW K w) i (some (partSl K sl)) := by
  funext j
  simp only [partW, set]
  split <;> rfl

theorem partW_same {K : Nat → Bool} {w : Nat → Option Slot} {i : Nat} {sl sl' : Slot} (h : w i = some sl)
    (he : partSl K sl' = partSl K sl) : partW K (set w i (some sl')) = partW K w := by
  funext j
  simp only [partW, set]
  split
  · rename_i hj; rw [hj, h]; simp [he]
  · rfl

theorem partF_in {K : Nat → Bool} {f : Nat → Option TaskMark} {k : Nat} {v : Option TaskMark} (h : K k = true) :
    partF K (set f k v) = set (partF K f) k v := by
  funext j
  simp only [partF, set]
  by_cases hj : j = k
  · subst hj; simp [h]
  · simp [hj]

theorem partF_out {K : Nat → Bool} {f : Nat → Option TaskMark} {k : Nat} {v : Option TaskMark} (h : K k = false) :
    partF K (set f k v) = partF K f := by
  funext j
  simp only [partF, set]
  by_cases hj : j = k
  · subst hj; simp [h]
  · simp [hj]

theorem partF_at {K : Nat → Bool} {f : Nat → Option TaskMark} {k : Nat} (h : K k = true) : partF K f k = f k := by simp [partF, h]

theorem partL_in {K : Nat → Bool} {f : Nat → List HandlerBox} {k : Nat} {v : List HandlerBox} (h : K k = true) :
    partL K (set f k v) = set (partL K f) k v := by
  funext j
  simp only [partL, set]
  by_cases hj : j = k
  · subst hj; simp [h]
  · simp [hj]

theorem partL_out {K : Nat → Bool} {f : Nat → List HandlerBox} {k : Nat} {v : List HandlerBox} (h : K k = false) :
    partL K (set f k v) = partL K f := by
  funext j
  simp only [partL, set]
  by_cases hj : j = k
  · subst hj; simp [h]
  · simp [hj]

theorem partL_at {K : Nat → Bool} {f : Nat → List HandlerBox} {k : Nat} (h : K k = true) : partL K f k = f k := by simp [partL, h]

theorem partR_in {K : Nat → Bool} {f : Int → Option RtInst} {r : Int} {v : RtInst} (h : K v.taskId = true) :
    partR K (setI f r (some v)) = setI (partR K f) r (some v) := by
  funext j
  simp only [partR, setI]
  split <;> simp_all [Option.filter]

theorem partR_out {K : Nat → Bool} {f : Int → Option RtInst} {r : Int} {v : RtInst} (h : K v.taskId = false)
    (hf : ∀ u, f r = some u → K u.taskId = false) : partR K (setI f r (some v)) = partR K f := by
  funext j
  simp only [partR, setI]
  split
  · rename_i hj; subst hj
    cases hq : f j with
    | none => simp [Option.filter, h]
    | some u => simp [Option.filter, h, hf u hq]
  · rfl

theorem partR_at {K : Nat → Bool} {f : Int → Option RtInst} {r : Int} {v : RtInst} (hf : f r = some v) (h : K v.taskId = true) :
    partR K f r = some v := by simp [partR, hf, Option.filter, h]

theorem erase_in {K : Nat → Bool} {k : Nat} (h : K k = true) (l : List Nat) : (l.erase k).filter K = (l.filter K).erase k := by
  induction l with
  | nil => rfl
  | cons a l ih =>
    by_cases ha : a = k
    · subst ha; simp [h]
    · rw [List.erase_cons_tail (by simpa using ha)]
      by_cases hk : K a = true
      · rw [List.filter_cons_of_pos hk, List.filter_cons_of_pos hk, List.erase_cons_tail (by simpa using ha), ih]
      · rw [List.filter_cons_of_neg hk, List.filter_cons_of_neg hk, ih]

theorem erase_out {K : Nat → Bool} {k : Nat} (h : K k = false) (l : List Nat) : (l.erase k).filter K = l.filter K := by
  induction l with
  | nil => rfl
  | cons a l ih =>
    by_cases ha : a = k
    · subst ha; simp [h]
    · rw [List.erase_cons_tail (by simpa using ha)]
      by_cases hk : K a = true
      · rw [List.filter_cons_of_pos hk, List.filter_cons_of_pos hk, ih]
      · rw [List.filter_cons_of_neg hk, List.filter_cons_of_neg hk, ih]

/-! ## Slots -/

theorem remove_in {K : Nat → Bool} {k : Nat} (h : K k = true) (sl : Slot) :
    (partSl K sl).removeTask k = ((sl.removeTask k).1, partSl K (sl.removeTask k).2) := by
  simp only [Slot.removeTask, partSl, Prod.mk.injEq]
  constructor
  · rw [List.find?_filter]
    congr 1
    funext t
    by_cases ht : t.taskId = k
    · simp [ht, h]
    · simp [ht]
  · rw [List.filter_filter, List.filter_filter]
    congr 1
    funext t
    rw [Bool.and_comm]

theorem remove_out {K : Nat → Bool} {k : Nat} (h : K k = false) (sl : Slot) : partSl K (sl.removeTask k).2 = partSl K sl := by
  simp only [Slot.removeTask, partSl, List.filter_filter]
  congr 1
  funext t
  by_cases ht : t.taskId = k
  · simp [ht, h]
  · simp [ht]

theorem removed_id {k : Nat} {sl : Slot} {t : Task} (h : (sl.removeTask k).1 = some t) : t.taskId = k := by
  have := List.find?_some h
  simpa using this

theorem any_in {K : Nat → Bool} {k : Nat} (h : K k = true) (sl : Slot) :
    (partSl K sl).any (fun x => x.taskId == k) = sl.any (fun x => x.taskId == k) := by
  rw [Bool.eq_iff_iff]
  simp only [partSl, List.any_eq_true, List.mem_filter, beq_iff_eq]
  constructor
  · rintro ⟨x, ⟨h1, _⟩, h2⟩; exact ⟨x, h1, h2⟩
  · rintro ⟨x, h1, h2⟩; exact ⟨x, ⟨h1, h2 ▸ h⟩, h2⟩

theorem swap_in {K : Nat → Bool} {t : Task} (h : K t.taskId = true) (sl : Slot) :
    partSl K (sl.map fun x => if x.taskId = t.taskId then t else x) = (partSl K sl).map fun x => if x.taskId = t.taskId then t else x := by
  induction sl with
  | nil => rfl
  | cons a sl ih =>
    simp only [partSl, List.map_cons, List.filter_cons] at *
    by_cases ha : a.taskId = t.taskId
    · simp [ha, h, ih]
    · simp only [ha, if_false]
      split <;> simp [ha, ih]

theorem swap_out {K : Nat → Bool} {t : Task} (h : K t.taskId = false) (sl : Slot) :
    partSl K (sl.map fun x => if x.taskId = t.taskId then t else x) = partSl K sl := by
  induction sl with
  | nil => rfl
  | cons a sl ih =>
    simp only [partSl, List.map_cons, List.filter_cons] at *
    by_cases ha : a.taskId = t.taskId
    · simp [ha, h, ih]
    · simp [ha, ih]

theorem add_in {K : Nat → Bool} {t : Task} (h : K t.taskId = true) (sl : Slot) :
    partSl K (sl.addTask t) = (partSl K sl).addTask t := by
  unfold Slot.addTask
  rw [any_in h]
  split
  · exact swap_in h sl
  · simp [partSl, h]

theorem add_out {K : Nat → Bool} {t : Task} (h : K t.taskId = false) (sl : Slot) : partSl K (sl.addTask t) = partSl K sl := by
  unfold Slot.addTask
  split
  · exact swap_out h sl
  · simp [partSl, h]

theorem update_in {K : Nat → Bool} {t : Task} (h : K t.taskId = true) (sl : Slot) :
    partSl K (sl.updateTask t) = (partSl K sl).updateTask t := by
  have h1 := congrArg Prod.fst (remove_in h sl)
  simp only [Slot.removeTask] at h1
  unfold Slot.updateTask
  rw [h1]
  cases sl.find? (fun x => x.taskId == t.taskId) with
  | none => exact add_in h sl
  | some _ => exact swap_in h sl

theorem update_out {K : Nat → Bool} {t : Task} (h : K t.taskId = false) (sl : Slot) : partSl K (sl.updateTask t) = partSl K sl := by
  unfold Slot.updateTask
  split
  · exact swap_out h sl
  · exact add_out h sl

theorem arrived_id (t : Task) : t.checkArrived.2.taskId = t.taskId := by
  unfold Task.checkArrived
  repeat' split
  all_goals rfl

theorem arrive_part (K : Nat → Bool) (sl : Slot) :
    (partSl K sl).arrivalTimeTasks = (sl.arrivalTimeTasks.1.filter K, partSl K sl.arrivalTimeTasks.2) := by
  simp only [Slot.arrivalTimeTasks, partSl, Prod.mk.injEq]
  constructor
  · rw [List.filter_map, List.filter_filter, List.filter_filter]
    congr 2
    funext t
    simp [Bool.and_comm]
  · rw [List.filter_map]
    congr 2
    funext t
    simp

/-! ## The scheduler -/

/-- What one action does to the part. -/
def PartStep (env : Env) (K : Nat → Bool) (b : Side) (l : Label) (p s' : St) : Prop :=
  (Part K b s' p ∧ (calledId l).any K = false) ∨ ((∃ p', step env p l = some p' ∧ Part K b s' p') ∧ ¬ ForOthers K l)

theorem noCall {K : Nat → Bool} {l : Label} (h : calledId l = none) : (calledId l).any K = false ∧ ¬ ForOthers K l := by
  refine ⟨by rw [h]; rfl, ?_⟩
  rintro ⟨id, h1, _⟩
  rw [h] at h1; cases h1

theorem fresh_part {env : Env} {r rs : List Int} {rec : Int} (h : freshId env rs rec = true) (hr : ∀ a ∈ r, a ∈ rs) :
    freshId env r rec = true := by
  unfold freshId at *
  rw [List.all_eq_true] at *
  exact fun a ha => h a (hr a ha)

/-- Nothing happens for `K`. -/
theorem part_stays {env : Env} {K : Nat → Bool} {b : Side} {l : Label} {s' : St} {r : List Int} {x : TPC} {s : St}
    (hl : calledId l = none) (he : part K b r x s' = part K b r x s) (hr : ∀ a ∈ r, a ∈ s'.recs)
    (hx : x = partT K s'.tpc ∨ s'.tpc = .panicked) : PartStep env K b l (part K b r x s) s' :=
  Or.inl ⟨⟨r, x, he.symm, hr, hx⟩, (noCall hl).1⟩

/-- The same happens for `K`. -/
theorem part_goes {env : Env} {K : Nat → Bool} {b : Side} {l : Label} {s' : St} {r r' : List Int} {x x' : TPC} {s : St}
    (hl : calledId l = none) (he : step env (part K b r x s) l = some (part K b r' x' s')) (hr : ∀ a ∈ r', a ∈ s'.recs)
    (hx : x' = partT K s'.tpc ∨ s'.tpc = .panicked) : PartStep env K b l (part K b r x s) s' :=
  Or.inr ⟨⟨_, he, r', x', rfl, hr, hx⟩, (noCall hl).2⟩

/-- Actions of the scheduler. -/
def ofScheduler : Label → Bool
  | .tLoad | .tStore | .tArrive | .tPop _ | .tCheck _ | .tSpawn _ | .tAppend | .tGate | .tSlot | .tMark | .tLapse => true
  | _ => false

theorem part_scheduler {env : Env} {K : Nat → Bool} {b : Side} {s s' p : St} {l : Label} (hre : Reachable env s)
    (hl : ofScheduler l = true) (hst : step env s l = some s') (hp : Part K b s p) : PartStep env K b l p s' := by
  obtain ⟨r, x, rfl, hr, hx⟩ := hp
  have hrt := rtOk hre
  have hrc := recOk hre
  cases step_act hst
  case load_go h hm =>
    have hx := hx.resolve_right (by rw [h]; simp)
    rw [h, partT] at hx
    exact part_goes rfl (x' := .store) (r' := r) (by simp [step, tLoad, part, hx, hm]) hr (Or.inl rfl)
  case load_halt h hm =>
    have hx := hx.resolve_right (by rw [h]; simp)
    rw [h, partT] at hx
    exact part_goes rfl (x' := .halted) (r' := r) (by simp [step, tLoad, part, hx, hm, seen, List.filter_cons]) hr (Or.inl rfl)
  case store h =>
    have hx := hx.resolve_right (by rw [h]; simp)
    rw [h, partT] at hx
    exact part_goes rfl (x' := .arrive) (r' := r) (by simp [step, tStore, part, hx]) hr (Or.inl rfl)
  case arrive sl h hw =>
    have hx := hx.resolve_right (by rw [h]; simp)
    rw [h, partT] at hx
    have hw' : partW K s.wheel s.secondHand = some (partSl K sl) := by simp [partW, hw]
    exact part_goes rfl (x' := .batch (sl.arrivalTimeTasks.1.filter K)) (r' := r)
      (by simp [step, tArrive, part, hx, hw', arrive_part, partW_set]) hr (Or.inl rfl)
  case arrive_missing h hw =>
    have hx := hx.resolve_right (by rw [h]; simp)
    rw [h, partT] at hx
    have hw' : partW K s.wheel s.secondHand = none := by simp [partW, hw]
    exact part_goes rfl (x' := .head) (r' := r) (by simp [step, tArrive, part, hx, hw']) hr (Or.inl rfl)
  case pop_hit pending id sl t h hmem hw hrm =>
    have hx := hx.resolve_right (by rw [h]; simp)
    rw [h, partT] at hx
    have ht := removed_id hrm
    by_cases hk : K id = true
    · have hw' : partW K s.wheel s.secondHand = some (partSl K sl) := by simp [partW, hw]
      exact part_goes rfl (x' := .check ((pending.erase id).filter K) t) (r' := r)
        (by simp [step, tPop, part, hx, hw', remove_in hk, hrm, partW_set, hmem, hk, seen, erase_in hk]) hr
        (Or.inl (by simp [partT, ht, hk]))
    · have hk : K id = false := by simpa using hk
      refine part_stays rfl ?_ hr (Or.inl (by simp [partT, ht, hk, hx, erase_out hk]))
      simp [part, seen, hk, partW_same hw (remove_out hk sl)]
  case pop_miss pending id h hmem hw =>
    have hx := hx.resolve_right (by rw [h]; simp)
    rw [h, partT] at hx
    by_cases hk : K id = true
    · refine part_goes rfl (x' := .batch ((pending.erase id).filter K)) (r' := r) ?_ hr (Or.inl (by simp [partT]))
      cases hq : s.wheel s.secondHand with
      | none =>
        have hw' : partW K s.wheel s.secondHand = none := by simp [partW, hq]
        simp [step, tPop, part, hx, hw', hmem, hk, erase_in hk]
      | some sl =>
        have hw' : partW K s.wheel s.secondHand = some (partSl K sl) := by simp [partW, hq]
        simp [step, tPop, part, hx, hw', hmem, hk, erase_in hk, remove_in hk, hw sl hq]
    · have hk : K id = false := by simpa using hk
      exact part_stays rfl rfl hr (Or.inl (by simp [partT, hx, erase_out hk]))
  case check_nolimit pending t rec h hrec hmax =>
    have hx := hx.resolve_right (by rw [h]; simp)
    rw [h, partT] at hx
    have hr2 : ∀ a ∈ r, a ∈ rec :: s.recs := fun a ha => List.mem_cons_of_mem _ (hr a ha)
    by_cases hk : K t.taskId = true
    · rw [if_pos hk] at hx
      refine part_goes rfl (x' := .spawn (pending.filter K) t rec) (r' := rec :: r) ?_ ?_ (Or.inl (by simp [partT, hk]))
      · simp [step, tCheck, part, hx, fresh_part hrec hr, hmax]
      · intro a ha
        rcases List.mem_cons.1 ha with rfl | ha
        · simp
        · exact hr2 a ha
    · rw [if_neg hk] at hx
      exact part_stays rfl rfl hr2 (Or.inl (by simp [partT, hx, hk]))
  case check_nomark pending t rec k h hrec hmax hf =>
    have hx := hx.resolve_right (by rw [h]; simp)
    rw [h, partT] at hx
    have hr2 : ∀ a ∈ r, a ∈ rec :: s.recs := fun a ha => List.mem_cons_of_mem _ (hr a ha)
    by_cases hk : K t.taskId = true
    · rw [if_pos hk] at hx
      refine part_goes rfl (x' := .batch (pending.filter K)) (r' := rec :: r) ?_ ?_ (Or.inl (by simp [partT]))
      · simp [step, tCheck, part, hx, fresh_part hrec hr, hmax, partF_at hk, hf]
      · intro a ha
        rcases List.mem_cons.1 ha with rfl | ha
        · simp
        · exact hr2 a ha
    · rw [if_neg hk] at hx
      exact part_stays rfl rfl hr2 (Or.inl (by simp [partT, hx]))
  case check_skip pending t rec k m h hrec hmax hf hle =>
    have hx := hx.resolve_right (by rw [h]; simp)
    rw [h, partT] at hx
    have hr2 : ∀ a ∈ r, a ∈ rec :: s.recs := fun a ha => List.mem_cons_of_mem _ (hr a ha)
    by_cases hk : K t.taskId = true
    · rw [if_pos hk] at hx
      refine part_goes rfl (x' := .rearm (pending.filter K) t false) (r' := rec :: r) ?_ ?_ (Or.inl (by simp [partT, hk]))
      · simp [step, tCheck, part, hx, fresh_part hrec hr, hmax, partF_at hk, hf, hle, seen, hk]
      · intro a ha
        rcases List.mem_cons.1 ha with rfl | ha
        · simp
        · exact hr2 a ha
    · rw [if_neg hk] at hx
      refine part_stays rfl ?_ hr2 (Or.inl (by simp [partT, hx, hk]))
      simp [part, seen, hk]
  case check_ok pending t rec k m h hrec hmax hf hlt =>
    have hx := hx.resolve_right (by rw [h]; simp)
    rw [h, partT] at hx
    have hr2 : ∀ a ∈ r, a ∈ rec :: s.recs := fun a ha => List.mem_cons_of_mem _ (hr a ha)
    by_cases hk : K t.taskId = true
    · rw [if_pos hk] at hx
      refine part_goes rfl (x' := .spawn (pending.filter K) t rec) (r' := rec :: r) ?_ ?_ (Or.inl (by simp [partT, hk]))
      · simp [step, tCheck, part, hx, fresh_part hrec hr, hmax, partF_at hk, hf, Nat.not_le.2 hlt]
      · intro a ha
        rcases List.mem_cons.1 ha with rfl | ha
        · simp
        · exact hr2 a ha
    · rw [if_neg hk] at hx
      exact part_stays rfl rfl hr2 (Or.inl (by simp [partT, hx, hk]))
  case spawn_panic pending t rec h =>
    have hx := hx.resolve_right (by rw [h]; simp)
    rw [h, partT] at hx
    by_cases hk : K t.taskId = true
    · rw [if_pos hk] at hx
      exact part_goes rfl (x' := .panicked) (r' := r) (by simp [step, tSpawn, part, hx]) hr (Or.inr rfl)
    · exact part_stays rfl rfl hr (Or.inr rfl)
  case spawn pending t rec h =>
    have hx := hx.resolve_right (by rw [h]; simp)
    rw [h, partT] at hx
    by_cases hk : K t.taskId = true
    · rw [if_pos hk] at hx
      refine part_goes rfl (x' := .append (pending.filter K) t _) (r' := r) ?_ hr (Or.inl (by simp only [partT, if_pos hk]; rfl))
      simp only [step, tSpawn, part, hx]
      simp [partR_in (v := ⟨t.taskId, t.routine, false, false, false, false⟩) hk, seen, hk]
    · have hk' : K t.taskId = false := by simpa using hk
      rw [if_neg hk] at hx
      refine part_stays rfl ?_ hr (Or.inl (by simp [partT, hx, hk]))
      have hnew : s.rt rec = none := by
        cases hq : s.rt rec with
        | none => rfl
        | some v =>
          obtain ⟨⟨n, ts, h1⟩, _⟩ := hrt.rt rec v hq
          have := (hrc.fresh _ _ _ h).2 rec (mem_startedRecs.2 ⟨_, _, _, _, h1⟩)
          exact absurd rfl this.1
      simp only [part]
      simp [partR_out (f := s.rt) (r := rec) (v := ⟨t.taskId, t.routine, false, false, false, false⟩) hk' (by rw [hnew]; simp), seen, hk]
  case append pending t box h =>
    have hx := hx.resolve_right (by rw [h]; simp)
    rw [h, partT] at hx
    by_cases hk : K t.taskId = true
    · rw [if_pos hk] at hx
      have hov : (env.overflowChecks && t.limitOverflows box.startTime) = false := by
        simp only [step, tAppend, h] at hst
        split at hst
        · cases hst
        · exact Bool.eq_false_iff.2 ‹_›
      refine part_goes rfl (x' := .gate (pending.filter K) t box.recordId) (r' := r) ?_ hr (Or.inl (by simp [partT, hk]))
      simp only [step, tAppend, part, hx, hov, push]
      simp [seen, aboutTag, TimerEvent.tag, hk]
    · rw [if_neg hk] at hx
      refine part_stays rfl ?_ hr (Or.inl (by simp [partT, hx, hk]))
      simp [part, push, seen, aboutTag, TimerEvent.tag, hk]
  case gate_panic pending t rec h hd =>
    have hx := hx.resolve_right (by rw [h]; simp)
    rw [h, partT] at hx
    obtain ⟨_, v, hv, hvt⟩ := hrt.gate _ _ _ h
    by_cases hk : K t.taskId = true
    · rw [if_pos hk] at hx
      refine part_goes rfl (x' := .panicked) (r' := r) ?_ hr (Or.inr rfl)
      simp only [step, tGate, part, hx, hd, partR_at hv (hvt ▸ hk), hv, Option.map_some]
      rw [partR_in (by exact hvt ▸ hk)]
    · have hk' : K t.taskId = false := by simpa using hk
      refine part_stays rfl ?_ hr (Or.inr rfl)
      simp only [part, hv, Option.map_some]
      rw [partR_out (by exact hvt ▸ hk') (by rw [hv]; rintro u ⟨⟩; exact hvt ▸ hk')]
  case gate_again pending t t' rec h hd =>
    have hx := hx.resolve_right (by rw [h]; simp)
    rw [h, partT] at hx
    obtain ⟨_, v, hv, hvt⟩ := hrt.gate _ _ _ h
    have hid := down_taskId hd
    by_cases hk : K t.taskId = true
    · rw [if_pos hk] at hx
      refine part_goes rfl (x' := .rearm (pending.filter K) t' true) (r' := r) ?_ hr (Or.inl (by simp [partT, hid, hk]))
      simp only [step, tGate, part, hx, hd, partR_at hv (hvt ▸ hk), hv, Option.map_some]
      rw [partR_in (by exact hvt ▸ hk)]
    · have hk' : K t.taskId = false := by simpa using hk
      rw [if_neg hk] at hx
      refine part_stays rfl ?_ hr (Or.inl (by simp [partT, hx, hid, hk]))
      simp only [part, hv, Option.map_some]
      rw [partR_out (by exact hvt ▸ hk') (by rw [hv]; rintro u ⟨⟩; exact hvt ▸ hk')]
  case gate_last pending t t' rec h hd =>
    have hx := hx.resolve_right (by rw [h]; simp)
    rw [h, partT] at hx
    obtain ⟨_, v, hv, hvt⟩ := hrt.gate _ _ _ h
    by_cases hk : K t.taskId = true
    · rw [if_pos hk] at hx
      refine part_goes rfl (x' := .batch (pending.filter K)) (r' := r) ?_ hr (Or.inl (by simp [partT]))
      simp only [step, tGate, part, hx, hd, partR_at hv (hvt ▸ hk), hv, Option.map_some]
      rw [partR_in (by exact hvt ▸ hk)]
    · have hk' : K t.taskId = false := by simpa using hk
      rw [if_neg hk] at hx
      refine part_stays rfl ?_ hr (Or.inl (by simp [partT, hx]))
      simp only [part, hv, Option.map_some]
      rw [partR_out (by exact hvt ▸ hk') (by rw [hv]; rintro u ⟨⟩; exact hvt ▸ hk')]
  case slot_none pending t upd h hn =>
    have hx := hx.resolve_right (by rw [h]; simp)
    rw [h, partT] at hx
    by_cases hk : K t.taskId = true
    · rw [if_pos hk] at hx
      have hov : (env.overflowChecks && t.alarmOverflows) = false := by
        simp only [step, tSlot, h] at hst
        split at hst
        · cases hst
        · exact Bool.eq_false_iff.2 ‹_›
      have he : t.getNextExecTimestamp = (none, t.getNextExecTimestamp.2) := by rw [← hn]
      refine part_goes rfl (x' := .batch (pending.filter K)) (r' := r) ?_ hr (Or.inl (by simp [partT]))
      simp only [step, tSlot, part, hx, hov]
      rw [he]; rfl
    · rw [if_neg hk] at hx
      exact part_stays rfl rfl hr (Or.inl (by simp [partT, hx]))
  case slot_missing pending t upd exec h hn hw =>
    have hx := hx.resolve_right (by rw [h]; simp)
    rw [h, partT] at hx
    by_cases hk : K t.taskId = true
    · rw [if_pos hk] at hx
      have hov : (env.overflowChecks && t.alarmOverflows) = false := by
        simp only [step, tSlot, h] at hst
        split at hst
        · cases hst
        · exact Bool.eq_false_iff.2 ‹_›
      have he : t.getNextExecTimestamp = (some exec, t.getNextExecTimestamp.2) := by rw [← hn]
      refine part_goes rfl (x' := .batch (pending.filter K)) (r' := r) ?_ hr (Or.inl (by simp [partT]))
      have hw' : partW K s.wheel (((checkedSub exec (env.clock s.ticks)).getD 1 + nextSecondHand s) % SLOT_COUNT) = none := by
        simp only [partW, hw, Option.map_none]
      simp only [nextSecondHand] at hw'
      simp only [step, tSlot, part, hx, hov, nextSecondHand]
      rw [he]
      simp only [hw']; rfl
    · rw [if_neg hk] at hx
      exact part_stays rfl rfl hr (Or.inl (by simp [partT, hx]))
  case slot_ok pending t upd exec sl stp slot h hn hstep hslot hw =>
    have hx := hx.resolve_right (by rw [h]; simp)
    rw [h, partT] at hx
    by_cases hk : K t.taskId = true
    · rw [if_pos hk] at hx
      have hov : (env.overflowChecks && t.alarmOverflows) = false := by
        simp only [step, tSlot, h] at hst
        split at hst
        · cases hst
        · exact Bool.eq_false_iff.2 ‹_›
      have he : t.getNextExecTimestamp = (some exec, t.getNextExecTimestamp.2) := by rw [← hn]
      refine part_goes rfl (x' := .mark (pending.filter K) t.taskId slot upd) (r' := r) ?_ hr (Or.inl (by simp [partT, hk]))
      have hw' : partW K s.wheel slot = some (partSl K sl) := by simp [partW, hw]
      subst hstep
      simp only [nextSecondHand] at hslot
      simp only [step, tSlot, part, hx, hov, nextSecondHand]
      rw [he]
      simp only [← hslot, hw', partW_set]
      rw [add_in (by exact hk)]; rfl
    · have hk' : K t.taskId = false := by simpa using hk
      rw [if_neg hk] at hx
      refine part_stays rfl ?_ hr (Or.inl (by simp [partT, hx, hk]))
      simp only [part]
      rw [partW_same hw (add_out (by exact hk') sl)]
  case mark_none pending id slot upd h hf =>
    have hx := hx.resolve_right (by rw [h]; simp)
    rw [h, partT] at hx
    by_cases hk : K id = true
    · rw [if_pos hk] at hx
      exact part_goes rfl (x' := .batch (pending.filter K)) (r' := r) (by simp [step, tMark, part, hx, partF_at hk, hf]) hr (Or.inl rfl)
    · rw [if_neg hk] at hx
      exact part_stays rfl rfl hr (Or.inl (by simp [partT, hx]))
  case mark_some pending id slot upd m h hf =>
    have hx := hx.resolve_right (by rw [h]; simp)
    rw [h, partT] at hx
    by_cases hk : K id = true
    · rw [if_pos hk] at hx
      exact part_goes rfl (x' := .batch (pending.filter K)) (r' := r)
        (by simp [step, tMark, part, hx, partF_at hk, hf, partF_in hk]) hr (Or.inl rfl)
    · have hk' : K id = false := by simpa using hk
      rw [if_neg hk] at hx
      refine part_stays rfl ?_ hr (Or.inl (by simp [partT, hx]))
      simp only [part]
      rw [partF_out hk']
  case lapse h =>
    have hx := hx.resolve_right (by rw [h]; simp)
    rw [h, partT] at hx
    exact part_goes rfl (x' := .head) (r' := r) (by simp [step, tLapse, part, hx]) hr (Or.inl rfl)
  all_goals (exact absurd hl (by simp [ofScheduler]))

end DelayTimer
