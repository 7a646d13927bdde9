import Verif.Proofs.Part

/-!
The event thread on a part of the ids.
-/

namespace DelayTimer

open Spec

theorem done_in {env : Env} {K : Nat → Bool} {b : Side} {r : List Int} {x : TPC} {s : St} {tag : Tag} {pub : Option PublicEvent}
    {res : Option Bool} (ht : aboutTag K tag = true) (hp : ∀ e, pub = some e → seenReport K e = true) :
    done env (part K b r x s) tag pub res = part K b r x (done env s tag pub res) := by
  simp only [done, part, partE]
  congr 1
  · split
    · rw [List.filter_append]
      simp [hp _ rfl]
    · rfl
  · simp [seen, ht]

theorem done_out {env : Env} {K : Nat → Bool} {b : Side} {r : List Int} {x : TPC} {s : St} {tag : Tag} {pub : Option PublicEvent}
    {res : Option Bool} (ht : aboutTag K tag = false) (hp : ∀ e, pub = some e → seenReport K e = false) :
    part K b r x (done env s tag pub res) = part K b r x { s with epc := .idle } := by
  simp only [done, part, partE]
  congr 1
  · split
    · rw [List.filter_append]
      simp [hp _ rfl]
    · rfl
  · simp [seen, ht]

theorem notify_in {K : Nat → Bool} {b : Side} {r : List Int} {x : TPC} {s : St} {id : Nat} {m : TaskMark} {mt : Maintainer} {rec : Int}
    {st : Nat} (hk : K id = true) (ho : b.chains = true) : notifyMark (part K b r x s) id m mt rec st =
      ((notifyMark s id m mt rec st).1, part K b r x (notifyMark s id m mt rec st).2) := by
  unfold notifyMark
  by_cases hd : s.chainState mt.chain = DROPPED
  · have hd' : (part K b r x s).chainState mt.chain = DROPPED := by simpa [part, ho] using hd
    rw [if_pos hd, if_pos hd']
    simp [part, dropMaintainer, partF_in hk, ho]
  · have hd' : ¬ (part K b r x s).chainState mt.chain = DROPPED := by simpa [part, ho] using hd
    rw [if_neg hd, if_neg hd']
    cases mt.innerList.findIdx? (fun i => i.recordId == rec) with
    | none => simp [part, partF_in hk]
    | some k =>
      dsimp only
      cases mt.innerList.drop k with
      | nil => simp [part, partF_in hk]
      | cons inst rest => simp [part, notifyInstance, partF_in hk, seen, List.filter_cons, ho]

theorem notify_out {K : Nat → Bool} {b : Side} {r : List Int} {x : TPC} {s : St} {id : Nat} {m : TaskMark} {mt : Maintainer} {rec : Int}
    {st : Nat} (hk : K id = false) (ho : b.chains = false) :
    part K b r x (notifyMark s id m mt rec st).2 = part K b r x s := by
  unfold notifyMark
  repeat' split
  all_goals simp [part, dropMaintainer, notifyInstance, partF_out hk, seen, ho]

/-- Who has a chain. -/
theorem lone_flags {K : Nat → Bool} {a : Bool} {s : St} (hL : Lone K a s) {k : Nat} :
    ∀ m mt, s.flags k = some m → m.maintainer = some mt → K k = a := by
  intro m mt hf hm
  by_cases h : K k = a
  · exact h
  · have := hL.flags k m hf (by cases hk : K k <;> cases a <;> simp_all)
    rw [hm] at this; cases this

theorem cancel_in {env : Env} {K : Nat → Bool} {b : Side} {i : Bool} {r : List Int} {x : TPC} {s : St} {id : Nat} {rec : Int} {st : Nat}
    (hk : K id = true) (ho : ∀ m mt, s.flags id = some m → m.maintainer = some mt → K id = b.chains) : cancelTask env i (part K b r x s) id rec st =
      ((cancelTask env i s id rec st).1, part K b r x (cancelTask env i s id rec st).2) := by
  unfold cancelTask
  rw [show (part K b r x s).trace id = s.trace id from partL_at hk]
  cases quitOne env (s.trace id) rec with
  | none => rfl
  | some l =>
    have he : ({ part K b r x s with trace := set (part K b r x s).trace id l, log := .stopped id rec :: (part K b r x s).log } : St) =
        part K b r x { s with trace := set s.trace id l, log := .stopped id rec :: s.log } := by
      simp [part, partL_in hk, seen, hk]
    simp only [he]
    rw [show (part K b r x s).flags id = s.flags id from partF_at hk]
    cases hf : s.flags id with
    | none => rfl
    | some m =>
      dsimp only
      cases hmt : m.maintainer with
      | none => simp [part, partF_in hk, partL_in hk, seen, hk]
      | some mt =>
        dsimp only
        rw [notify_in hk ((ho m mt hf hmt).symm.trans hk)]
        split <;> rename_i h1 <;> split <;> rename_i h2 <;> simp_all

theorem finish_in {env : Env} {K : Nat → Bool} {b : Side} {r : List Int} {x : TPC} {s : St} {id : Nat} {rec : Int}
    (hk : K id = true) (ho : ∀ m mt, s.flags id = some m → m.maintainer = some mt → K id = b.chains) : finishTask env (part K b r x s) id rec =
      ((finishTask env s id rec).1, part K b r x (finishTask env s id rec).2) := by
  unfold finishTask
  rw [show (part K b r x s).trace id = s.trace id from partL_at hk]
  cases quitOne env (s.trace id) rec with
  | none => rfl
  | some l =>
    have he : ({ part K b r x s with trace := set (part K b r x s).trace id l, log := .stopped id rec :: (part K b r x s).log } : St) =
        part K b r x { s with trace := set s.trace id l, log := .stopped id rec :: s.log } := by
      simp [part, partL_in hk, seen, hk]
    simp only [he]
    rw [show (part K b r x s).flags id = s.flags id from partF_at hk]
    cases hf : s.flags id with
    | none => rfl
    | some m =>
      dsimp only
      cases hmt : m.maintainer with
      | none => simp [part, partF_in hk, partL_in hk, seen, hk]
      | some mt =>
        dsimp only
        rw [notify_in hk ((ho m mt hf hmt).symm.trans hk)]
        generalize notifyMark _ id m mt rec COMPLETED = q
        obtain ⟨ok, s2⟩ := q
        cases ok
        · rfl
        · simp [part, partF_in hk, partF_at hk]

theorem maintain_in {K : Nat → Bool} {b : Side} {r : List Int} {x : TPC} {s : St} {id : Nat} {box : HandlerBox}
    (hk : K id = true) (hb : box.taskId = id) (ho : ∀ m mt, s.flags id = some m → m.maintainer = some mt → K id = b.chains) :
    maintainTaskStatus (part K b r x s) id box = part K b r x (maintainTaskStatus s id box) := by
  have hreg : registerInstance (part K b r x s) id box.recordId = part K b r x (registerInstance s id box.recordId) := by
    unfold registerInstance
    rw [show (part K b r x s).flags id = s.flags id from partF_at hk]
    cases hf : s.flags id with
    | none => rfl
    | some m =>
      dsimp only
      cases hmt : m.maintainer with
      | none => rfl
      | some mt =>
        have ho := (ho m mt hf hmt).symm.trans hk
        dsimp only
        by_cases hd : s.chainState mt.chain = DROPPED
        · have hd' : (part K b r x s).chainState mt.chain = DROPPED := by simpa [part, ho] using hd
          rw [if_pos hd, if_pos hd']
          simp [part, dropMaintainer, partF_in hk, ho]
        · have hd' : ¬ (part K b r x s).chainState mt.chain = DROPPED := by simpa [part, ho] using hd
          rw [if_neg hd, if_neg hd']
          simp [part, partF_in hk, ho]
  have hu : (unitsOf box).filter (fun u => K u.taskId) = unitsOf box := by
    unfold unitsOf
    cases box.endTime <;> simp [hb, hk]
  unfold maintainTaskStatus
  rw [hreg]
  simp [part, partU, partL_in hk, partL_at hk, hu]

theorem cancel_out {env : Env} {K : Nat → Bool} {b : Side} {i : Bool} {r : List Int} {x : TPC} {s : St} {id : Nat} {rec : Int} {st : Nat}
    (hk : K id = false) (ho : ∀ m mt, s.flags id = some m → m.maintainer = some mt → K id = b.chains) :
    part K b r x (cancelTask env i s id rec st).2 = part K b r x s := by
  unfold cancelTask
  cases quitOne env (s.trace id) rec with
  | none => rfl
  | some l =>
    dsimp only
    have he : part K b r x { s with trace := set s.trace id l, log := .stopped id rec :: s.log } = part K b r x s := by
      simp [part, partL_out hk, seen, hk]
    cases hf : s.flags id with
    | none => exact he
    | some m =>
      dsimp only
      cases hmt : m.maintainer with
      | none => simp [part, partL_out hk, partF_out hk, seen, hk]
      | some mt =>
        dsimp only
        have hn := notify_out (r := r) (x := x) (s := { s with trace := set s.trace id l, log := .stopped id rec :: s.log })
          (m := { m with parallelRunnableNum := m.parallelRunnableNum - 1 }) (mt := mt) (rec := rec) (st := st) hk
          ((ho m mt hf hmt).symm.trans hk)
        rw [hmt] at hn
        split
        all_goals
          rename_i hq
          rw [hq] at hn
          exact hn.trans he

theorem finish_out {env : Env} {K : Nat → Bool} {b : Side} {r : List Int} {x : TPC} {s : St} {id : Nat} {rec : Int}
    (hk : K id = false) (ho : ∀ m mt, s.flags id = some m → m.maintainer = some mt → K id = b.chains) :
    part K b r x (finishTask env s id rec).2 = part K b r x s := by
  unfold finishTask
  cases quitOne env (s.trace id) rec with
  | none => rfl
  | some l =>
    dsimp only
    have he : part K b r x { s with trace := set s.trace id l, log := .stopped id rec :: s.log } = part K b r x s := by
      simp [part, partL_out hk, seen, hk]
    cases hf : s.flags id with
    | none => exact he
    | some m =>
      dsimp only
      cases hmt : m.maintainer with
      | none => simp [part, partL_out hk, partF_out hk, seen, hk]
      | some mt =>
        dsimp only
        have hn := notify_out (r := r) (x := x) (s := { s with trace := set s.trace id l, log := .stopped id rec :: s.log })
          (m := m) (mt := mt) (rec := rec) (st := COMPLETED) hk ((ho m mt hf hmt).symm.trans hk)
        split
        all_goals
          rename_i hq
          rw [hq] at hn
          rw [← he, ← hn]
          try rfl
          try simp [part, partF_out hk]

theorem maintain_out {K : Nat → Bool} {b : Side} {r : List Int} {x : TPC} {s : St} {id : Nat} {box : HandlerBox}
    (hk : K id = false) (hb : box.taskId = id) (ho : ∀ m mt, s.flags id = some m → m.maintainer = some mt → K id = b.chains) :
    part K b r x (maintainTaskStatus s id box) = part K b r x s := by
  have hreg : part K b r x (registerInstance s id box.recordId) = part K b r x s := by
    unfold registerInstance
    cases hf : s.flags id with
    | none => rfl
    | some m =>
      dsimp only
      cases hmt : m.maintainer with
      | none => rfl
      | some mt =>
        have ho := (ho m mt hf hmt).symm.trans hk
        dsimp only
        split <;> simp [part, dropMaintainer, partF_out hk, ho]
  have hu : (unitsOf box).filter (fun u => K u.taskId) = [] := by
    unfold unitsOf
    cases box.endTime <;> simp [hb, hk]
  rw [← hreg]
  unfold maintainTaskStatus
  simp [part, partU, partL_out hk, hu]

theorem dropMaintainer_in {K : Nat → Bool} {b : Side} {r : List Int} {x : TPC} {s : St} (mt : Option Maintainer)
    (ho : ∀ v, mt = some v → b.chains = true) : dropMaintainer (part K b r x s) mt = part K b r x (dropMaintainer s mt) := by
  cases mt with
  | none => rfl
  | some v => simp [part, dropMaintainer, ho v rfl]

theorem dropMaintainer_out {K : Nat → Bool} {b : Side} {r : List Int} {x : TPC} {s : St} (mt : Option Maintainer)
    (ho : ∀ v, mt = some v → b.chains = false) : part K b r x (dropMaintainer s mt) = part K b r x s := by
  cases mt with
  | none => rfl
  | some v => simp [part, dropMaintainer, ho v rfl]

theorem dropMark_in {K : Nat → Bool} {b : Side} {r : List Int} {x : TPC} {s : St} (m : Option TaskMark)
    (ho : ∀ v mt, m = some v → v.maintainer = some mt → b.chains = true) :
    dropMark (part K b r x s) m = part K b r x (dropMark s m) := by
  unfold dropMark
  cases m with
  | none => rfl
  | some m =>
    dsimp only
    unfold dropMaintainer
    cases hm : m.maintainer with
    | none => rfl
    | some mt => simp [part, ho m mt rfl hm]

theorem dropMark_out {K : Nat → Bool} {b : Side} {r : List Int} {x : TPC} {s : St} (m : Option TaskMark)
    (ho : ∀ v mt, m = some v → v.maintainer = some mt → b.chains = false) :
    part K b r x (dropMark s m) = part K b r x s := by
  unfold dropMark
  cases m with
  | none => rfl
  | some m =>
    dsimp only
    unfold dropMaintainer
    cases hm : m.maintainer with
    | none => rfl
    | some mt => simp [part, ho m mt rfl hm]

theorem partE_out {K : Nat → Bool} {b : Side} {r : List Int} {x : TPC} {s : St} (he : partE K s.epc = .idle) :
    part K b r x { s with epc := .idle } = part K b r x s := by
  simp only [part, he]
  rfl

theorem chan_in {K : Nat → Bool} {b : Side} {r : List Int} {x : TPC} {s : St} {e : TimerEvent} {rest : List TimerEvent}
    (hc : s.chan = e :: rest) (hk : aboutTag K e.tag = true) :
    (part K b r x s).chan = e :: rest.filter fun e => aboutTag K e.tag := by
  simp [part, hc, hk]

theorem chan_out {K : Nat → Bool} {b : Side} {r : List Int} {x : TPC} {s : St} {e : TimerEvent} {rest : List TimerEvent}
    (hc : s.chan = e :: rest) (hk : aboutTag K e.tag = false) : part K b r x { s with chan := rest } = part K b r x s := by
  simp [part, hc, hk]

theorem recv_part {env : Env} {K : Nat → Bool} {b : Side} {r : List Int} {x : TPC} {s : St} {e : TimerEvent} {rest : List TimerEvent}
    (he : s.epc = .idle) (hc : s.chan = e :: rest) (hk : aboutTag K e.tag = true) :
    (∀ id rec, e = .cancelTask id rec → eRecv env (part K b r x s) =
      some (done env (cancelTask env true (part K b r x { s with chan := rest }) id rec CANCELLED).2 e.tag (publicOf e)
        (cancelTask env true (part K b r x { s with chan := rest }) id rec CANCELLED).1)) ∧
    (∀ id rec, e = .timeoutTask id rec → eRecv env (part K b r x s) =
      some (done env (cancelTask env false (part K b r x { s with chan := rest }) id rec TIMEOUT).2 e.tag (publicOf e)
        (cancelTask env false (part K b r x { s with chan := rest }) id rec TIMEOUT).1)) ∧
    (∀ id box, e = .appendTaskHandle id box → eRecv env (part K b r x s) =
      some (done env (maintainTaskStatus (part K b r x { s with chan := rest }) id box) e.tag (publicOf e) (some true))) ∧
    (∀ fb, e = .finishTask fb → eRecv env (part K b r x s) =
      some (done env (finishTask env (part K b r x { s with chan := rest }) fb.taskId fb.recordId).2 e.tag (publicOf e)
        (finishTask env (part K b r x { s with chan := rest }) fb.taskId fb.recordId).1)) := by
  have he' : (part K b r x s).epc = .idle := by simp [part, he, partE]
  have hc' := chan_in (K := K) (b := b) (r := r) (x := x) hc hk
  refine ⟨?_, ?_, ?_, ?_⟩ <;> intros <;> subst_vars <;> unfold eRecv <;> split
  all_goals first
    | (rename_i e2 rest2 h1 h2
       rw [hc'] at h2
       cases h2
       rfl)
    | (rename_i h
       exact absurd hc' (h _ _ he'))

theorem part_events {env : Env} {K : Nat → Bool} {b : Side} {s s' p : St} {l : Label} (hre : Reachable env s) (hL : Lone K b.chains s)
    (hl : l = .eRecv ∨ l = .eNext) (hst : step env s l = some s') (hp : Part K b s p) : PartStep env K b l p s' := by
  obtain ⟨r, x, rfl, hr, hx⟩ := hp
  have hrt := rtOk hre
  have hid : s.epc = .idle → partE K s.epc = .idle ∧ (part K b r x s).epc = .idle := by
    intro he; rw [he]; exact ⟨rfl, by simp [part, he, partE]⟩
  cases step_act hst
  case recv_stop rest he hc =>
    have hc' := chan_in (K := K) (b := b) (r := r) (x := x) hc rfl
    refine part_goes rfl (x' := x) (r' := r) ?_ (by simpa using hr) (by simpa using hx)
    rw [← done_in rfl (by simp)]
    simp only [step, eRecv, (hid he).2, hc']
    rfl
  case recv_add t rest he hc =>
    by_cases hk : K t.taskId = true
    · have hc' := chan_in (K := K) (b := b) (r := r) (x := x) hc hk
      refine part_goes rfl (x' := x) (r' := r) ?_ (by simpa using hr) (by simpa using hx)
      simp only [step, eRecv, (hid he).2, hc']
      simp [part, partE, hk]
    · have hk' : K t.taskId = false := by simpa using hk
      refine part_stays rfl ?_ (by simpa using hr) (by simpa using hx)
      rw [← chan_out hc hk']
      simp [part, partE, hk, he]
  case recv_insert t c rest he hc =>
    by_cases hk : K t.taskId = true
    · have hc' := chan_in (K := K) (b := b) (r := r) (x := x) hc hk
      refine part_goes rfl (x' := x) (r' := r) ?_ (by simpa using hr) (by simpa using hx)
      simp only [step, eRecv, (hid he).2, hc']
      simp [part, partE, hk]
    · have hk' : K t.taskId = false := by simpa using hk
      refine part_stays rfl ?_ (by simpa using hr) (by simpa using hx)
      rw [← chan_out hc hk']
      simp [part, partE, hk, he]
  case recv_update_skip t rest he hc hs =>
    by_cases hk : K t.taskId = true
    · have hc' := chan_in (K := K) (b := b) (r := r) (x := x) hc hk
      refine part_goes rfl (x' := x) (r' := r) ?_ (by simpa using hr) (by simpa using hx)
      rw [← done_in (by exact hk) (by simp)]
      simp only [step, eRecv, (hid he).2, hc']
      rw [show (part K b r x s).flags t.taskId = s.flags t.taskId from partF_at hk]
      cases hf : s.flags t.taskId with
      | none => rfl
      | some m =>
        dsimp only
        rw [show (part K b r x s).wheel m.slotMark = none by simp [part, partW, hs m hf]]
        rfl
    · have hk' : K t.taskId = false := by simpa using hk
      refine part_stays rfl ?_ (by simpa using hr) (by simpa using hx)
      rw [done_out (by exact hk') (by simp), ← chan_out hc hk']
      exact partE_out (s := { s with chan := rest }) (by simp [he, partE])
  case recv_update t rest m sl he hc hf hw =>
    by_cases hk : K t.taskId = true
    · have hc' := chan_in (K := K) (b := b) (r := r) (x := x) hc hk
      refine part_goes rfl (x' := x) (r' := r) ?_ (by simpa using hr) (by simpa using hx)
      rw [← done_in (by exact hk) (by simp)]
      simp only [step, eRecv, (hid he).2, hc']
      rw [show (part K b r x s).flags t.taskId = some m from (partF_at hk).trans hf]
      dsimp only
      rw [show (part K b r x s).wheel m.slotMark = some (partSl K sl) by simp [part, partW, hw]]
      simp only [part, partW_set, update_in hk]
      rfl
    · have hk' : K t.taskId = false := by simpa using hk
      refine part_stays rfl ?_ (by simpa using hr) (by simpa using hx)
      rw [done_out (by exact hk') (by simp), ← chan_out hc hk']
      simp only [part, partW_same hw (update_out hk' sl), he]
  case recv_advance_err id rest he hc hs =>
    by_cases hk : K id = true
    · have hc' := chan_in (K := K) (b := b) (r := r) (x := x) hc hk
      refine part_goes rfl (x' := x) (r' := r) ?_ (by simpa using hr) (by simpa using hx)
      rw [← done_in (by exact hk) (by simp)]
      simp only [step, eRecv, (hid he).2, hc']
      rw [show (part K b r x s).flags id = s.flags id from partF_at hk]
      cases hf : s.flags id with
      | none => rfl
      | some m =>
        dsimp only
        cases hw : s.wheel m.slotMark with
        | none =>
          rw [show (part K b r x s).wheel m.slotMark = none by simp [part, partW, hw]]
          rfl
        | some sl =>
          rw [show (part K b r x s).wheel m.slotMark = some (partSl K sl) by simp [part, partW, hw]]
          dsimp only
          rw [remove_in hk, hs m sl hf hw]
          rfl
    · have hk' : K id = false := by simpa using hk
      refine part_stays rfl ?_ (by simpa using hr) (by simpa using hx)
      rw [done_out (by exact hk') (by simp), ← chan_out hc hk']
      exact partE_out (s := { s with chan := rest }) (by simp [he, partE])
  case recv_advance id rest m sl t he hc hf hw hrm =>
    have ht := removed_id hrm
    by_cases hk : K id = true
    · have hc' := chan_in (K := K) (b := b) (r := r) (x := x) hc hk
      refine part_goes rfl (x' := x) (r' := r) ?_ (by simpa using hr) (by simpa using hx)
      simp only [step, eRecv, (hid he).2, hc']
      rw [show (part K b r x s).flags id = some m from (partF_at hk).trans hf]
      dsimp only
      rw [show (part K b r x s).wheel m.slotMark = some (partSl K sl) by simp [part, partW, hw]]
      dsimp only
      rw [remove_in hk, hrm]
      simp [part, partW_set, partE, ht, hk]
    · have hk' : K id = false := by simpa using hk
      refine part_stays rfl ?_ (by simpa using hr) (by simpa using hx)
      rw [← chan_out hc hk']
      simp [part, partW_same hw (remove_out hk' sl), he, partE, ht, hk]
  case recv_remove_skip id rest he hc hs =>
    by_cases hk : K id = true
    · have hc' := chan_in (K := K) (b := b) (r := r) (x := x) hc hk
      refine part_goes rfl (x' := x) (r' := r) ?_ (by simpa using hr) (by simpa using hx)
      simp only [step, eRecv, (hid he).2, hc']
      rw [show (part K b r x s).flags id = s.flags id from partF_at hk]
      cases hf : s.flags id with
      | none => simp [part, partE, hk]
      | some m =>
        dsimp only
        rw [show (part K b r x s).wheel m.slotMark = none by simp [part, partW, hs m hf]]
        simp [part, partE, hk]
    · have hk' : K id = false := by simpa using hk
      refine part_stays rfl ?_ (by simpa using hr) (by simpa using hx)
      rw [← chan_out hc hk']
      simp [part, he, partE, hk]
  case recv_remove id rest m sl he hc hf hw =>
    by_cases hk : K id = true
    · have hc' := chan_in (K := K) (b := b) (r := r) (x := x) hc hk
      refine part_goes rfl (x' := x) (r' := r) ?_ (by simpa using hr) (by simpa using hx)
      simp only [step, eRecv, (hid he).2, hc']
      rw [show (part K b r x s).flags id = some m from (partF_at hk).trans hf]
      dsimp only
      rw [show (part K b r x s).wheel m.slotMark = some (partSl K sl) by simp [part, partW, hw]]
      dsimp only
      rw [remove_in hk]
      simp [part, partW_set, partE, hk]
    · have hk' : K id = false := by simpa using hk
      refine part_stays rfl ?_ (by simpa using hr) (by simpa using hx)
      rw [← chan_out hc hk']
      simp [part, partW_same hw (remove_out hk' sl), he, partE, hk]
  case recv_cancel id rec rest he hc =>
    by_cases hk : K id = true
    · refine part_goes rfl (x' := x) (r' := r) ?_ (by simpa using hr) (by simpa using hx)
      rw [← done_in (by exact hk) (by simp)]
      have hq := (recv_part (env := env) (b := b) (r := r) (x := x) he hc hk).1 _ _ rfl
      rw [cancel_in (s := { s with chan := rest }) hk (lone_flags hL)] at hq
      exact hq
    · have hk' : K id = false := by simpa using hk
      refine part_stays rfl ?_ (by simpa using hr) (by simpa using hx)
      rw [done_out (by exact hk') (by simp), partE_out, cancel_out (s := { s with chan := rest }) hk' (lone_flags hL), chan_out hc hk']
      simp [he, partE]
  case recv_timeout id rec rest he hc =>
    by_cases hk : K id = true
    · refine part_goes rfl (x' := x) (r' := r) ?_ (by simpa using hr) (by simpa using hx)
      rw [← done_in (by exact hk) (by simp [seenReport, hk])]
      have hq := (recv_part (env := env) (b := b) (r := r) (x := x) he hc hk).2.1 _ _ rfl
      rw [cancel_in (s := { s with chan := rest }) hk (lone_flags hL)] at hq
      exact hq
    · have hk' : K id = false := by simpa using hk
      refine part_stays rfl ?_ (by simpa using hr) (by simpa using hx)
      rw [done_out (by exact hk') (by simp [seenReport, hk']), partE_out, cancel_out (s := { s with chan := rest }) hk' (lone_flags hL), chan_out hc hk']
      simp [he, partE]
  case recv_append id box rest he hc =>
    have hb := (hrt.chanApp id box (by rw [hc]; simp)).1
    by_cases hk : K id = true
    · refine part_goes rfl (x' := x) (r' := r) ?_ (by simpa using hr) (by simpa using hx)
      rw [← done_in (by exact hk) (by simp [seenReport, hb, hk])]
      have hq := (recv_part (env := env) (b := b) (r := r) (x := x) he hc hk).2.2.1 _ _ rfl
      rw [maintain_in (s := { s with chan := rest }) hk hb (lone_flags hL)] at hq
      exact hq
    · have hk' : K id = false := by simpa using hk
      refine part_stays rfl ?_ (by simpa using hr) (by simpa using hx)
      rw [done_out (by exact hk') (by simp [seenReport, hb, hk']), partE_out, maintain_out (s := { s with chan := rest }) hk' hb (lone_flags hL), chan_out hc hk']
      simp [he, partE]
  case recv_finish fb rest he hc =>
    by_cases hk : K fb.taskId = true
    · refine part_goes rfl (x' := x) (r' := r) ?_ (by simpa using hr) (by simpa using hx)
      rw [← done_in (by exact hk) (by simp [seenReport, hk])]
      have hq := (recv_part (env := env) (b := b) (r := r) (x := x) he hc hk).2.2.2 _ rfl
      rw [finish_in (s := { s with chan := rest }) hk (lone_flags hL)] at hq
      exact hq
    · have hk' : K fb.taskId = false := by simpa using hk
      refine part_stays rfl ?_ (by simpa using hr) (by simpa using hx)
      rw [done_out (by exact hk') (by simp [seenReport, hk']), partE_out, finish_out (s := { s with chan := rest }) hk' (lone_flags hL), chan_out hc hk']
      simp [he, partE]
  case next_add1_err t c hand he hn =>
    have hov : (env.overflowChecks && t.alarmOverflows) = false := by
      simp only [step, eNext, he] at hst
      split at hst
      · cases hst
      · exact Bool.eq_false_iff.2 ‹_›
    have hnx : t.getNextExecTimestamp = (none, t.getNextExecTimestamp.2) := by rw [← hn]
    by_cases hk : K t.taskId = true
    · have ha : aboutTag K (addTag t c) = true := by cases c <;> exact hk
      refine part_goes rfl (x' := x) (r' := r) ?_ (by simpa using hr) (by simpa using hx)
      rw [← done_in ha (by simp)]
      simp only [step, eNext, show (part K b r x s).epc = .add1 t c hand by simp [part, he, partE, hk], hov]
      rw [hnx]
      simp only [if_false, Bool.false_eq_true]
      rw [dropMaintainer_in _ (fun v hv => by
        cases c with
        | none => cases hv
        | some c => exact (hL.add1 t c hand he).symm.trans hk)]
    · have hk' : K t.taskId = false := by simpa using hk
      have ha : aboutTag K (addTag t c) = false := by cases c <;> exact hk'
      refine part_stays rfl ?_ (by simpa using hr) (by simpa using hx)
      rw [done_out ha (by simp), partE_out (by
        simp only [dropMaintainer]
        split <;> simp [he, partE, hk])]
      exact dropMaintainer_out _ (fun v hv => by
        cases c with
        | none => cases hv
        | some c => exact (hL.add1 t c hand he).symm.trans hk')
  case next_add1 t c hand exec he hn =>
    have hov : (env.overflowChecks && t.alarmOverflows) = false := by
      simp only [step, eNext, he] at hst
      split at hst
      · cases hst
      · exact Bool.eq_false_iff.2 ‹_›
    have hnx : t.getNextExecTimestamp = (some exec, t.getNextExecTimestamp.2) := by rw [← hn]
    by_cases hk : K t.taskId = true
    · refine part_goes rfl (x' := x) (r' := r) ?_ (by simpa using hr) (by simpa using hx)
      simp only [step, eNext, show (part K b r x s).epc = .add1 t c hand by simp [part, he, partE, hk], hov]
      rw [hnx]
      simp [part, partE, hk]
    · refine part_stays rfl ?_ (by simpa using hr) (by simpa using hx)
      simp [part, he, partE, hk]
  case next_add2 t c hand exec ts seed slot sl he hseed hslot hw =>
    subst hseed hslot
    by_cases hk : K t.taskId = true
    · refine part_goes rfl (x' := x) (r' := r) ?_ (by simpa using hr) (by simpa using hx)
      simp only [step, eNext, show (part K b r x s).epc = .add2 t c hand exec ts by simp [part, he, partE, hk]]
      rw [show (part K b r x s).wheel (((checkedSub exec ts).getD (t.taskId % SLOT_COUNT) + hand + 1) % SLOT_COUNT) = some (partSl K sl) by
        simp only [part, partW, hw, Option.map_some]]
      simp only [part, partW_set, partE]
      rw [add_in (by exact hk), if_pos hk]
    · have hk' : K t.taskId = false := by simpa using hk
      refine part_stays rfl ?_ (by simpa using hr) (by simpa using hx)
      simp only [part, he, partE]
      rw [partW_same hw (add_out (by exact hk') sl), if_neg hk, if_neg hk]
  case next_add2_missing t c hand exec ts seed slot he hseed hslot hw =>
    subst hseed hslot
    by_cases hk : K t.taskId = true
    · refine part_goes rfl (x' := x) (r' := r) ?_ (by simpa using hr) (by simpa using hx)
      simp only [step, eNext, show (part K b r x s).epc = .add2 t c hand exec ts by simp [part, he, partE, hk]]
      rw [show (part K b r x s).wheel (((checkedSub exec ts).getD (t.taskId % SLOT_COUNT) + hand + 1) % SLOT_COUNT) = none by
        simp only [part, partW, hw, Option.map_none]]
      simp only [part, partE]
      rw [if_pos hk]
    · refine part_stays rfl ?_ (by simpa using hr) (by simpa using hx)
      simp only [part, he, partE]
      rw [if_neg hk, if_neg hk]
  case next_add3 tag m he =>
    have ht : aboutTag K tag = K m.taskId := by
      rcases add3Tag hre he with ⟨rfl, _⟩ | ⟨c, rfl, _⟩ <;> rfl
    by_cases hk : K m.taskId = true
    · refine part_goes rfl (x' := x) (r' := r) ?_ (by simpa using hr) (by simpa using hx)
      rw [← done_in (ht.trans hk) (by simp)]
      simp only [step, eNext, show (part K b r x s).epc = .add3 tag m by simp [part, he, partE, hk]]
      rw [show (part K b r x s).flags m.taskId = s.flags m.taskId from partF_at hk,
        dropMark_in _ (fun v mt h1 h2 => (lone_flags hL v mt h1 h2).symm.trans hk)]
      simp [part, partF_in hk]
    · have hk' : K m.taskId = false := by simpa using hk
      refine part_stays rfl ?_ (by simpa using hr) (by simpa using hx)
      rw [done_out (ht.trans hk') (by simp), partE_out (by
        simp only [dropMark, dropMaintainer]
        repeat' split
        all_goals simp [he, partE, hk])]
      rw [← dropMark_out (K := K) (b := b) (r := r) (x := x) (s := s) _ (fun v mt h1 h2 => (lone_flags hL v mt h1 h2).symm.trans hk')]
      have hfl : ∀ m, (dropMark s m).flags = s.flags := by
        intro m
        simp only [dropMark, dropMaintainer]
        repeat' split
        all_goals rfl
      simp only [part, partF_out hk', hfl]
  case next_remove id ok he =>
    by_cases hk : K id = true
    · refine part_goes rfl (x' := x) (r' := r) ?_ (by simpa using hr) (by simpa using hx)
      rw [← done_in (by exact hk) (by simp [seenReport, hk])]
      simp only [step, eNext, show (part K b r x s).epc = .remove id ok by simp [part, he, partE, hk]]
      rw [show (part K b r x s).flags id = s.flags id from partF_at hk,
        dropMark_in _ (fun v mt h1 h2 => (lone_flags hL v mt h1 h2).symm.trans hk)]
      simp [part, partF_in hk]
    · have hk' : K id = false := by simpa using hk
      refine part_stays rfl ?_ (by simpa using hr) (by simpa using hx)
      rw [done_out (by exact hk') (by simp [seenReport, hk']), partE_out (by
        simp only [dropMark, dropMaintainer]
        repeat' split
        all_goals simp [he, partE, hk])]
      rw [← dropMark_out (K := K) (b := b) (r := r) (x := x) (s := s) _ (fun v mt h1 h2 => (lone_flags hL v mt h1 h2).symm.trans hk')]
      have hfl : ∀ m, (dropMark s m).flags = s.flags := by
        intro m
        simp only [dropMark, dropMaintainer]
        repeat' split
        all_goals rfl
      simp only [part, partF_out hk', hfl]
  case next_adv1 t he =>
    by_cases hk : K t.taskId = true
    · refine part_goes rfl (x' := x) (r' := r) ?_ (by simpa using hr) (by simpa using hx)
      simp only [step, eNext, show (part K b r x s).epc = .adv1 t by simp [part, he, partE, hk]]
      simp [part, partE, hk]
    · refine part_stays rfl ?_ (by simpa using hr) (by simpa using hx)
      simp [part, he, partE, hk]
  case next_adv2 t hand sl he hw =>
    by_cases hk : K t.taskId = true
    · refine part_goes rfl (x' := x) (r' := r) ?_ (by simpa using hr) (by simpa using hx)
      rw [← done_in (by exact hk) (by simp)]
      simp only [step, eNext, show (part K b r x s).epc = .adv2 t hand by simp [part, he, partE, hk]]
      rw [show (part K b r x s).wheel (hand + 1) = some (partSl K sl) by simp [part, partW, hw]]
      simp only [part, partW_set, add_in hk]
      rfl
    · have hk' : K t.taskId = false := by simpa using hk
      refine part_stays rfl ?_ (by simpa using hr) (by simpa using hx)
      rw [done_out (by exact hk') (by simp)]
      simp only [part, partW_same hw (add_out hk' sl), he, partE]
      rw [if_neg hk]
  case next_adv2_missing t hand he hw =>
    by_cases hk : K t.taskId = true
    · refine part_goes rfl (x' := x) (r' := r) ?_ (by simpa using hr) (by simpa using hx)
      rw [← done_in (by exact hk) (by simp)]
      simp only [step, eNext, show (part K b r x s).epc = .adv2 t hand by simp [part, he, partE, hk]]
      rw [show (part K b r x s).wheel (hand + 1) = none by simp [part, partW, hw]]
    · have hk' : K t.taskId = false := by simpa using hk
      refine part_stays rfl ?_ (by simpa using hr) (by simpa using hx)
      rw [done_out (by exact hk') (by simp)]
      exact partE_out (by simp [he, partE, hk])
  all_goals (rcases hl with hl | hl <;> exact absurd hl (by simp))

end DelayTimer
