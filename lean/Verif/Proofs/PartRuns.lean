import Verif.Proofs.PartEvents

/-!
Executions of a part of the ids.
-/

namespace DelayTimer

open Spec

/-! ## No chains for the others -/

/-- The mark of `k`, if any, has no chain. -/
def NoChain (f : Nat → Option TaskMark) (k : Nat) : Prop := ∀ m, f k = some m → m.maintainer = none

theorem noChain_set {f : Nat → Option TaskMark} {k id : Nat} {v : Option TaskMark} (h : NoChain f k)
    (hv : k = id → ∀ m, v = some m → m.maintainer = none) : NoChain (set f id v) k := by
  intro m hm
  simp only [set] at hm
  split at hm
  · exact hv ‹_› m hm
  · exact h m hm

theorem notify_flags (s : St) (id : Nat) (m : TaskMark) (mt : Maintainer) (rec : Int) (st : Nat) :
    ∃ v, (notifyMark s id m mt rec st).2.flags = set s.flags id v := by
  unfold notifyMark
  repeat' split
  all_goals exact ⟨_, rfl⟩

theorem cancel_noChain {env : Env} {i : Bool} {s : St} {id : Nat} {rec : Int} {st k : Nat} (h : NoChain s.flags k) :
    NoChain (cancelTask env i s id rec st).2.flags k := by
  unfold cancelTask
  cases quitOne env (s.trace id) rec with
  | none => exact h
  | some l =>
    dsimp only
    cases hf : s.flags id with
    | none => exact h
    | some m =>
      dsimp only
      cases hm : m.maintainer with
      | none => exact noChain_set h (fun _ v hv => by cases hv; rfl)
      | some mt =>
        dsimp only
        have hne : k ≠ id := by
          rintro rfl
          rw [h m hf] at hm; cases hm
        obtain ⟨v, hv⟩ := notify_flags { s with trace := set s.trace id l, log := .stopped id rec :: s.log } id
          { m with parallelRunnableNum := m.parallelRunnableNum - 1 } mt rec st
        rw [hm] at hv
        split
        all_goals
          rename_i hq
          rw [hq] at hv
          rw [show _ = _ from hv]
          exact noChain_set h (fun he => absurd he hne)

theorem finish_noChain {env : Env} {s : St} {id : Nat} {rec : Int} {k : Nat} (h : NoChain s.flags k) :
    NoChain (finishTask env s id rec).2.flags k := by
  unfold finishTask
  cases quitOne env (s.trace id) rec with
  | none => exact h
  | some l =>
    dsimp only
    cases hf : s.flags id with
    | none => exact h
    | some m =>
      dsimp only
      cases hm : m.maintainer with
      | none => exact noChain_set h (fun _ v hv => by cases hv; rfl)
      | some mt =>
        dsimp only
        have hne : k ≠ id := by
          rintro rfl
          rw [h m hf] at hm; cases hm
        obtain ⟨v, hv⟩ := notify_flags { s with trace := set s.trace id l, log := .stopped id rec :: s.log } id m mt rec COMPLETED
        split
        all_goals
          rename_i hq
          rw [hq] at hv
          dsimp only at hv ⊢
          rw [hv]
        · exact noChain_set (noChain_set h (fun he => absurd he hne)) (fun he => absurd he hne)
        · exact noChain_set h (fun he => absurd he hne)

theorem maintain_noChain {s : St} {id : Nat} {box : HandlerBox} {k : Nat} (h : NoChain s.flags k) :
    NoChain (maintainTaskStatus s id box).flags k := by
  unfold maintainTaskStatus registerInstance
  dsimp only
  cases hf : s.flags id with
  | none => exact h
  | some m =>
    dsimp only
    cases hm : m.maintainer with
    | none => exact h
    | some mt =>
      dsimp only
      have hne : k ≠ id := by
        rintro rfl
        rw [h m hf] at hm; cases hm
      split
      · exact noChain_set h (fun he => absurd he hne)
      · exact noChain_set h (fun he => absurd he hne)

theorem lone_init (env : Env) (K : Nat → Bool) (a : Bool) : Lone K a (init env) :=
  ⟨fun _ _ h => (by cases h), fun _ _ _ h => (by cases h), fun _ _ _ _ _ h => (by cases h), fun _ _ h => (by cases h),
    fun _ _ h => (by cases h)⟩

theorem lone_step {env : Env} {K : Nat → Bool} {a : Bool} {s s' : St} {l : Label} (h : Act env s l s') (hs : Lone K a s)
    (hl : ∀ t, l = .uInsert t → K t.taskId = a) : Lone K a s' := by
  have hch : ∀ t c, .insertTask t c ∈ s'.chan → K t.taskId = a := by
    intro t c hx
    rcases chan_sub h hx with h1 | ⟨_, _, _, _, _, h1⟩ | ⟨_, _, _, _, _, _, _, h1⟩ | ⟨op, _, h1⟩ | ⟨t', c', h0, h1⟩ | ⟨_, _, _, h1⟩ |
      ⟨_, _, h1⟩
    · exact hs.chan t c h1
    · cases h1
    · cases h1
    · cases op <;> cases h1
    · cases h1; exact hl _ h0
    · cases h1
    · cases h1
  have hfl : (∀ k, K k = (!a) → NoChain s.flags k) := fun k hk m hm => hs.flags k m hm hk
  obtain ⟨h1, h2, h3, h4, h5⟩ := hs
  cases h
  case mark_some pending id slot upd m h hf =>
    exact ⟨hch, h2, h3, h4, fun k v hv hk => noChain_set (hfl k hk)
      (fun he w hw => by cases hw; exact hfl k hk m (he ▸ hf)) v hv⟩
  case recv_add t rest he hc =>
    exact ⟨hch, fun _ _ _ hx => (by cases hx), fun _ _ _ _ _ hx => (by cases hx), fun _ _ hx => (by cases hx), h5⟩
  case recv_insert t c rest he hc =>
    refine ⟨hch, fun t' _ _ hx => ?_, fun _ _ _ _ _ hx => (by cases hx), fun _ _ hx => (by cases hx), h5⟩
    cases hx
    exact h1 t c (by rw [hc]; simp)
  case recv_cancel id rec rest he hc =>
    exact ⟨hch, fun _ _ _ hx => (by cases hx), fun _ _ _ _ _ hx => (by cases hx), fun _ _ hx => (by cases hx),
      fun k v hv hk => cancel_noChain (s := { s with chan := rest }) (hfl k hk) v hv⟩
  case recv_timeout id rec rest he hc =>
    exact ⟨hch, fun _ _ _ hx => (by cases hx), fun _ _ _ _ _ hx => (by cases hx), fun _ _ hx => (by cases hx),
      fun k v hv hk => cancel_noChain (s := { s with chan := rest }) (hfl k hk) v hv⟩
  case recv_finish b rest he hc =>
    exact ⟨hch, fun _ _ _ hx => (by cases hx), fun _ _ _ _ _ hx => (by cases hx), fun _ _ hx => (by cases hx),
      fun k v hv hk => finish_noChain (s := { s with chan := rest }) (hfl k hk) v hv⟩
  case recv_append id box rest he hc =>
    exact ⟨hch, fun _ _ _ hx => (by cases hx), fun _ _ _ _ _ hx => (by cases hx), fun _ _ hx => (by cases hx),
      fun k v hv hk => maintain_noChain (s := { s with chan := rest }) (hfl k hk) v hv⟩
  case next_add1_err t c hand he hn =>
    exact ⟨hch, fun _ _ _ hx => (by cases hx), fun _ _ _ _ _ hx => (by cases hx), fun _ _ hx => (by cases hx),
      fun k v hv hk => h5 k v (by simpa using hv) hk⟩
  case next_add1 t c hand exec he hn =>
    refine ⟨hch, fun _ _ _ hx => (by cases hx), fun _ c' _ _ _ hx => ?_, fun _ _ hx => (by cases hx), h5⟩
    cases hx
    exact h2 t c' hand he
  case next_add2 t c hand exec ts seed slot sl he hseed hslot hw =>
    refine ⟨hch, fun _ _ _ hx => (by cases hx), fun _ _ _ _ _ hx => (by cases hx), fun _ m hx hk => ?_, h5⟩
    cases hx
    cases c with
    | none => rfl
    | some c =>
      rw [h3 t c hand exec ts he] at hk; cases a <;> cases hk
  case next_add2_missing t c hand exec ts seed slot he hseed hslot hw =>
    refine ⟨hch, fun _ _ _ hx => (by cases hx), fun _ _ _ _ _ hx => (by cases hx), fun _ m hx hk => ?_, h5⟩
    cases hx
    cases c with
    | none => rfl
    | some c =>
      rw [h3 t c hand exec ts he] at hk; cases a <;> cases hk
  case next_add3 tag m he =>
    refine ⟨hch, fun _ _ _ hx => (by cases hx), fun _ _ _ _ _ hx => (by cases hx), fun _ _ hx => (by cases hx), fun k v hv hk => ?_⟩
    exact noChain_set (hfl k hk) (fun hx w hw => by cases hw; exact h4 tag m he (hx ▸ hk)) v hv
  case next_remove id ok he =>
    refine ⟨hch, fun _ _ _ hx => (by cases hx), fun _ _ _ _ _ hx => (by cases hx), fun _ _ hx => (by cases hx), fun k v hv hk => ?_⟩
    exact noChain_set (hfl k hk) (fun hx w hw => by cases hw) v hv
  all_goals first
    | exact ⟨hch, h2, h3, h4, h5⟩
    | exact ⟨hch, fun _ _ _ hx => (by cases hx), fun _ _ _ _ _ hx => (by cases hx), fun _ _ hx => (by cases hx), h5⟩

/-! ## Bodies, the sweeper and callers -/

/-- All deadlines have to do with `K` (`b.sweeper` is `none`), or none has. -/
def Units (K : Nat → Bool) (b : Side) (s : St) : Prop :=
  (∀ u ∈ s.unitChan, K u.taskId = b.sweeper.isNone) ∧ ∀ u ∈ s.heap, K u.taskId = b.sweeper.isNone

theorem units_all {K : Nat → Bool} {us : List RecycleUnit} (h : ∀ u ∈ us, K u.taskId = true) : partU K us = us :=
  List.filter_eq_self.2 h

theorem units_none {K : Nat → Bool} {us : List RecycleUnit} (h : ∀ u ∈ us, K u.taskId = false) : partU K us = [] := by
  refine List.filter_eq_nil_iff.2 fun u hu => ?_
  rw [h u hu]; simp

/-- The same call is made. -/
theorem part_calls {env : Env} {K : Nat → Bool} {b : Side} {l : Label} {s' : St} {r : List Int} {x : TPC} {s : St}
    (hl : ¬ ForOthers K l) (he : step env (part K b r x s) l = some (part K b r x s')) (hr : ∀ a ∈ r, a ∈ s'.recs)
    (hx : x = partT K s'.tpc ∨ s'.tpc = .panicked) : PartStep env K b l (part K b r x s) s' :=
  Or.inr ⟨⟨_, he, r, x, rfl, hr, hx⟩, hl⟩

theorem part_rest {env : Env} {K : Nat → Bool} {b : Side} {s s' p : St} {l : Label} (hU : Units K b s)
    (hl : ofScheduler l = false) (hl2 : l ≠ .eRecv) (hl3 : l ≠ .eNext) (hi : ∀ t, l = .uInsert t → K t.taskId = b.chains)
    (hc : ∀ w i, l = .uCancel w i → K i.taskId = b.chains)
    (hst : step env s l = some s') (hp : Part K b s p) : PartStep env K b l p s' := by
  obtain ⟨r, x, rfl, hr, hx⟩ := hp
  obtain ⟨hu1, hu2⟩ := hU
  cases step_act hst
  case body rec v hv hb hlo =>
    by_cases hk : K v.taskId = true
    · refine part_goes rfl (x' := x) (r' := r) ?_ hr hx
      simp only [step, rBody, show (part K b r x s).rt rec = some v from partR_at hv hk, hb, hlo]
      simp only [part]
      rw [partR_in (by exact hk)]
      simp [seen, hk]
    · have hk' : K v.taskId = false := by simpa using hk
      refine part_stays rfl ?_ hr hx
      simp only [part]
      rw [partR_out (by exact hk') (by rw [hv]; rintro u ⟨⟩; exact hk')]
      simp [seen, hk']
  case panic_caught rec v hv hb hlo hsv =>
    by_cases hk : K v.taskId = true
    · refine part_goes rfl (x' := x) (r' := r) ?_ hr hx
      simp only [step, rPanic, show (part K b r x s).rt rec = some v from partR_at hv hk, hb, hlo, hsv]
      simp only [part]
      rw [partR_in (by exact hk)]
      simp [seen, hk]
    · have hk' : K v.taskId = false := by simpa using hk
      refine part_stays rfl ?_ hr hx
      simp only [part]
      rw [partR_out (by exact hk') (by rw [hv]; rintro u ⟨⟩; exact hk')]
      simp [seen, hk']
  case panic_lost rec v hv hb hlo hsv =>
    by_cases hk : K v.taskId = true
    · refine part_goes rfl (x' := x) (r' := r) ?_ hr hx
      simp only [step, rPanic, show (part K b r x s).rt rec = some v from partR_at hv hk, hb, hlo, hsv]
      simp only [part]
      rw [partR_in (by exact hk)]
      simp [seen, hk]
    · have hk' : K v.taskId = false := by simpa using hk
      refine part_stays rfl ?_ hr hx
      simp only [part]
      rw [partR_out (by exact hk') (by rw [hv]; rintro u ⟨⟩; exact hk')]
      simp [seen, hk']
  case finish rec now v hv hb hg hf =>
    by_cases hk : K v.taskId = true
    · refine part_goes rfl (x' := x) (r' := r) ?_ hr hx
      simp only [step, rFinish, show (part K b r x s).rt rec = some v from partR_at hv hk, hb, hg, hf, push]
      simp only [part]
      rw [partR_in (by exact hk)]
      simp [seen, hk, aboutTag, TimerEvent.tag]
    · have hk' : K v.taskId = false := by simpa using hk
      refine part_stays rfl ?_ hr hx
      simp only [part, push]
      rw [partR_out (by exact hk') (by rw [hv]; rintro u ⟨⟩; exact hk')]
      simp [seen, hk', aboutTag, TimerEvent.tag]
  case sadd w u rest hp hu =>
    rw [hu] at hu1
    cases hb : b.sweeper with
    | none =>
      simp only [hb, Option.isNone_none] at hu1 hu2
      refine part_goes rfl (x' := x) (r' := r) ?_ hr hx
      simp [step, sAdd, part, hp, hu, partU, hu1 u (by simp), hb]
    | some _ =>
      simp only [hb, Option.isNone_some] at hu1 hu2
      refine part_stays rfl ?_ hr hx
      simp [part, hu, partU, hu1 u (by simp), hb]
  case swake w now hp hle =>
    cases hb : b.sweeper with
    | none =>
      simp only [hb, Option.isNone_none] at hu1 hu2
      refine part_goes rfl (x' := x) (r' := r) ?_ hr hx
      simp [step, sWake, part, hp, hle, hb]
    | some _ => exact part_stays rfl (by simp [part, hb]) hr hx
  case spop u now n hp hu hmin hle =>
    cases hb : b.sweeper with
    | none =>
      simp only [hb, Option.isNone_none] at hu1 hu2
      refine part_goes rfl (x' := x) (r' := r) ?_ hr hx
      have he : ∀ v ∈ s.heap.erase u, K v.taskId = true := fun v hv => hu2 v (List.mem_of_mem_erase hv)
      simp only [step, sPop, part, push, units_all hu2, units_all he, hp, hb]
      simp only [Option.getD_none]
      rw [if_pos ⟨hu, hmin, hle⟩]
      simp [seen, aboutTag, TimerEvent.tag, hu2 u hu]
    | some _ =>
      simp only [hb, Option.isNone_some] at hu1 hu2
      have he : ∀ v ∈ s.heap.erase u, K v.taskId = false := fun v hv => hu2 v (List.mem_of_mem_erase hv)
      refine part_stays rfl ?_ hr hx
      simp [part, push, units_none hu2, units_none he, hb, seen, aboutTag, TimerEvent.tag, hu2 u hu]
  case srest now n w hp hw =>
    cases hb : b.sweeper with
    | none =>
      simp only [hb, Option.isNone_none] at hu1 hu2
      refine part_goes rfl (x' := x) (r' := r) ?_ hr hx
      simp only [step, sRest, hp] at hst
      simp only [step, sRest, part, units_all hu2, hp, hb, Option.getD_none]
      cases n with
      | zero =>
        simp only [Option.some.injEq] at hst
        have := congrArg St.spc hst
        dsimp only at this
        rw [← this]
      | succ n =>
        dsimp only at hst ⊢
        cases hm : heapMin s.heap with
        | none =>
          rw [hm] at hst
          simp only [Option.some.injEq] at hst
          have := congrArg St.spc hst
          dsimp only at this
          rw [← this]
        | some d =>
          rw [hm] at hst
          dsimp only at hst ⊢
          by_cases hd : d ≤ now
          · rw [if_pos hd] at hst; cases hst
          · rw [if_neg hd] at hst
            rw [if_neg hd]
            simp only [Option.some.injEq] at hst
            have := congrArg St.spc hst
            dsimp only at this
            rw [← this]
    | some _ => exact part_stays rfl (by simp [part, hb]) hr hx
  case usend op =>
    by_cases hk : aboutTag K op.event.tag = true
    · refine part_calls ?_ ?_ hr hx
      · rintro ⟨id, h1, h2⟩
        cases op <;> cases h1 <;> exact absurd (h2.symm.trans hk) (by simp)
      · simp [step, part, push, hk, seen]
    · have hk' : aboutTag K op.event.tag = false := by simpa using hk
      refine Or.inl ⟨⟨r, x, ?_, hr, hx⟩, ?_⟩
      · simp [part, push, hk', seen]
      · cases op <;> first | exact hk' | exact absurd rfl hk
  case uinsert t =>
    have hk := hi t rfl
    cases ho : b.chains with
    | true =>
      rw [ho] at hk
      refine part_calls ?_ ?_ hr hx
      · rintro ⟨id, h1, h2⟩
        cases h1
        rw [hk] at h2; cases h2
      · simp [step, part, uInsert, push, hk, ho, seen, aboutTag, TimerEvent.tag]
    | false =>
      rw [ho] at hk
      refine Or.inl ⟨⟨r, x, ?_, hr, hx⟩, hk⟩
      simp [part, uInsert, push, hk, ho, seen, aboutTag, TimerEvent.tag]
  case ucancel w i hw hr' =>
    have hk := hc w i rfl
    cases ho : b.chains with
    | true =>
      rw [ho] at hk
      refine part_calls ?_ ?_ hr hx
      · rintro ⟨id, h1, h2⟩
        cases h1
        rw [hk] at h2; cases h2
      · simp [step, part, uCancel, cancelInstance, push, hk, ho, seen, aboutTag, TimerEvent.tag, hw, hr']
    | false =>
      rw [ho] at hk
      refine Or.inl ⟨⟨r, x, ?_, hr, hx⟩, hk⟩
      simp [part, push, hk, ho, seen, aboutTag, TimerEvent.tag]
  case unext_expired c hh hs =>
    cases ho : b.chains with
    | true => exact part_goes rfl (x' := x) (r' := r) (by simp [step, uNext, part, hh, hs, ho, seen, List.filter_cons]) hr hx
    | false => exact part_stays rfl (by simp [part, ho, seen]) hr hx
  case unext c i rest hh hs hq =>
    cases ho : b.chains with
    | true => exact part_goes rfl (x' := x) (r' := r) (by simp [step, uNext, part, hh, hs, hq, ho, seen, List.filter_cons]) hr hx
    | false => exact part_stays rfl (by simp [part, ho, seen]) hr hx
  case udrop c hh =>
    cases ho : b.chains with
    | true => exact part_goes rfl (x' := x) (r' := r) (by simp [step, uDropChain, part, hh, ho]) hr hx
    | false => exact part_stays rfl (by simp [part, ho]) hr hx
  case ulisten w h hw =>
    cases ho : b.chains with
    | true => exact part_goes rfl (x' := x) (r' := r) (by simp [step, uListen, part, hw, ho]) hr hx
    | false => exact part_stays rfl (by simp [part, ho]) hr hx
  case ureturn w h hw =>
    cases ho : b.chains with
    | true => exact part_goes rfl (x' := x) (r' := r) (by simp [step, uReturn, part, hw, ho]) hr hx
    | false => exact part_stays rfl (by simp [part, ho]) hr hx
  case ugiveup w h hw =>
    cases ho : b.chains with
    | true => exact part_goes rfl (x' := x) (r' := r) (by simp [step, uGiveUp, part, hw, ho]) hr hx
    | false => exact part_stays rfl (by simp [part, ho]) hr hx
  all_goals first
    | exact absurd rfl hl2
    | exact absurd rfl hl3
    | exact absurd hl (by simp [ofScheduler])

/-! ## Executions -/

theorem part_init (env : Env) (K : Nat → Bool) {b : Side} (hb : ∀ w, b.sweeper = some w → w = .idle 0) : Part K b (init env) (init env) := by
  refine ⟨[], .head, ?_, by simp, Or.inl rfl⟩
  have hw : partW K (init env).wheel = (init env).wheel := by
    funext i
    simp only [partW, init]
    split <;> rfl
  have hf : partF K (init env).flags = (init env).flags := by funext i; simp [partF, init]
  have ht : partL K (init env).trace = (init env).trace := by funext i; simp [partL, init]
  have hrt : partR K (init env).rt = (init env).rt := by funext i; simp [partR, init]
  simp only [part, hw, hf, ht, hrt]
  have hs : b.sweeper.getD (init env).spc = (init env).spc := by
    cases hw : b.sweeper with
    | none => rfl
    | some w => rw [hb w hw]; rfl
  rw [hs]
  cases b.chains <;> rfl

theorem part_step {env : Env} {K : Nat → Bool} {b : Side} {s s' p : St} {l : Label} (hre : Reachable env s) (hL : Lone K b.chains s)
    (hU : Units K b s) (hi : ∀ t, l = .uInsert t → K t.taskId = b.chains) (hc : ∀ w i, l = .uCancel w i → K i.taskId = b.chains)
    (hst : step env s l = some s') (hp : Part K b s p) : PartStep env K b l p s' := by
  cases hl : ofScheduler l with
  | true => exact part_scheduler hre hl hst hp
  | false =>
    by_cases hl2 : l = .eRecv
    · exact part_events hre hL (Or.inl hl2) hst hp
    · by_cases hl3 : l = .eNext
      · exact part_events hre hL (Or.inr hl3) hst hp
      · exact part_rest hU hl hl2 hl3 hi hc hst hp

/-- Induction over executions. -/
theorem steps_induct {env : Env} (P : List Label → St → Prop) (h0 : P [] (init env))
    (hstep : ∀ ls s l s', run env (init env) ls = some s → P ls s → step env s l = some s' → P (ls ++ [l]) s') :
    ∀ ls s, run env (init env) ls = some s → P ls s := by
  suffices H : ∀ ls pre s s', run env (init env) pre = some s → P pre s → run env s ls = some s' → P (pre ++ ls) s' by
    intro ls s h; simpa using H ls [] _ s rfl h0 h
  intro ls
  induction ls with
  | nil => intro pre s s' _ hp h; cases h; simpa using hp
  | cons l ls ih =>
    intro pre s s' hr hp h
    simp only [run] at h
    split at h
    · rename_i s1 h1
      have := ih (pre ++ [l]) s1 s' (by rw [run_append, hr]; simp [run, h1]) (hstep pre s l s1 hr hp h1) h
      simpa using this
    · cases h

theorem part_run {env : Env} {K : Nat → Bool} {b : Side} {ls : List Label} {s : St} (h : run env (init env) ls = some s)
    (hi : ∀ t, .uInsert t ∈ ls → K t.taskId = b.chains) (hc : ∀ w i, .uCancel w i ∈ ls → K i.taskId = b.chains)
    (hb : ∀ w, b.sweeper = some w → w = .idle 0) (hm : ∀ k, K k = b.sweeper.isSome → ∀ t ∈ handed k ls, t.maximumRunningTime = none) :
    ∃ ls' p, run env (init env) ls' = some p ∧ Part K b s p ∧ ls'.Sublist ls ∧ callsOf K ls' = callsOf K ls ∧ ∀ l ∈ ls', ¬ ForOthers K l := by
  suffices H : ∀ ls s, run env (init env) ls = some s → (∀ t, .uInsert t ∈ ls → K t.taskId = b.chains) →
      (∀ w i, .uCancel w i ∈ ls → K i.taskId = b.chains) → (∀ k, K k = b.sweeper.isSome → ∀ t ∈ handed k ls, t.maximumRunningTime = none) →
      Lone K b.chains s ∧ ∃ ls' p, run env (init env) ls' = some p ∧ Part K b s p ∧ ls'.Sublist ls ∧ callsOf K ls' = callsOf K ls ∧
        ∀ l ∈ ls', ¬ ForOthers K l from (H ls s h hi hc hm).2
  refine steps_induct _ ?_ ?_
  · intro _ _ _
    exact ⟨lone_init env K _, [], _, rfl, part_init env K hb, List.Sublist.refl _, rfl, by simp⟩
  · intro ls s l s' hq ih hst hi hc hm
    have hm' : ∀ k, K k = b.sweeper.isSome → ∀ t ∈ handed k ls, t.maximumRunningTime = none := by
      intro k hk t ht
      exact hm k hk t (by rw [handed_append]; exact List.mem_append_left _ ht)
    obtain ⟨hL, ls', p, h1, h2, h3, h4, h5⟩ := ih (fun t ht => hi t (List.mem_append_left _ ht))
      (fun w i hx => hc w i (List.mem_append_left _ hx)) hm'
    have hU : Units K b s := by
      have hu := unitOk hq
      have key : ∀ u, Limit (fun k => handed k ls) s.log u → K u.taskId = b.sweeper.isNone := by
        rintro u ⟨t, ht, n, ts, m, _, h6, _⟩
        by_cases hne : K u.taskId = b.sweeper.isNone
        · exact hne
        exfalso
        have := hm' u.taskId (by cases hb' : b.sweeper <;> simp_all) t ht
        rw [h6] at this; cases this
      exact ⟨fun u hx => key u (hu.uchan u hx), fun u hx => key u (hu.heap u hx)⟩
    have hi' : ∀ t, l = .uInsert t → K t.taskId = b.chains := fun t ht => hi t (by rw [ht]; simp)
    have hc' : ∀ w i, l = .uCancel w i → K i.taskId = b.chains := fun w i hx => hc w i (by rw [hx]; simp)
    refine ⟨lone_step (step_act hst) hL hi', ?_⟩
    rcases part_step ⟨ls, hq⟩ hL hU hi' hc' hst h2 with ⟨h6, h7⟩ | ⟨⟨p', h6, h7⟩, h8⟩
    · refine ⟨ls', p, h1, h6, h3.trans (List.sublist_append_left _ _), ?_, h5⟩
      rw [h4, callsOf, callsOf, List.filter_append]
      simp [h7]
    · refine ⟨ls' ++ [l], p', ?_, h7, h3.append (List.Sublist.refl _), ?_, ?_⟩
      · rw [run_append, h1]
        simp [run, h6]
      · simp only [callsOf, List.filter_append] at *
        rw [h4]
      · intro l' hl'
        rcases List.mem_append.1 hl' with hl' | hl'
        · exact h5 l' hl'
        · rw [List.mem_singleton.1 hl']; exact h8

end DelayTimer
