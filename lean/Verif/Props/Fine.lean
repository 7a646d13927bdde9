import Verif.Proofs.Fine
import Verif.Props.Parallel

/-!
# C82: the atomic steps of the event thread are no restriction

`Model/Fine.lean` splits each dispatch into its accesses to shared memory, with the guards of `task_flag_map` as the only
protection. Everything the other threads, the callers and the runs can see of such an execution is a state of
`Model/System.lean`, so that what is proved of all executions there holds of these as well.
-/

namespace DelayTimer

open Fine Spec
open Locks (Shards Mode conflict)

/-- **C82**: whatever the interleaving of the accesses and whatever keys share a shard, there is an execution of
`Model/System.lean` with the same history, in which every caller of `cancel_with_wait*`, every run, the scheduler, the sweeper
and the wheel are in the same state. The other threads have done the same in it, in the same order, except that a chain may be
dropped later. -/
theorem C82_refines {env : Env} {sh : Shards} {ls : List FLabel} {f : FSt} (h : frun env sh (finit env) ls = some f) :
    ∃ ls' s, run env (init env) ls' = some s ∧ ls'.filter visible = (others ls).filter visible ∧
      s.log = f.core.log ∧ s.waiters = f.core.waiters ∧ s.rt = f.core.rt ∧ s.tpc = f.core.tpc ∧
      s.spc = f.core.spc ∧ s.heap = f.core.heap ∧ s.wheel = f.core.wheel ∧ s.secondHand = f.core.secondHand ∧
      s.chainQueue = f.core.chainQueue ∧ s.ticks = f.core.ticks ∧ s.epc = f.core.epc ∧
      (∃ l, s.reports = f.core.reports ++ l) ∧ (∃ l, s.unitChan = f.core.unitChan ++ l) ∧ (∃ l, s.chan = l ++ f.core.chan) := by
  obtain ⟨ls', h1, h2⟩ := (shown h).2
  exact ⟨ls', _, h1, h2, rfl, rfl, rfl, rfl, rfl, rfl, rfl, rfl, rfl, rfl, rfl, ⟨_, rfl⟩, ⟨_, rfl⟩, ⟨_, rfl⟩⟩

/-- Between two dispatches, and where `Model/System.lean` has a state inside of one, nothing is different at all. -/
theorem C82_rest {env : Env} {sh : Shards} {f : FSt} (h : FReachable env sh f) (hp : f.pos = .level) :
    Reachable env f.core := by
  obtain ⟨ls, h⟩ := h
  have := (shown h).2.reach
  obtain ⟨core, pos, gE, gT⟩ := f
  cases hp
  rw [← view_none core]
  exact this

/-- What holds of every history there holds of every history here. -/
theorem C82_histories {env : Env} {sh : Shards} {P : List Obs → Prop} (hP : ∀ s, Reachable env s → P s.log) {f : FSt}
    (h : FReachable env sh f) : P f.core.log := by
  obtain ⟨ls, h⟩ := h
  exact hP (view (patchOf env f) f.core) (shown h).2.reach

/-- The marks as they are seen by a thread that gets to look at them: those of `Model/System.lean`. Nobody else gets to look at a
mark that is shown otherwise. -/
theorem C82_marks {env : Env} {sh : Shards} {f : FSt} (h : FReachable env sh f) :
    ∃ s, Reachable env s ∧ s.log = f.core.log ∧
      ∀ id, s.flags id = f.core.flags id ∨ f.gE = some ⟨id, .write⟩ := by
  obtain ⟨ls, h⟩ := h
  have hs := shown h
  refine ⟨_, hs.2.reach, rfl, fun id => ?_⟩
  obtain ⟨core, pos, gE, gT⟩ := f
  have key : ∀ k v, gE = some ⟨k, .write⟩ → over (some (k, v)) core.flags id = core.flags id ∨ gE = some ⟨id, .write⟩ := by
    intro k v hg
    by_cases e : id = k
    · exact Or.inr (e ▸ hg)
    · exact Or.inl (set_other _ _ _ e)
  cases pos with
  | level => exact Or.inl rfl
  | took e => exact Or.inl rfl
  | looked e slot => exact Or.inl rfl
  | quitted k old => exact Or.inl rfl
  | locked k old m mt => exact key _ _ hs.1.2.2.2.1
  | found k old m mt cs inst => exact key _ _ hs.1.2.2.2.1
  | stored k old m mt cs inst was => exact key _ _ hs.1.2.2.2.1
  | uncounted k => exact key _ _ hs.1.2
  | registering id box m mt => exact Or.inl rfl
  | pushing id box m mt cs => exact Or.inl rfl
  | listing id box m mt inst => exact key _ _ hs.1.2.1
  | units id box => exact Or.inl rfl
  | tracing id box => exact Or.inl rfl
  | report ps => exact Or.inl rfl

theorem brings_visible {k : Nat} {l : Label} (h : Brings k l) : visible l = true := by
  cases l <;> first | rfl | exact h.elim

theorem once_filter {k : Nat} {t : Task} {ls : List Label} : OnlyOnce k t ls ↔ OnlyOnce k t (ls.filter visible) := by
  constructor
  · rintro ⟨h1, a, l, b, h2, h3, h4, h5⟩
    have hv : visible l = true := by rcases h3 with rfl | rfl <;> rfl
    refine ⟨h1, a.filter visible, l, b.filter visible, ?_, h3, fun x hx => h4 x (List.mem_filter.1 hx).1,
      fun x hx => h5 x (List.mem_filter.1 hx).1⟩
    rw [h2, List.filter_append, List.filter_cons_of_pos hv]
  · rintro ⟨h1, a, l, b, h2, h3, h4, h5⟩
    obtain ⟨a', b', rfl, ha, hb⟩ := List.filter_eq_append_iff.1 h2
    obtain ⟨c, d, rfl, hc, _, hd⟩ := List.filter_eq_cons_iff.1 hb
    refine ⟨h1, a' ++ c, l, d, by simp, h3, fun x hx hbr => ?_, fun x hx hbr => ?_⟩
    · rcases List.mem_append.1 hx with hx | hx
      · exact h4 x (by rw [← ha]; exact List.mem_filter.2 ⟨hx, brings_visible hbr⟩) hbr
      · exact hc x hx (brings_visible hbr)
    · exact h5 x (by rw [← hd]; exact List.mem_filter.2 ⟨hx, brings_visible hbr⟩) hbr

/-- For instance the limit of parallel runs (C27): however the accesses interleave, never more than `m` runs go on. -/
theorem C82_limit {env : Env} {sh : Shards} {ls : List FLabel} {f : FSt} {k m : Nat} {t : Task}
    (h : frun env sh (finit env) ls = some f) (ho : OnlyOnce k t (others ls)) (hm : t.maximumParallelRunnableNum = some m) :
    AtMostOngoing k m f.core.log := by
  obtain ⟨ls', s, h1, h2, h3, _⟩ := C82_refines h
  rw [← h3]
  exact C27_once_partial h1 (once_filter.2 (h2 ▸ once_filter.1 ho)) hm

/-! ## The other direction -/

namespace Fine

/-- One state leads to another. -/
def Goes (env : Env) (sh : Shards) (f f' : FSt) : Prop := ∃ ls, frun env sh f ls = some f'

theorem frun_append {env : Env} {sh : Shards} (l₁ l₂ : List FLabel) (f : FSt) :
    frun env sh f (l₁ ++ l₂) = (frun env sh f l₁).bind fun f => frun env sh f l₂ := by
  induction l₁ generalizing f with
  | nil => rfl
  | cons l ls ih =>
    simp only [List.cons_append, frun]
    cases fstep env sh f l with
    | none => rfl
    | some f' => exact ih f'

theorem Goes.refl {env : Env} {sh : Shards} (f : FSt) : Goes env sh f f := ⟨[], rfl⟩

theorem Goes.trans {env : Env} {sh : Shards} {f g h : FSt} (h1 : Goes env sh f g) (h2 : Goes env sh g h) : Goes env sh f h := by
  obtain ⟨l₁, h1⟩ := h1
  obtain ⟨l₂, h2⟩ := h2
  exact ⟨l₁ ++ l₂, by rw [frun_append, h1]; exact h2⟩

theorem Goes.step {env : Env} {sh : Shards} {f g h : FSt} {l : FLabel} (h1 : fstep env sh f l = some g)
    (h2 : Goes env sh g h) : Goes env sh f h := by
  obtain ⟨ls, h2⟩ := h2
  exact ⟨l :: ls, by simp only [frun, h1]; exact h2⟩

theorem Goes.event {env : Env} {sh : Shards} {f g h : FSt} (h1 : micro env sh f = some g)
    (h2 : Goes env sh g h) : Goes env sh f h := Goes.step (l := .event) h1 h2

theorem clash_free (sh : Shards) (id : Nat) (m : Mode) : clash sh none id m = false := rfl

theorem report_goes {env : Env} {sh : Shards} (s : St) (ps : List PublicEvent) (g : Option Guard) :
    Goes env sh ⟨s, .report ps, g, none⟩ ⟨{ s with reports := s.reports ++ ps }, .level, none, none⟩ := by
  have last : Goes env sh ⟨s, .report ps, none, none⟩ ⟨{ s with reports := s.reports ++ ps }, .level, none, none⟩ :=
    Goes.event rfl (Goes.refl _)
  cases g with
  | none => exact last
  | some g => exact Goes.event rfl last

theorem logged_done {env : Env} {s : St} {e : TimerEvent} {res : Option Bool} (hi : s.epc = .idle) :
    { logged s e res with reports := (logged s e res).reports ++ late env e res } =
      done env s e.tag (publicOf e) res := by
  unfold done late logged
  cases env.statusReport <;> rcases res with _ | _ | _ <;> cases publicOf e <;> simp [hi]

theorem ends_goes {env : Env} {sh : Shards} {s : St} {e : TimerEvent} {res : Option Bool} {q : Pos} {c : St} {g : Option Guard}
    (hi : s.epc = .idle) :
    Goes env sh (ends env ⟨c, q, g, none⟩ s e res) ⟨done env s e.tag (publicOf e) res, .level, none, none⟩ := by
  rw [← logged_done hi]
  exact report_goes _ _ _

theorem registered_goes {env : Env} {sh : Shards} {s : St} {id : Nat} {box : HandlerBox} {q : Pos} {c : St} {g : Option Guard}
    (hi : s.epc = .idle) :
    Goes env sh (registered ⟨c, q, g, none⟩ s id box)
      ⟨done env { s with unitChan := s.unitChan ++ unitsOf box, trace := set s.trace id (s.trace id ++ [box]) }
        (TimerEvent.appendTaskHandle id box).tag (publicOf (.appendTaskHandle id box)) (some true), .level, none, none⟩ := by
  have last : Goes env sh ⟨logged s (.appendTaskHandle id box) (some true), .units id box, none, none⟩
      ⟨done env { s with unitChan := s.unitChan ++ unitsOf box, trace := set s.trace id (s.trace id ++ [box]) }
        (TimerEvent.appendTaskHandle id box).tag (publicOf (.appendTaskHandle id box)) (some true), .level, none, none⟩ := by
    refine Goes.event rfl (Goes.event rfl ?_)
    rw [← logged_done (s := { s with unitChan := s.unitChan ++ unitsOf box, trace := set s.trace id (s.trace id ++ [box]) }) hi]
    exact report_goes _ _ _
  cases g with
  | none => exact last
  | some g => exact Goes.event rfl last

/-- A state of `Model/System.lean` as one between two accesses, with no guard held. -/
def rest (s : St) : FSt := ⟨s, .level, none, none⟩

theorem stop_goes {env : Env} {sh : Shards} {s : St} {k : Stop} (hi : s.epc = .idle) (hk : stopOf k.ev = some k) :
    Goes env sh ⟨s, .took k.ev, none, none⟩
      (rest (done env (endRun env k s).2 k.ev.tag (publicOf k.ev) (endRun env k s).1)) := by
  have h0 : micro env sh ⟨s, .took k.ev, none, none⟩ = some (quit env ⟨s, .took k.ev, none, none⟩ k) := by
    obtain ⟨e, id, r, how⟩ := k
    dsimp only at hk
    cases e <;> first | (cases hk; done) | (cases hk; rfl)
  refine Goes.event h0 ?_
  unfold quit
  dsimp only
  cases hq : quitOne env (s.trace k.id) k.record with
  | none => rw [endRun_unknown hq]; exact ends_goes hi
  | some l =>
    dsimp only
    cases hf : s.flags k.id with
    | none =>
      rw [endRun_unmarked hq hf]
      refine Goes.event (g := ends env ⟨{ s with trace := set s.trace k.id l }, .quitted k (s.trace k.id), none, none⟩
        (stoppedLog { s with trace := set s.trace k.id l } k) k.ev k.how.unmarked) ?_ (ends_goes hi)
      simp [micro, lockMark, clash_free, hf]
    | some m =>
      cases hm : m.maintainer with
      | none =>
        rw [endRun_plain hq hf hm]
        refine Goes.event (g := ends env ⟨{ s with trace := set s.trace k.id l }, .quitted k (s.trace k.id), some ⟨k.id, .write⟩, none⟩
          (stoppedLog { s with trace := set s.trace k.id l, flags := set s.flags k.id (some (dec m)) } k) k.ev (some true))
          ?_ (ends_goes hi)
        simp [micro, lockMark, clash_free, hf, hm]
      | some mt =>
        refine Goes.event (g := ⟨{ s with trace := set s.trace k.id l, flags := set s.flags k.id (some (edited k m)) },
          .locked k (s.trace k.id) m mt, some ⟨k.id, .write⟩, none⟩)
          (by simp [micro, lockMark, clash_free, hf, hm, edited]) ?_
        by_cases hd : s.chainState mt.chain = DROPPED
        · rw [endRun_dropped hq hf hm hd]
          refine Goes.event rfl ?_
          simp only [loadChain, hd, if_true, set_set]
          exact ends_goes hi
        · cases hn : mt.innerList.findIdx? (fun i => i.recordId == k.record) with
          | none =>
            rw [endRun_missing hq hf hm hd (Or.inl hn)]
            refine Goes.event rfl ?_
            simp only [loadChain, hd, if_false, hn]
            exact ends_goes hi
          | some n =>
            cases hr : mt.innerList.drop n with
            | nil =>
              rw [endRun_missing hq hf hm hd (Or.inr ⟨n, hn, hr⟩)]
              refine Goes.event rfl ?_
              simp only [loadChain, hd, if_false, hn, hr]
              exact ends_goes hi
            | cons inst rest' =>
              rw [endRun_found hq hf hm hd hn hr]
              refine Goes.event rfl ?_
              simp only [loadChain, hd, if_false, hn, hr]
              refine Goes.event rfl (Goes.event rfl ?_)
              simp only [notifyAll, storeState]
              by_cases he : k.how.early = true
              · simp only [he, if_true, set_set]
                exact ends_goes hi
              · simp only [he, set_set, Bool.false_eq_true, if_false]
                refine Goes.event rfl ?_
                simp only [decLate, logged, stoppedLog, set_same, set_set, Option.map]
                rw [rest, ← logged_done (by exact hi)]
                exact report_goes _ _ _

/-- The guard of a mark that is looked at, after a dispatch that goes on. -/
def kept : EPC → Bool
  | .adv1 _ | .adv2 _ _ => true
  | _ => false

/-- The event thread by itself gets through the first step of a dispatch; of the guards, `advance_task` keeps the one it has. -/
theorem recv_goes {env : Env} {sh : Shards} {s s' : St} (h : eRecv env s = some s') :
    ∃ g, Goes env sh (rest s) ⟨s', .level, g, none⟩ ∧ (g ≠ none → kept s'.epc = true) := by
  cases hE : s.epc with
  | idle =>
    cases hc : s.chan with
    | nil => simp [eRecv, hE, hc] at h
    | cons e q =>
      have take : micro env sh (rest s) = some ⟨{ s with chan := q }, .took e, none, none⟩ := by
        simp [micro, rest, hE, hc]
      have stop : ∀ k : Stop, k.ev = e → stopOf k.ev = some k → ∃ g, Goes env sh (rest s) ⟨s', .level, g, none⟩ ∧
          (g ≠ none → kept s'.epc = true) := by
        intro k hk hk'
        rw [eRecv_stop hE (by rw [hc, hk]) hk'] at h
        cases h
        refine ⟨none, Goes.event take ?_, fun h => absurd rfl h⟩
        rw [← hk]
        exact stop_goes (s := { s with chan := q }) hE hk'
      cases e with
      | cancelTask id r => exact stop ⟨.cancelTask id r, id, r, .cancel⟩ rfl rfl
      | timeoutTask id r => exact stop ⟨.timeoutTask id r, id, r, .timeout⟩ rfl rfl
      | finishTask b => exact stop ⟨.finishTask b, b.taskId, b.recordId, .finish⟩ rfl rfl
      | stopTimer =>
        have : s' = done env { s with chan := q, motivation := false } (TimerEvent.stopTimer).tag (publicOf .stopTimer) (some true) := by
          simpa [eRecv, hE, hc] using h.symm
        subst this
        exact ⟨none, Goes.event take (Goes.event rfl (ends_goes (s := { s with chan := q, motivation := false }) hE)),
          fun h => absurd rfl h⟩
      | addTask t =>
        have : s' = { s with chan := q, epc := .add1 t none s.secondHand } := by
          simpa [eRecv, hE, hc] using h.symm
        subst this
        exact ⟨none, Goes.event take (Goes.event rfl (Goes.refl _)), fun h => absurd rfl h⟩
      | insertTask t c =>
        have : s' = { s with chan := q, epc := .add1 t (some c) s.secondHand } := by
          simpa [eRecv, hE, hc] using h.symm
        subst this
        exact ⟨none, Goes.event take (Goes.event rfl (Goes.refl _)), fun h => absurd rfl h⟩
      | updateTask t =>
        refine ⟨none, Goes.event take ?_, fun h => absurd rfl h⟩
        cases hf : s.flags t.taskId with
        | none =>
          have : s' = done env { s with chan := q } (TimerEvent.updateTask t).tag (publicOf (.updateTask t)) (some true) := by
            simpa [eRecv, hE, hc, hf] using h.symm
          subst this
          refine Goes.event (g := ends env ⟨{ s with chan := q }, .took (.updateTask t), none, none⟩ { s with chan := q }
            (.updateTask t) (some true)) ?_ (ends_goes hE)
          simp [micro, look, clash_free, hf]
        | some m =>
          refine Goes.event (g := ⟨{ s with chan := q }, .looked (.updateTask t) m.slotMark, some ⟨t.taskId, .read⟩, none⟩)
            (by simp [micro, look, clash_free, hf]) ?_
          cases hw : s.wheel m.slotMark with
          | none =>
            have : s' = done env { s with chan := q } (TimerEvent.updateTask t).tag (publicOf (.updateTask t)) (some true) := by
              simpa [eRecv, hE, hc, hf, hw] using h.symm
            subst this
            refine Goes.event (g := ends env ⟨{ s with chan := q }, .looked (.updateTask t) m.slotMark, some ⟨t.taskId, .read⟩, none⟩
              { s with chan := q } (.updateTask t) (some true)) ?_ (ends_goes hE)
            simp [micro, atWheel, hw]
          | some sl =>
            have : s' = done env { s with chan := q, wheel := set s.wheel m.slotMark (some (sl.updateTask t)) }
                (TimerEvent.updateTask t).tag (publicOf (.updateTask t)) (some true) := by
              simpa [eRecv, hE, hc, hf, hw] using h.symm
            subst this
            refine Goes.event (g := ends env ⟨{ s with chan := q }, .looked (.updateTask t) m.slotMark, some ⟨t.taskId, .read⟩, none⟩
              { s with chan := q, wheel := set s.wheel m.slotMark (some (sl.updateTask t)) } (.updateTask t) (some true)) ?_ (ends_goes hE)
            simp [micro, atWheel, hw]
      | advanceTask id =>
        cases hf : s.flags id with
        | none =>
          have : s' = done env { s with chan := q } (TimerEvent.advanceTask id).tag (publicOf (.advanceTask id)) none := by
            simpa [eRecv, hE, hc, hf] using h.symm
          subst this
          refine ⟨none, Goes.event take ?_, fun h => absurd rfl h⟩
          refine Goes.event (g := ends env ⟨{ s with chan := q }, .took (.advanceTask id), none, none⟩ { s with chan := q }
            (.advanceTask id) none) ?_ (ends_goes hE)
          simp [micro, look, clash_free, hf]
        | some m =>
          have seen : micro env sh ⟨{ s with chan := q }, .took (.advanceTask id), none, none⟩ =
              some ⟨{ s with chan := q }, .looked (.advanceTask id) m.slotMark, some ⟨id, .read⟩, none⟩ := by
            simp [micro, look, clash_free, hf]
          cases hw : s.wheel m.slotMark with
          | none =>
            have : s' = done env { s with chan := q } (TimerEvent.advanceTask id).tag (publicOf (.advanceTask id)) none := by
              simpa [eRecv, hE, hc, hf, hw] using h.symm
            subst this
            refine ⟨none, Goes.event take (Goes.event seen ?_), fun h => absurd rfl h⟩
            refine Goes.event (g := ends env ⟨{ s with chan := q }, .looked (.advanceTask id) m.slotMark, some ⟨id, .read⟩, none⟩
              { s with chan := q } (.advanceTask id) none) ?_ (ends_goes hE)
            simp [micro, atWheel, hw]
          | some sl =>
            cases hx : sl.removeTask id with
            | mk a b =>
              cases a with
              | none =>
                have : s' = done env { s with chan := q } (TimerEvent.advanceTask id).tag (publicOf (.advanceTask id)) none := by
                  simpa [eRecv, hE, hc, hf, hw, hx] using h.symm
                subst this
                refine ⟨none, Goes.event take (Goes.event seen ?_), fun h => absurd rfl h⟩
                refine Goes.event (g := ends env ⟨{ s with chan := q }, .looked (.advanceTask id) m.slotMark, some ⟨id, .read⟩, none⟩
                  { s with chan := q } (.advanceTask id) none) ?_ (ends_goes hE)
                simp [micro, atWheel, hw, hx]
              | some t =>
                have : s' = { s with chan := q, wheel := set s.wheel m.slotMark (some b), epc := .adv1 { t with cylinderLine := 0 } } := by
                  simpa [eRecv, hE, hc, hf, hw, hx] using h.symm
                subst this
                refine ⟨some ⟨id, .read⟩, Goes.event take (Goes.event seen (Goes.event ?_ (Goes.refl _))), fun _ => rfl⟩
                simp [micro, atWheel, hw, hx]
      | removeTask id =>
        cases hf : s.flags id with
        | none =>
          have : s' = { s with chan := q, epc := .remove id false } := by
            simpa [eRecv, hE, hc, hf] using h.symm
          subst this
          refine ⟨none, Goes.event take (Goes.event ?_ (Goes.refl _)), fun h => absurd rfl h⟩
          simp [micro, look, clash_free, hf]
        | some m =>
          have seen : micro env sh ⟨{ s with chan := q }, .took (.removeTask id), none, none⟩ =
              some ⟨{ s with chan := q }, .looked (.removeTask id) m.slotMark, some ⟨id, .read⟩, none⟩ := by
            simp [micro, look, clash_free, hf]
          cases hw : s.wheel m.slotMark with
          | none =>
            have : s' = { s with chan := q, epc := .remove id false } := by
              simpa [eRecv, hE, hc, hf, hw] using h.symm
            subst this
            refine ⟨none, Goes.event take (Goes.event seen ?_), fun h => absurd rfl h⟩
            refine Goes.event (g := ⟨{ s with chan := q, epc := .remove id false }, .level, some ⟨id, .read⟩, none⟩) ?_
              (Goes.event rfl (Goes.refl _))
            simp [micro, atWheel, hw]
          | some sl =>
            have : s' = { s with chan := q, wheel := set s.wheel m.slotMark (some (sl.removeTask id).2), epc := .remove id true } := by
              simpa [eRecv, hE, hc, hf, hw] using h.symm
            subst this
            refine ⟨none, Goes.event take (Goes.event seen ?_), fun h => absurd rfl h⟩
            refine Goes.event (g := ⟨{ s with
              chan := q
              wheel := set s.wheel m.slotMark (some (sl.removeTask id).2)
              epc := .remove id true }, .level, some ⟨id, .read⟩, none⟩) ?_ (Goes.event rfl (Goes.refl _))
            simp [micro, atWheel, hw]
      | appendTaskHandle id box =>
        refine ⟨none, Goes.event take ?_, fun h => absurd rfl h⟩
        have : s' = done env (maintainTaskStatus { s with chan := q } id box) (TimerEvent.appendTaskHandle id box).tag
            (publicOf (.appendTaskHandle id box)) (some true) := by
          simpa [eRecv, hE, hc] using h.symm
        subst this
        unfold maintainTaskStatus
        have fin : ∀ (c : St) (p : Pos) (g : Option Guard), (registerInstance { s with chan := q } id box.recordId).epc = .idle →
            Goes env sh (registered ⟨c, p, g, none⟩ (registerInstance { s with chan := q } id box.recordId) id box) _ :=
          fun c p g hi => registered_goes hi
        cases hf : s.flags id with
        | none =>
          have hreg : registerInstance { s with chan := q } id box.recordId = { s with chan := q } := by
            simp [registerInstance, hf]
          rw [hreg] at fin ⊢
          refine Goes.event (g := registered ⟨{ s with chan := q }, .took (.appendTaskHandle id box), none, none⟩ { s with chan := q } id box)
            ?_ (fin _ _ _ hE)
          simp [micro, lockRegister, clash_free, hf]
        | some m =>
          cases hm : m.maintainer with
          | none =>
            have hreg : registerInstance { s with chan := q } id box.recordId = { s with chan := q } := by
              simp [registerInstance, hf, hm]
            rw [hreg] at fin ⊢
            refine Goes.event (g := registered ⟨{ s with chan := q }, .took (.appendTaskHandle id box), some ⟨id, .write⟩, none⟩
              { s with chan := q } id box) ?_ (fin _ _ _ hE)
            simp [micro, lockRegister, clash_free, hf, hm]
          | some mt =>
            refine Goes.event (g := ⟨{ s with chan := q }, .registering id box m mt, some ⟨id, .write⟩, none⟩)
              (by simp [micro, lockRegister, clash_free, hf, hm]) ?_
            by_cases hd : s.chainState mt.chain = DROPPED
            · have hreg : registerInstance { s with chan := q } id box.recordId =
                  { s with
                    chan := q
                    chainState := set s.chainState mt.chain ABANDONED
                    flags := set s.flags id (some { m with maintainer := none }) } := by
                simp [registerInstance, hf, hm, hd, dropMaintainer]
              rw [hreg] at fin ⊢
              refine Goes.event rfl ?_
              simp only [loadRegister, hd, if_true]
              exact fin _ _ _ hE
            · refine Goes.event rfl ?_
              simp only [loadRegister, hd, if_false]
              refine Goes.event rfl (Goes.event rfl ?_)
              have hreg : registerInstance { s with chan := q } id box.recordId =
                  { s with
                    chan := q
                    nextHdr := s.nextHdr + 1
                    hdrState := set s.hdrState s.nextHdr RUNNING
                    chainQueue := set s.chainQueue mt.chain (s.chainQueue mt.chain ++ [⟨s.nextHdr, id, box.recordId⟩])
                    flags := set s.flags id
                      (some { m with maintainer := some { mt with innerList := mt.innerList ++ [⟨s.nextHdr, id, box.recordId⟩] } }) } := by
                simp [registerInstance, hf, hm, hd]
              rw [hreg] at fin ⊢
              exact fin s (.took .stopTimer) _ hE
  | _ => simp [eRecv, hE] at h

theorem next_idle_free {env : Env} {s s' : St} {g : Option Guard} (h : eNext env s = some s')
    (hg : g ≠ none → kept s.epc = true) : kept s'.epc = true ∨ g = none ∨ s'.epc = .idle := by
  cases hE : s.epc <;> rw [hE] at hg
  case adv1 t => simp only [eNext, hE] at h; cases h; exact Or.inl rfl
  case adv2 t hand =>
    simp only [eNext, hE] at h
    split at h <;> cases h <;> exact Or.inr (Or.inr rfl)
  all_goals
    cases g with
    | none => exact Or.inr (Or.inl rfl)
    | some g => exact absurd (hg (fun h => nomatch h)) (by simp [kept])

theorem next_goes {env : Env} {sh : Shards} {s s' : St} {g : Option Guard} (h : eNext env s = some s')
    (hg : g ≠ none → kept s.epc = true) :
    ∃ g', Goes env sh ⟨s, .level, g, none⟩ ⟨s', .level, g', none⟩ ∧ (g' ≠ none → kept s'.epc = true) := by
  have one : micro env sh ⟨s, .level, g, none⟩ = some ⟨s', .level, g, none⟩ := by
    cases hE : s.epc <;> rw [hE] at hg
    case idle => simp [eNext, hE] at h
    case remove id ok =>
      cases g with
      | none => simp [micro, hE, clash_free, h]
      | some g => exact absurd (hg (fun h => nomatch h)) (by simp [kept])
    all_goals simp [micro, hE, clash_free, h]
  rcases next_idle_free h hg with h1 | h1 | h1
  · exact ⟨g, Goes.event one (Goes.refl _), fun _ => h1⟩
  · subst h1
    exact ⟨none, Goes.event one (Goes.refl _), fun h => absurd rfl h⟩
  · cases g with
    | none => exact ⟨none, Goes.event one (Goes.refl _), fun h => absurd rfl h⟩
    | some g =>
      refine ⟨none, Goes.event one (Goes.event (g := ⟨s', .level, none, none⟩) ?_ (Goes.refl _)), fun h => absurd rfl h⟩
      simp [micro, h1, release]

theorem other_goes {env : Env} {sh : Shards} {s s' : St} {l : Label} {g : Option Guard} (h : step env s l = some s')
    (hl : ofEvents l = false) (hg : g ≠ none → asks s l = none) :
    Goes env sh ⟨s, .level, g, none⟩ ⟨s', .level, g, none⟩ := by
  cases ha : asks s l with
  | none =>
    refine Goes.step (l := .other l) (g := ⟨s', .level, g, none⟩) ?_ (Goes.refl _)
    simp [fstep, hl, ha, h]
  | some a =>
    cases g with
    | some g => rw [hg (fun h => nomatch h)] at ha; cases ha
    | none =>
      by_cases hs : (s.flags a.id).isSome = true
      · refine Goes.step (l := .other l) (g := ⟨s', .level, none, some a⟩) ?_
          (Goes.step (l := .drop) (g := ⟨s', .level, none, none⟩) rfl (Goes.refl _))
        simp [fstep, hl, ha, h, clash_free, hs]
      · refine Goes.step (l := .other l) (g := ⟨s', .level, none, none⟩) ?_ (Goes.refl _)
        simp [fstep, hl, ha, h, clash_free, hs]

/-- An execution of `Model/System.lean` in which the scheduler does not look at a mark while `advance_task` is between taking the
task out of its slot and putting it into the next one. -/
def Polite (env : Env) : St → List Label → Prop
  | _, [] => True
  | s, l :: ls => (kept s.epc = true → asks s l = none) ∧ ∀ s', step env s l = some s' → Polite env s' ls

theorem polite_goes {env : Env} {sh : Shards} {ls : List Label} {s s' : St} {g : Option Guard} (h : run env s ls = some s')
    (hp : Polite env s ls) (hg : g ≠ none → kept s.epc = true) :
    ∃ g', Goes env sh ⟨s, .level, g, none⟩ ⟨s', .level, g', none⟩ ∧ (g' ≠ none → kept s'.epc = true) := by
  induction ls generalizing s g with
  | nil => cases h; exact ⟨g, Goes.refl _, hg⟩
  | cons l ls ih =>
    simp only [run] at h
    cases h1 : step env s l with
    | none => rw [h1] at h; cases h
    | some s1 =>
      rw [h1] at h
      have one : ∃ g', Goes env sh ⟨s, .level, g, none⟩ ⟨s1, .level, g', none⟩ ∧ (g' ≠ none → kept s1.epc = true) := by
        by_cases hl : ofEvents l = true
        · cases l <;> first | (cases hl; done) | skip
          · cases g with
            | none => exact recv_goes h1
            | some g =>
              have hk := hg (fun h => nomatch h)
              have h2 : eRecv env s = some s1 := h1
              cases hE : s.epc <;> rw [hE] at hk <;> first | (cases hk; done) | (simp [eRecv, hE] at h2)
          · exact next_goes h1 hg
        · have hl' : ofEvents l = false := by simpa using hl
          refine ⟨g, other_goes h1 hl' fun h => hp.1 (hg h), fun h => ?_⟩
          rw [(other_frame hl' (step_act h1)).1]
          exact hg h
      obtain ⟨g1, h2, h3⟩ := one
      obtain ⟨g2, h4, h5⟩ := ih h (hp.2 s1 h1) h3
      exact ⟨g2, h2.trans h4, h5⟩

end Fine

/-- **C82, the other direction**: every execution of `Model/System.lean` is one of the accesses, whatever keys share a shard, as
long as the scheduler keeps off the marks while `advance_task` holds one. -/
theorem C82_converse {env : Env} {sh : Shards} {ls : List Label} {s : St} (h : run env (init env) ls = some s)
    (hp : Polite env (init env) ls) : ∃ f, FReachable env sh f ∧ f.core = s ∧ f.pos = .level := by
  obtain ⟨g, ⟨ls', h1⟩, _⟩ := polite_goes (sh := sh) (g := none) h hp (fun h => absurd rfl h)
  exact ⟨_, ⟨ls', h1⟩, rfl, rfl⟩

/-! ## Executions -/

namespace Ex

/-- All keys in one shard. -/
def oneShard : Shards := ⟨fun _ => 0, fun _ => 0⟩

/-- Performs the steps that can be taken. -/
def fplay (sh : Shards) (f : FSt) (ls : List FLabel) : FSt := ls.foldl (fun f l => (fstep env0 sh f l).getD f) f

theorem fplay_goes {sh : Shards} (ls : List FLabel) (f : FSt) : Goes env0 sh f (fplay sh f ls) := by
  induction ls generalizing f with
  | nil => exact Goes.refl _
  | cons l ls ih =>
    simp only [fplay, List.foldl]
    cases h : fstep env0 sh f l with
    | none => exact ih f
    | some f' => exact Goes.step h (ih f')

/-- `n` accesses of the event thread. -/
def events (n : Nat) : List FLabel := List.replicate n .event

/-- The event thread gets through whatever there is to do. -/
def split : List Label → List FLabel
  | [] => []
  | .eRecv :: ls => events 14 ++ split ls
  | .eNext :: ls => split ls
  | l :: ls => .other l :: .drop :: split ls

/-- The run of `taken` is being cancelled, by caller 7: its instance is out of the list, the state not yet stored. -/
def atFound : FSt := fplay oneShard (finit env0) (split (taken ++ [.uCancel 7 inst0, .uListen 7]) ++ events 4)

/-- Now the chain is dropped; the event thread has seen it alive and goes on. -/
def afterDrop : FSt := fplay oneShard atFound [.other (.uDropChain 0)]

/-- The caller is woken all the same. -/
def afterNotify : FSt := fplay oneShard afterDrop (events 2)

/-- The event thread has an instance in its hands. -/
def hasInstance : Pos → Bool
  | .found .. => true
  | _ => false

/-- C82: hypotheses met inside of a dispatch, with a drop of the chain between two accesses: what is shown is the chain before
it was dropped, the memory says otherwise. -/
example : FReachable env0 oneShard afterDrop ∧ hasInstance afterDrop.pos = true ∧
    afterDrop.core.chainState 0 = DROPPED ∧ (view (patchOf env0 afterDrop) afterDrop.core).chainState 0 = LIVING ∧
    afterDrop.gE.isSome ∧ afterNotify.core.waiters 7 = .woken 0 ∧ afterNotify.core.hdrState 0 = CANCELLED := by
  have h : Goes env0 oneShard (finit env0) afterDrop := (fplay_goes _ _).trans (fplay_goes _ _)
  exact ⟨h, by decide +kernel, by decide +kernel, by decide +kernel, by decide +kernel, by decide +kernel, by decide +kernel⟩

/-- At most two runs at once, with a chain. -/
def pair : Task := upTo 2 (every 1 101 3)

/-- The first run goes on, the second one is started and not yet counted; the first one is cancelled, and the event thread has
got the mark. -/
def race : List FLabel :=
  split (ins pair ++ idle ++ idle ++ fire 1 0 ++ [.eRecv] ++ idles 2 ++ pop 1 1 ++ [.eRecv, .tSlot, .uSend (.cancel 1 0)]) ++ events 3

/-- The scheduler wants to count the second run, the event thread goes on, and two further runs come due. -/
def raceOn : List FLabel :=
  [.other .tMark, .drop] ++ events 14 ++ [.other .tMark, .drop, .other .tLapse] ++
    split (idles 2 ++ fire 1 2 ++ [.eRecv] ++ idles 2 ++ fire 1 3 ++ [.eRecv])

/-- A `task_flag_map` that does not make the scheduler wait for the event thread. -/
def bareStep (f : FSt) (l : FLabel) : Option FSt :=
  match l with
  | .other _ => (fstep env0 oneShard { f with gE := none } l).map fun f' => { f' with gE := f.gE }
  | _ => fstep env0 oneShard f l

/-- Performs the steps that can be taken. -/
def bplay (f : FSt) (ls : List FLabel) : FSt := ls.foldl (fun f l => (bareStep f l).getD f) f

/-- Without the guard the limit does not hold: cancelling the first run, the event thread writes back the mark as it was
before the second one was counted, and three runs go on at once. -/
theorem C82_guard_needed : ¬ AtMostOngoing 1 2 (bplay (finit env0) (race ++ raceOn)).core.log := by
  intro h
  have := h [1, 2, 3] (by decide) (by
    intro r hr
    have h1 : ∀ r ∈ [(1 : Int), 2, 3], r ∈ startedRecsOf 1 (bplay (finit env0) (race ++ raceOn)).core.log ∧
        ∀ tag ∈ endTags 1 r, tag ∉ dispatchedTags (bplay (finit env0) (race ++ raceOn)).core.log := by decide +kernel
    refine ⟨(h1 r hr).1, ?_⟩
    rintro ⟨l1, l2, tag, b, e, ht, _⟩
    refine (h1 r hr).2 tag ht ?_
    rw [e, dispatchedTags_append]
    simp [dispatchedTags])
  exact absurd this (by decide)

/-- The steps that can be taken. -/
def taking (sh : Shards) : FSt → List FLabel → List FLabel
  | _, [] => []
  | f, l :: ls =>
    match fstep env0 sh f l with
    | none => taking sh f ls
    | some f' => l :: taking sh f' ls

theorem taking_run {sh : Shards} (ls : List FLabel) (f : FSt) : frun env0 sh f (taking sh f ls) = some (fplay sh f ls) := by
  induction ls generalizing f with
  | nil => rfl
  | cons l ls ih =>
    simp only [taking, fplay, List.foldl]
    cases h : fstep env0 sh f l with
    | none => exact ih f
    | some f' => simp only [frun, h]; exact ih f'

/-- Hands nothing in. -/
def harmless : Label → Bool
  | .uInsert _ | .uSend (.add _) | .uSend (.update _) => false
  | _ => true

theorem harmless_brings {k : Nat} {l : Label} (h : harmless l = true) : ¬ Brings k l := by
  intro hb
  cases l <;> try exact hb
  case uSend c => cases c <;> first | exact hb | cases h
  case uInsert t => cases h

/-- C82: hypotheses of `C82_limit`, with two runs going on and the scheduler having had to wait for the mark. -/
example : ∃ ls f, frun env0 oneShard (finit env0) ls = some f ∧ OnlyOnce 1 pair (others ls) ∧
    pair.maximumParallelRunnableNum = some 2 ∧ startedRecsOf 1 f.core.log = [0, 1, 2] ∧ .stopped 1 0 ∈ f.core.log ∧
    fstep env0 oneShard (fplay oneShard (finit env0) race) (.other .tMark) = none := by
  refine ⟨taking oneShard (finit env0) (race ++ raceOn), _, taking_run _ _, ⟨rfl, [], .uInsert pair,
    (others (taking oneShard (finit env0) (race ++ raceOn))).tail, ?_, ?_, ?_, ?_⟩, rfl, ?_, ?_, ?_⟩
  · rfl
  · exact Or.inr rfl
  · intro l hl; cases hl
  · intro l hl
    have h : (others (taking oneShard (finit env0) (race ++ raceOn))).tail.all harmless = true := by decide +kernel
    exact harmless_brings (List.all_eq_true.1 h l hl)
  · decide +kernel
  · decide +kernel
  · have h : (fstep env0 oneShard (fplay oneShard (finit env0) race) (.other .tMark)).isNone = true := by decide +kernel
    exact Option.isNone_iff_eq_none.1 h

/-- No run of the scheduler falls between the two halves of an `advance_task`. -/
def advancing : List Label := add (every 1 120 50) ++ [.uSend (.advance 1), .eRecv, .eNext, .eNext] ++ idles 1 ++ fire 1 1

/-- Whether an execution is polite, computed. -/
def politeB (env : Env) : St → List Label → Bool
  | _, [] => true
  | s, l :: ls =>
    (!kept s.epc || (asks s l).isNone) &&
      match step env s l with
      | some s' => politeB env s' ls
      | none => true

theorem politeB_polite {env : Env} (ls : List Label) (s : St) (h : politeB env s ls = true) : Polite env s ls := by
  induction ls generalizing s with
  | nil => trivial
  | cons l ls ih =>
    simp only [politeB, Bool.and_eq_true] at h
    refine ⟨fun hk => ?_, fun s' hs => ?_⟩
    · have := h.1
      simp only [hk, Bool.not_true, Bool.false_or] at this
      exact Option.isNone_iff_eq_none.1 this
    · rw [hs] at h
      exact ih s' h.2

/-- C82: hypotheses of `C82_converse`. -/
example : run env0 (init env0) advancing = some (play env0 advancing) ∧ Polite env0 (init env0) advancing ∧
    startTicks 1 (play env0 advancing).log ≠ [] :=
  ⟨play_run (by decide +kernel), politeB_polite _ _ (by decide +kernel), by decide +kernel⟩

end Ex

end DelayTimer
