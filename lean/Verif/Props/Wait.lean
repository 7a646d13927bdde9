import Verif.Model.Wait
import Verif.Props.Instances
import Verif.Examples

/-!
# C60: calls waiting for an instance
-/

namespace DelayTimer

namespace Spec

/-- The instances that `next*` calls on chain `c` have returned, in this order. -/
def handedOn (c : Nat) : List (Nat × Nat × NextResult) → List Instance
  | [] => []
  | (_, c', .instance i) :: rs => if c' = c then handedOn c rs ++ [i] else handedOn c rs
  | _ :: rs => handedOn c rs

/-- Chain `c` of task `id` is over: the task was removed or replaced, or could not be inserted. -/
def ChainOver (id c : Nat) (log : List Obs) : Prop :=
  .insert id c ∈ dispatchedTags log ∧ chainOf id log ≠ some c

end Spec
open Spec

/-! ## One step of the system and the channels -/

/-- A step that is not a `next*` call returns no instance, and takes nothing from a channel. Nothing is put on a closed
channel, and it stays closed. -/
theorem wait_base {env : Env} {s : St} {l : Label} {s' : St} (hr : Reachable env s) (h : Act env s l s')
    (hl : ∀ c, l ≠ .uNext c) (c : Nat) :
    deliveredOn c s'.log = deliveredOn c s.log ∧ s.nextChain ≤ s'.nextChain ∧
    ((∃ x, s'.chainQueue c = s.chainQueue c ++ x) ∨ c = s.nextChain ∧ s.nextChain < s'.nextChain) ∧
    (s'.chainHeld c = true → s.chainHeld c = false → c = s.nextChain ∧ s.nextChain < s'.nextChain) ∧
    (s.chainHeld c = true → s'.chainHeld c = true ∨ l = .uDropChain c) ∧
    (s.chainHeld c = true → s'.chainHeld c = true → s.chainState c = ABANDONED →
      s'.chainState c = ABANDONED ∧ s'.chainQueue c = s.chainQueue c) := by
  have hc := chainOk hr
  have hlt := hc.lt c
  cases instStep hr h with
  | dull _ hs news hlog hd =>
    obtain ⟨a1, a2, a3, a4, a5, a6, a7⟩ := hs
    refine ⟨by rw [hlog, dull_delivered hd], by omega, .inl ⟨[], by rw [a5]; simp⟩, ?_, ?_, ?_⟩
    · rw [a6]; intro h1 h2; rw [h1] at h2; cases h2
    · rw [a6]; exact .inl
    · rw [a4, a5]; exact fun _ _ h => ⟨h, rfl⟩
  | miss k id rec r hb hs hlog =>
    obtain ⟨a1, a2, a3, a4, a5, a6, a7⟩ := hs
    refine ⟨by rw [hlog]; rfl, by omega, .inl ⟨[], by rw [a5]; simp⟩, ?_, ?_, ?_⟩
    · rw [a6]; intro h1 h2; rw [h1] at h2; cases h2
    · rw [a6]; exact .inl
    · rw [a4, a5]; exact fun _ _ h => ⟨h, rfl⟩
  | quiet k id rec r hb hm hs hlog =>
    obtain ⟨a1, a2, a3, a4, a5, a6, a7⟩ := hs
    refine ⟨by rw [hlog]; rfl, by omega, .inl ⟨[], by rw [a5]; simp⟩, ?_, ?_, ?_⟩
    · rw [a6]; intro h1 h2; rw [h1] at h2; cases h2
    · rw [a6]; exact .inl
    · rw [a4, a5]; exact fun _ _ h => ⟨h, rfl⟩
  | plain id box rest he hch hm hs hlog =>
    obtain ⟨a1, a2, a3, a4, a5, a6, a7⟩ := hs
    refine ⟨by rw [hlog]; rfl, by omega, .inl ⟨[], by rw [a5]; simp⟩, ?_, ?_, ?_⟩
    · rw [a6]; intro h1 h2; rw [h1] at h2; cases h2
    · rw [a6]; exact .inl
    · rw [a4, a5]; exact fun _ _ h => ⟨h, rfl⟩
  | dropped k id rec r mt hb hm hd hmt hh hn hcs hq hch hnc hlog =>
    refine ⟨by rw [hlog]; rfl, by omega, .inl ⟨[], by rw [hq]; simp⟩, ?_, ?_, ?_⟩
    · rw [hch]; intro h1 h2; rw [h1] at h2; cases h2
    · rw [hch]; exact .inl
    · rw [hcs, hq, set_apply]; exact fun _ _ h => ⟨by split <;> simp [h], rfl⟩
  | nobody id box rest mt he hcc hm hd hmt hh hn hcs hq hch hnc hlog =>
    refine ⟨by rw [hlog]; rfl, by omega, .inl ⟨[], by rw [hq]; simp⟩, ?_, ?_, ?_⟩
    · rw [hch]; intro h1 h2; rw [h1] at h2; cases h2
    · rw [hch]; exact .inl
    · rw [hcs, hq, set_apply]; exact fun _ _ h => ⟨by split <;> simp [h], rfl⟩
  | found k id rec r mt a i b hb hm hd hil hi hmt hh hn hcs hq hch hnc hlog =>
    refine ⟨by rw [hlog]; rfl, by omega, .inl ⟨[], by rw [hq]; simp⟩, ?_, ?_, ?_⟩
    · rw [hch]; intro h1 h2; rw [h1] at h2; cases h2
    · rw [hch]; exact .inl
    · rw [hcs, hq]; exact fun _ _ h => ⟨h, rfl⟩
  | newInst id box rest mt he hcc hm hd hmt hh hn hcs hq hch hnc hlog =>
    refine ⟨by rw [hlog]; rfl, by omega, ?_, ?_, ?_, ?_⟩
    · left
      rw [hq, set_apply]
      split
      · rename_i e; subst e; exact ⟨_, rfl⟩
      · exact ⟨[], by simp⟩
    · rw [hch]; intro h1 h2; rw [h1] at h2; cases h2
    · rw [hch]; exact .inl
    · rw [hcs, hq, set_apply]
      intro h1 _ h2
      refine ⟨h2, ?_⟩
      split
      · rename_i e
        rw [e] at h2 h1
        rw [(hc.live id mt.chain h1 (hc.cur id mt hm)).1] at h2
        cases h2
      · rfl
  | mark id new tag r ht hmt hh hn hcs hq hch hnc hlog =>
    refine ⟨by rw [hlog]; rfl, by omega, .inl ⟨[], by rw [hq]; simp⟩, ?_, ?_, ?_⟩
    · rw [hch]; intro h1 h2; rw [h1] at h2; cases h2
    · rw [hch]; exact .inl
    · rw [hcs, hq]; exact fun _ _ h => ⟨abandon_keep h, rfl⟩
  | refused t c' hand he hmt hh hn hcs hq hch hnc hlog =>
    refine ⟨by rw [hlog]; rfl, by omega, .inl ⟨[], by rw [hq]; simp⟩, ?_, ?_, ?_⟩
    · rw [hch]; intro h1 h2; rw [h1] at h2; cases h2
    · rw [hch]; exact .inl
    · rw [hcs, hq, set_apply]; exact fun _ _ h => ⟨by split <;> simp [h], rfl⟩
  | insert t hmt hh hn hcs hq hch hnc hlog =>
    refine ⟨by rw [hlog]; rfl, by omega, ?_, ?_, ?_, ?_⟩
    · rw [hq, set_apply]
      by_cases e : c = s.nextChain
      · exact .inr ⟨e, by omega⟩
      · exact .inl ⟨[], by simp [e]⟩
    · rw [hch, set_apply]
      split
      · exact fun _ _ => ⟨by assumption, by omega⟩
      · intro h1 h2; rw [h1] at h2; cases h2
    · rw [hch, set_apply]; intro h; left; split <;> simp [h]
    · rw [hcs, hq, set_apply, set_apply]
      intro h1 _ h2
      have := hlt h1
      rw [if_neg (by omega), if_neg (by omega)]
      exact ⟨h2, rfl⟩
  | deliver c' => exact absurd rfl (hl c')
  | drop c' hheld hmt hh hn hcs hq hch hnc hlog =>
    refine ⟨by rw [hlog], by omega, .inl ⟨[], by rw [hq]; simp⟩, ?_, ?_, ?_⟩
    · rw [hch, set_apply]
      split
      · intro h; cases h
      · intro h1 h2; rw [h1] at h2; cases h2
    · rw [hch, set_apply]
      intro h
      by_cases e : c = c'
      · right; rw [e]
      · left; rw [if_neg e]; exact h
    · rw [hch, hcs, hq, set_apply, set_apply]
      intro _ h1 h2
      split at h1
      · cases h1
      · rename_i e; rw [if_neg e]; exact ⟨h2, rfl⟩

/-! ## The calls under way -/

structure WOk (env : Env) (w : WSt) : Prop where
  base : Reachable env w.base
  held : ∀ p ∈ w.waiting, w.base.chainHeld p.2 = true
  bound : ∀ c, w.taken c ≤ (w.base.chainQueue c).length
  live : ∀ c, w.base.chainHeld c = true → w.base.chainState c ≠ ABANDONED → w.taken c = 0
  fresh : ∀ c, w.base.nextChain ≤ c → w.taken c = 0
  out : ∀ c, handedOn c w.results = deliveredOn c w.base.log ++ (w.base.chainQueue c).take (w.taken c)

theorem WOk.base_step {env : Env} {w : WSt} {l : Label} {s' : St} (h : WOk env w) (hs : step env w.base l = some s')
    (hl : ∀ c, l ≠ .uNext c) (hd : ∀ c, l = .uDropChain c → ∀ p ∈ w.waiting, p.2 ≠ c) :
    WOk env { w with base := s' } := by
  have hx := wait_base h.base (step_act hs) hl
  refine ⟨h.base.step hs, ?_, ?_, ?_, ?_, ?_⟩
  · intro p hp
    rcases (hx p.2).2.2.2.2.1 (h.held p hp) with h1 | h1
    · exact h1
    · exact absurd rfl (hd _ h1 p hp)
  · intro c
    rcases (hx c).2.2.1 with ⟨x, h1⟩ | ⟨h1, _⟩
    · have := h.bound c
      simp only [h1, List.length_append]; omega
    · have := h.fresh c (by omega)
      simp only [this]; omega
  · intro c h1 h2
    change s'.chainHeld c = true at h1
    change s'.chainState c ≠ ABANDONED at h2
    cases h3 : w.base.chainHeld c with
    | false => exact h.fresh c (by have := ((hx c).2.2.2.1 h1 h3).1; omega)
    | true =>
      apply h.live c h3
      exact fun h4 => h2 ((hx c).2.2.2.2.2 h3 h1 h4).1
  · intro c h1
    exact h.fresh c (Nat.le_trans (hx c).2.1 h1)
  · intro c
    change handedOn c w.results = deliveredOn c s'.log ++ (s'.chainQueue c).take (w.taken c)
    rw [h.out c, (hx c).1]
    rcases (hx c).2.2.1 with ⟨x, h1⟩ | ⟨h1, _⟩
    · rw [h1, List.take_append_of_le_length (h.bound c)]
    · rw [h.fresh c (by omega)]; rfl

theorem handedOn_other {c r c' : Nat} {x : NextResult} {rs : List (Nat × Nat × NextResult)} (h : c' ≠ c) :
    handedOn c ((r, c', x) :: rs) = handedOn c rs := by
  cases x <;> simp [handedOn, h]

theorem handedOn_got {c r : Nat} {i : Instance} {rs : List (Nat × Nat × NextResult)} :
    handedOn c ((r, c, .instance i) :: rs) = handedOn c rs ++ [i] := by
  simp [handedOn]

theorem WOk.call {env : Env} {w w' : WSt} {r c : Nat} (h : WOk env w) (hs : w.call r c = some w') : WOk env w' := by
  simp only [WSt.call] at hs
  split at hs
  · rename_i hh
    split at hs <;> cases hs
    · exact ⟨h.base, h.held, h.bound, h.live, h.fresh, h.out⟩
    · refine ⟨h.base, ?_, h.bound, h.live, h.fresh, h.out⟩
      intro p hp
      rcases List.mem_cons.1 hp with rfl | hp
      · exact hh.1
      · exact h.held p hp
  · cases hs

/-- What a call that waits can return. -/
theorem WSt.wake_cases {w w' : WSt} {r c : Nat} (hs : w.wake r c = some w') :
    (r, c) ∈ w.waiting ∧
    ((w.base.chainState c = ABANDONED ∧ ∃ i rest, (w.base.chainQueue c).drop (w.taken c) = i :: rest ∧
        w' = { w.answer r c (.instance i) with taken := set w.taken c (w.taken c + 1) }) ∨
     (w.base.chainState c = ABANDONED ∧ (w.base.chainQueue c).drop (w.taken c) = [] ∧ w' = w.answer r c .anomaly) ∨
     (w.base.chainState c ≠ ABANDONED ∧ ∃ i rest, w.base.chainQueue c = i :: rest ∧
        w' = { w.answer r c (.instance i) with
          base := { w.base with chainQueue := set w.base.chainQueue c rest, log := .delivered c i :: w.base.log } })) := by
  simp only [WSt.wake] at hs
  split at hs
  · rename_i hm
    refine ⟨hm, ?_⟩
    split at hs
    · rename_i ha
      split at hs <;> cases hs
      · rename_i i rest e; exact .inl ⟨ha, i, rest, e, rfl⟩
      · rename_i e; exact .inr (.inl ⟨ha, e, rfl⟩)
    · rename_i ha
      split at hs <;> cases hs
      rename_i i rest e; exact .inr (.inr ⟨ha, i, rest, e, rfl⟩)
  · cases hs

theorem WOk.wake {env : Env} {w w' : WSt} {r c : Nat} (h : WOk env w) (hs : w.wake r c = some w') : WOk env w' := by
  obtain ⟨hm, hc⟩ := WSt.wake_cases hs
  have hheld := h.held (r, c) hm
  have hw : ∀ p ∈ w.waiting.erase (r, c), w.base.chainHeld p.2 = true := fun p hp => h.held p (List.mem_of_mem_erase hp)
  rcases hc with ⟨ha, i, rest, e, rfl⟩ | ⟨ha, e, rfl⟩ | ⟨ha, i, rest, e, rfl⟩
  · have hl : w.taken c < (w.base.chainQueue c).length := by
      have := congrArg List.length e
      simp only [List.length_drop, List.length_cons] at this; omega
    refine ⟨h.base, hw, ?_, ?_, ?_, ?_⟩
    · intro d
      simp only [WSt.answer, set_apply]
      split
      · rename_i e'; subst e'; omega
      · exact h.bound d
    · intro d h1 h2
      simp only [set_apply]
      split
      · rename_i e'; subst e'; exact absurd ha h2
      · exact h.live d h1 h2
    · intro d h1
      have := (chainOk h.base).lt c hheld
      simp only [WSt.answer, set_apply] at h1 ⊢
      rw [if_neg (by omega)]; exact h.fresh d h1
    · intro d
      simp only [WSt.answer, set_apply]
      split
      · rename_i e'; subst e'
        rw [handedOn_got, h.out, List.append_assoc]
        congr 1
        rw [List.take_succ_eq_append_getElem hl]
        congr 2
        have := List.drop_eq_getElem_cons hl
        rw [e] at this
        exact (List.cons.inj this).1
      · rename_i e'
        rw [handedOn_other (fun h => e' h.symm)]; exact h.out d
  · refine ⟨h.base, hw, h.bound, h.live, h.fresh, ?_⟩
    intro d
    simp only [WSt.answer, handedOn]; exact h.out d
  · have h0 := h.live c hheld ha
    have hstep : step env w.base (.uNext c) =
        some { w.base with chainQueue := set w.base.chainQueue c rest, log := .delivered c i :: w.base.log } := by
      simp only [step, uNext, hheld, if_true, if_neg ha, e]
    refine ⟨h.base.step hstep, hw, ?_, ?_, h.fresh, ?_⟩
    · intro d
      simp only [WSt.answer, set_apply]
      split
      · rename_i e'; subst e'; omega
      · exact h.bound d
    · exact h.live
    · intro d
      simp only [WSt.answer, set_apply, deliveredOn]
      by_cases e' : d = c
      · subst e'
        rw [handedOn_got, h.out, if_pos rfl, if_pos rfl, h0]; simp
      · rw [handedOn_other (fun h => e' h.symm), if_neg e', if_neg (fun h => e' h.symm)]; exact h.out d

theorem WOk.step {env : Env} {w w' : WSt} {l : WLabel} (h : WOk env w) (hs : w.step env l = some w') : WOk env w' := by
  cases l with
  | call r c => exact h.call hs
  | wake r c => exact h.wake hs
  | giveUp r c =>
    simp only [WSt.step] at hs
    split at hs <;> cases hs
    exact ⟨h.base, fun p hp => h.held p (List.mem_of_mem_erase hp), h.bound, h.live, h.fresh, h.out⟩
  | base l =>
    cases l
    case uNext => cases hs
    case uDropChain c =>
      simp only [WSt.step] at hs
      split at hs
      · rename_i hd
        obtain ⟨s', h1, rfl⟩ := Option.map_eq_some_iff.1 hs
        refine h.base_step h1 (fun _ => by simp) ?_
        rintro d e p hp
        cases e
        simpa using List.all_eq_true.1 hd p hp
      · cases hs
    all_goals
      simp only [WSt.step] at hs
      obtain ⟨s', h1, rfl⟩ := Option.map_eq_some_iff.1 hs
      exact h.base_step h1 (fun _ => by simp) (fun _ => by simp)

theorem WOk.run {env : Env} {ls : List WLabel} {w w' : WSt} (h : WOk env w) (hs : w.run env ls = some w') :
    WOk env w' := by
  induction ls generalizing w with
  | nil => cases hs; exact h
  | cons l ls ih =>
    simp only [WSt.run] at hs
    split at hs
    · rename_i h1; exact ih (h.step h1) hs
    · cases hs

theorem wOk {env : Env} {w : WSt} (h : WSt.Reachable env w) : WOk env w := by
  obtain ⟨ls, h⟩ := h
  exact WOk.run ⟨.init env, (fun _ h => by cases h), (fun _ => Nat.zero_le _), (fun _ _ _ => rfl), (fun _ _ => rfl),
    (fun _ => rfl)⟩ h

theorem handedOn_prefix {env : Env} {w : WSt} (h : WOk env w) (c : Nat) :
    handedOn c w.results <+: deliveredOn c w.base.log ++ w.base.chainQueue c := by
  rw [h.out c]
  exact (List.prefix_append_right_inj _).2 (List.take_prefix _ _)

/-- A held chain is abandoned if and only if it is over. -/
theorem over_iff {env : Env} {s : St} (hr : Reachable env s) {id c : Nat} (hh : s.chainHeld c = true)
    (hq : .insert id c ∈ queuedTags s.log) : s.chainState c = ABANDONED ↔ ChainOver id c s.log := by
  have hc := chainOk hr
  constructor
  · intro h
    by_cases hd : .insert id c ∈ dispatchedTags s.log
    · refine ⟨hd, fun h1 => ?_⟩
      rw [(hc.live id c hh h1).1] at h; cases h
    · rw [fifo hr, List.append_assoc] at hq
      rcases List.mem_append.1 hq with h1 | h1
      · exact absurd h1 hd
      · rw [hc.wait id c hh h1] at h; cases h
  · rintro ⟨h1, h2⟩
    obtain ⟨r, h3⟩ := mem_dispatchedTags.1 h1
    rcases hc.res id c r h3 with rfl | rfl
    · exact hc.fail id c hh h3
    · exact hc.gone id c hh h3 h2

/-- How many registered runs are still to be had from a chain in use. -/
theorem left_over {env : Env} {w : WSt} (h : WOk env w) {c : Nat} (hh : w.base.chainHeld c = true) :
    (handedOn c w.results).map (·.recordId) ++ ((w.base.chainQueue c).drop (w.taken c)).map (·.recordId) =
      regsOn c w.base.log := by
  rw [← C21_complete h.base hh, h.out c, ← List.map_append, List.append_assoc, List.take_append_drop]

/-! ## C60 -/

/-- **C60.** Whoever calls, the instances handed out on a chain are runs of its task, in the order in which they were
started, none twice; while the chain is in use nothing is left out in between. -/
theorem C60_order {env : Env} {w : WSt} (hr : WSt.Reachable env w) {id c : Nat}
    (hq : .insert id c ∈ queuedTags w.base.log) :
    (∀ i ∈ handedOn c w.results, i.taskId = id) ∧
    ((handedOn c w.results).map (·.recordId)).Sublist (startedRecsOf id w.base.log) ∧
    ((handedOn c w.results).map (·.recordId)).Nodup ∧
    (w.base.chainHeld c = true → (handedOn c w.results).map (·.recordId) <+: regsOn c w.base.log) := by
  have h := wOk hr
  have hp := handedOn_prefix h c
  obtain ⟨h1, h2, h3⟩ := C21_order h.base hq
  have hs := hp.sublist.map (·.recordId)
  refine ⟨fun i hi => h1 i (hp.subset hi), hs.trans h2, hs.nodup h3, fun hh => ?_⟩
  rw [← C21_complete h.base hh]
  exact hp.map _

/-- **C60.** A call that waits returns the first registered run that nobody has got yet, or else, and only if the
chain is over and every registered run has been handed out, that the channel is closed. It does not return `Expired`. -/
theorem C60_result {env : Env} {w w' : WSt} (hr : WSt.Reachable env w) {id r c : Nat}
    (hq : .insert id c ∈ queuedTags w.base.log) (hs : w.step env (.wake r c) = some w') :
    (∃ i, w'.results = (r, c, .instance i) :: w.results ∧ i.taskId = id ∧
      (regsOn c w.base.log)[(handedOn c w.results).length]? = some i.recordId) ∨
    w'.results = (r, c, .anomaly) :: w.results ∧ ChainOver id c w.base.log ∧
      (handedOn c w.results).map (·.recordId) = regsOn c w.base.log := by
  have h := wOk hr
  change w.wake r c = some w' at hs
  have h' := h.wake hs
  obtain ⟨hm, hc⟩ := WSt.wake_cases hs
  have hh := h.held _ hm
  have hleft := left_over h hh
  have got : ∀ {i rest}, (w.base.chainQueue c).drop (w.taken c) = i :: rest →
      i.taskId = id ∧ (regsOn c w.base.log)[(handedOn c w.results).length]? = some i.recordId := by
    intro i rest e
    refine ⟨(C21_order h.base hq).1 i (List.mem_append_right _ (List.mem_of_mem_drop (i := w.taken c) (by rw [e]; simp))), ?_⟩
    rw [← hleft, e, List.getElem?_append_right (by simp)]
    simp
  rcases hc with ⟨ha, i, rest, e, rfl⟩ | ⟨ha, e, rfl⟩ | ⟨ha, i, rest, e, rfl⟩
  · exact .inl ⟨i, rfl, got e⟩
  · refine .inr ⟨rfl, (over_iff h.base hh hq).1 ha, ?_⟩
    rw [← hleft, e]; simp
  · exact .inl ⟨i, rfl, got (rest := rest) (by rw [h.live c hh ha]; exact e)⟩

/-- **C60.** A call under way can go on exactly when there is a registered run that nobody has got yet, or the chain is
over. -/
theorem C60_goes_on {env : Env} {w : WSt} (hr : WSt.Reachable env w) {id r c : Nat}
    (hq : .insert id c ∈ queuedTags w.base.log) (hw : (r, c) ∈ w.waiting) :
    (∃ w', w.step env (.wake r c) = some w') ↔
      (handedOn c w.results).length < (regsOn c w.base.log).length ∨ ChainOver id c w.base.log := by
  have h := wOk hr
  have hh := h.held _ hw
  rw [← over_iff h.base hh hq, ← left_over h hh]
  simp only [List.length_append, List.length_map, List.length_drop, WSt.step, WSt.wake, if_pos hw]
  by_cases ha : w.base.chainState c = ABANDONED
  · simp only [ha, if_true, or_true, iff_true]
    cases (w.base.chainQueue c).drop (w.taken c) with
    | nil => exact ⟨_, rfl⟩
    | cons i rest => exact ⟨_, rfl⟩
  · have h0 := h.live c hh ha
    simp only [if_neg ha, h0]
    cases e : w.base.chainQueue c with
    | nil => simp [ha]
    | cons i rest => simp

/-- The call of `r` on `c` ends in this step. -/
def EndsCall (r c : Nat) : WLabel → Prop
  | .wake r' c' => r' = r ∧ c' = c
  | .giveUp r' c' => r' = r ∧ c' = c
  | _ => False

theorem waiting_step {env : Env} {w w' : WSt} {l : WLabel} {r c : Nat} (hw : (r, c) ∈ w.waiting)
    (hl : ¬ EndsCall r c l) (hs : w.step env l = some w') : (r, c) ∈ w'.waiting := by
  have er : ∀ {r' c'}, ¬ (r' = r ∧ c' = c) → (r, c) ∈ w.waiting.erase (r', c') := by
    intro r' c' h
    refine (List.mem_erase_of_ne ?_).2 hw
    intro e; cases e; exact h ⟨rfl, rfl⟩
  cases l with
  | call r' c' =>
    simp only [WSt.step, WSt.call] at hs
    split at hs
    · split at hs <;> cases hs
      · exact hw
      · exact List.mem_cons_of_mem _ hw
    · cases hs
  | wake r' c' =>
    obtain ⟨_, hc⟩ := WSt.wake_cases (show w.wake r' c' = some w' from hs)
    rcases hc with ⟨ha, i, rest, e, rfl⟩ | ⟨ha, e, rfl⟩ | ⟨ha, i, rest, e, rfl⟩ <;> exact er hl
  | giveUp r' c' =>
    simp only [WSt.step] at hs
    split at hs <;> cases hs
    exact er hl
  | base l =>
    cases l
    case uNext => cases hs
    case uDropChain c =>
      simp only [WSt.step] at hs
      split at hs
      · obtain ⟨s', h1, rfl⟩ := Option.map_eq_some_iff.1 hs; exact hw
      · cases hs
    all_goals
      simp only [WSt.step] at hs
      obtain ⟨s', h1, rfl⟩ := Option.map_eq_some_iff.1 hs
      exact hw

/-- A chain that is abandoned and has a call under way stays so until the call is over. -/
theorem closed_step {env : Env} {w w' : WSt} {l : WLabel} {r c : Nat} (h : WOk env w) (hw : (r, c) ∈ w.waiting)
    (hl : ¬ EndsCall r c l) (hs : w.step env l = some w') (ha : w.base.chainState c = ABANDONED) :
    w'.base.chainState c = ABANDONED := by
  have hh := h.held _ hw
  have hh' := (h.step hs).held _ (waiting_step hw hl hs)
  have key : ∀ {s' : St} {l : Label}, step env w.base l = some s' → (∀ c, l ≠ .uNext c) → s'.chainHeld c = true →
      s'.chainState c = ABANDONED := fun h1 h2 h3 =>
    ((wait_base h.base (step_act h1) h2 c).2.2.2.2.2 hh h3 ha).1
  cases l with
  | call r' c' =>
    simp only [WSt.step, WSt.call] at hs
    split at hs
    · split at hs <;> cases hs <;> exact ha
    · cases hs
  | wake r' c' =>
    obtain ⟨_, hc⟩ := WSt.wake_cases (show w.wake r' c' = some w' from hs)
    rcases hc with ⟨_, i, rest, e, rfl⟩ | ⟨_, e, rfl⟩ | ⟨_, i, rest, e, rfl⟩ <;> exact ha
  | giveUp r' c' =>
    simp only [WSt.step] at hs
    split at hs <;> cases hs
    exact ha
  | base l =>
    cases l
    case uNext => cases hs
    case uDropChain c' =>
      simp only [WSt.step] at hs
      split at hs
      · obtain ⟨s', h1, rfl⟩ := Option.map_eq_some_iff.1 hs
        exact key h1 (fun _ => by simp) hh'
      · cases hs
    all_goals
      simp only [WSt.step] at hs
      obtain ⟨s', h1, rfl⟩ := Option.map_eq_some_iff.1 hs
      exact key h1 (fun _ => by simp) hh'

/-- **C60.** Nobody waits for ever on a chain that is over: from the moment on which the task has been removed or
replaced, every call under way can return, whatever else happens, until it has returned. -/
theorem C60_released {env : Env} {w w' : WSt} {ls : List WLabel} (hr : WSt.Reachable env w) {id r c : Nat}
    (hw : (r, c) ∈ w.waiting) (hq : .insert id c ∈ queuedTags w.base.log) (ho : ChainOver id c w.base.log)
    (hl : ∀ l ∈ ls, ¬ EndsCall r c l) (hs : w.run env ls = some w') :
    (r, c) ∈ w'.waiting ∧ ∃ w'', w'.step env (.wake r c) = some w'' := by
  have h := wOk hr
  have ha := (over_iff h.base (h.held _ hw) hq).2 ho
  clear hr hq ho
  induction ls generalizing w with
  | nil =>
    cases hs
    refine ⟨hw, ?_⟩
    simp only [WSt.step, WSt.wake, if_pos hw, if_pos ha]
    split <;> exact ⟨_, rfl⟩
  | cons l ls ih =>
    simp only [WSt.run] at hs
    split at hs
    · rename_i h1
      have hne := hl l List.mem_cons_self
      exact ih (waiting_step hw hne h1) (fun l h => hl l (List.mem_cons_of_mem _ h)) hs (h.step h1)
        (closed_step h hw hne h1 ha)
    · cases hs

/-- **C60.** A call made when the chain is over returns `Expired` at once, also if there are registered runs that nobody
has got: these cannot be had any more. -/
theorem C60_late {env : Env} {w : WSt} (hr : WSt.Reachable env w) {id r c : Nat} (hh : w.base.chainHeld c = true)
    (hq : .insert id c ∈ queuedTags w.base.log) (ho : ChainOver id c w.base.log) (hf : ∀ p ∈ w.waiting, p.1 ≠ r) :
    w.step env (.call r c) = some { w with results := (r, c, .expired) :: w.results } := by
  have ha := (over_iff (wOk hr).base hh hq).2 ho
  have : w.waiting.all (fun p => decide (p.1 ≠ r)) = true := by
    rw [List.all_eq_true]; intro p hp; simpa using hf p hp
  simp only [WSt.step, WSt.call, hh, this, and_self, if_true, if_pos ha]

/-! ## Examples -/

namespace Ex

/-- The state after the given steps. -/
def playW (env : Env) (ls : List WLabel) : WSt := ((WSt.init env).run env ls).getD (WSt.init env)

theorem playW_run {env : Env} {ls : List WLabel} (h : ((WSt.init env).run env ls).isSome = true) :
    (WSt.init env).run env ls = some (playW env ls) := by
  obtain ⟨w, hw⟩ := Option.isSome_iff_exists.1 h
  rw [playW, hw]; rfl

/-- Task 1, run every three seconds, is inserted; callers 7, 8 and 9 wait on its chain; run 1 is started and registered; then
the task is removed. -/
def waitPre : List WLabel :=
  (ins (every 1 101 3)).map .base ++ [.call 7 0, .call 8 0, .call 9 0] ++
    (idles 2 ++ fire 1 1 ++ [Label.eRecv]).map .base

def waitLs : List WLabel := waitPre ++ ([.uSend (.remove 1), .eRecv, .eNext] : List Label).map .base

/-- `C60_order`, `C60_result`, `C60_goes_on`: three callers wait and there is one run to be had. -/
example : ((WSt.init env0).run env0 waitPre).isSome = true ∧
    (playW env0 waitPre).waiting = [(9, 0), (8, 0), (7, 0)] ∧
    Tag.insert 1 0 ∈ queuedTags (playW env0 waitPre).base.log ∧
    handedOn 0 (playW env0 waitPre).results = [] ∧ regsOn 0 (playW env0 waitPre).base.log = [1] := by
  decide +kernel

/-- `C60_released`: the task has been removed. Caller 8 still gets the run, 7 and 9 the error, 10 comes too late
(`C60_late`). -/
example : ((WSt.init env0).run env0 waitLs).isSome = true ∧ (7, 0) ∈ (playW env0 waitLs).waiting ∧
    Tag.insert 1 0 ∈ dispatchedTags (playW env0 waitLs).base.log ∧
    chainOf 1 (playW env0 waitLs).base.log ≠ some 0 ∧
    (((playW env0 waitLs).run env0 [.wake 8 0, .call 10 0, .wake 9 0, .wake 7 0]).map (·.results)) =
      some [(7, 0, .anomaly), (9, 0, .anomaly), (10, 0, .expired), (8, 0, .instance ⟨0, 1, 1⟩)] := by
  decide +kernel

end Ex

end DelayTimer
