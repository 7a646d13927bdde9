import Verif.Proofs.Ending

/-! The books of running instances. -/

namespace DelayTimer
open Spec

/-! ### Taking one run out -/

theorem quitNightly_sorted : ∀ (l : List HandlerBox) (rec : Int),
    l.Pairwise (fun a b => a.recordId < b.recordId) →
    quitNightly l rec = if ∃ b ∈ l, b.recordId = rec then some (l.filter (fun b => b.recordId ≠ rec)) else none := by
  intro l
  induction l with
  | nil => intro rec _; simp [quitNightly]
  | cons b l ih =>
    intro rec h
    rw [List.pairwise_cons] at h
    obtain ⟨h1, h2⟩ := h
    simp only [quitNightly]
    by_cases h3 : rec < b.recordId
    · rw [if_pos h3, if_neg]
      rintro ⟨c, hc, rfl⟩
      rcases List.mem_cons.1 hc with rfl | hc
      · omega
      · have := h1 c hc; omega
    · rw [if_neg h3]
      by_cases h4 : b.recordId = rec
      · rw [if_pos h4, if_pos ⟨b, List.mem_cons_self, h4⟩]
        subst h4
        congr 1
        simp only [List.filter_cons, ne_eq, not_true_eq_false, decide_false, Bool.false_eq_true, if_false]
        symm
        rw [List.filter_eq_self]
        intro c hc
        have := h1 c hc
        simp; omega
      · rw [if_neg h4, ih rec h2]
        by_cases h5 : ∃ c ∈ l, c.recordId = rec
        · obtain ⟨c, hc, hr⟩ := h5
          rw [if_pos ⟨c, hc, hr⟩, if_pos ⟨c, List.mem_cons_of_mem _ hc, hr⟩]
          simp [h4]
        · rw [if_neg h5, if_neg]
          · rfl
          · rintro ⟨c, hc, hr⟩
            rcases List.mem_cons.1 hc with rfl | hc
            · exact h4 hr
            · exact h5 ⟨c, hc, hr⟩

theorem quitStable_cons (b : HandlerBox) (l : List HandlerBox) (rec : Int) :
    quitStable (b :: l) rec = if b.recordId = rec then some l else (quitStable l rec).map (b :: ·) := by
  unfold quitStable
  rw [List.findIdx?_cons]
  by_cases h : b.recordId = rec
  · simp [h]
  · simp only [beq_false_of_ne h, Bool.false_eq_true, if_false, if_neg h]
    cases h2 : l.findIdx? (fun b => b.recordId == rec) with
    | none => rfl
    | some i =>
      simp only [Option.map_some, List.drop_succ_cons, List.take_succ_cons]
      cases l.drop i <;> rfl

theorem quitStable_distinct : ∀ (l : List HandlerBox) (rec : Int),
    l.Pairwise (fun a b => a.recordId ≠ b.recordId) →
    quitStable l rec = if ∃ b ∈ l, b.recordId = rec then some (l.filter (fun b => b.recordId ≠ rec)) else none := by
  intro l
  induction l with
  | nil => intro rec _; simp [quitStable]
  | cons b l ih =>
    intro rec h
    rw [List.pairwise_cons] at h
    obtain ⟨h1, h2⟩ := h
    rw [quitStable_cons]
    by_cases h4 : b.recordId = rec
    · rw [if_pos h4, if_pos ⟨b, List.mem_cons_self, h4⟩]
      subst h4
      congr 1
      simp only [List.filter_cons, ne_eq, not_true_eq_false, decide_false, Bool.false_eq_true, if_false]
      symm
      rw [List.filter_eq_self]
      intro c hc
      have := h1 c hc
      simp; exact this.symm
    · rw [if_neg h4, ih rec h2]
      by_cases h5 : ∃ c ∈ l, c.recordId = rec
      · obtain ⟨c, hc, hr⟩ := h5
        rw [if_pos ⟨c, hc, hr⟩, if_pos ⟨c, List.mem_cons_of_mem _ hc, hr⟩]
        simp [h4]
      · rw [if_neg h5, if_neg]
        · rfl
        · rintro ⟨c, hc, hr⟩
          rcases List.mem_cons.1 hc with rfl | hc
          · exact h4 hr
          · exact h5 ⟨c, hc, hr⟩

theorem quitOne_sorted (env : Env) (l : List HandlerBox) (rec : Int)
    (h : l.Pairwise (fun a b => Earlier env a.recordId b.recordId)) :
    quitOne env l rec = if ∃ b ∈ l, b.recordId = rec then some (l.filter (fun b => b.recordId ≠ rec)) else none := by
  unfold quitOne
  split
  · rename_i hn
    exact quitNightly_sorted l rec (h.imp fun hx => hx.2 hn)
  · exact quitStable_distinct l rec (h.imp fun hx => hx.1)

/-! ### Invariant -/

structure TraceOk (env : Env) (s : St) : Prop where
  own : ∀ id box, box ∈ s.trace id → box.taskId = id ∧
    ∃ rtn n, .started id rtn box.recordId n box.startTime ∈ s.log
  sorted : ∀ id, (s.trace id).Pairwise (fun a b => Earlier env a.recordId b.recordId)
  mem : ∀ id rec, (∃ box ∈ s.trace id, box.recordId = rec) ↔
    (.append id rec ∈ dispatchedTags s.log ∧ .stopped id rec ∉ s.log)
  stop : ∀ id rec, .stopped id rec ∈ s.log → .append id rec ∈ dispatchedTags s.log
  once : ∀ id rec, s.log.count (.stopped id rec) ≤ 1

theorem traceOk_of {env : Env} {s s' : St} (hs : TraceOk env s) (ht : s'.trace = s.trace) (hm : ∀ o ∈ s.log, o ∈ s'.log)
    (hd : ∀ id rec, .append id rec ∈ dispatchedTags s'.log ↔ .append id rec ∈ dispatchedTags s.log)
    (hst : ∀ id rec, s'.log.count (.stopped id rec) = s.log.count (.stopped id rec)) : TraceOk env s' := by
  have hst' : ∀ id rec, .stopped id rec ∈ s'.log ↔ .stopped id rec ∈ s.log := by
    intro id rec
    rw [← List.count_pos_iff, ← List.count_pos_iff, hst]
  obtain ⟨h1, h2, h3, h4, h5⟩ := hs
  refine ⟨?_, ?_, ?_, ?_, ?_⟩
  · intro id box hb; rw [ht] at hb; obtain ⟨a, b, c, d⟩ := h1 id box hb; exact ⟨a, b, c, hm _ d⟩
  · rw [ht]; exact h2
  · intro id rec; rw [ht, hd, hst']; exact h3 id rec
  · intro id rec; rw [hd, hst']; exact h4 id rec
  · intro id rec; rw [hst]; exact h5 id rec

theorem mem_snoc_tag {l : List Tag} {t x : Tag} (h : x ≠ t) : x ∈ l ++ [t] ↔ x ∈ l := by simp [h]

/-- What `done` adds to the history of dispatched events. -/
theorem done_dispatched (env : Env) (s : St) (tag : Tag) (pub : Option PublicEvent) (res : Option Bool) :
    dispatchedTags (done env s tag pub res).log = dispatchedTags s.log ++ [tag] := rfl

/-- An end event takes exactly its run out of the books, and only if it is there. -/
theorem Ending.trace {env : Env} {s : St} {k : EndKind} {id : Nat} {rec : Int} {r : Option Bool} {s' : St}
    (h : Ending env s k id rec r s') (hso : (s.trace id).Pairwise (fun a b => Earlier env a.recordId b.recordId)) :
    (s' = s ∧ (∀ b ∈ s.trace id, b.recordId ≠ rec) ∧ r = k.missRes) ∨
    (s'.trace = set s.trace id ((s.trace id).filter (fun b => b.recordId ≠ rec)) ∧
      (∃ b ∈ s.trace id, b.recordId = rec) ∧
      (s'.log = .stopped id rec :: s.log ∨ ∃ h o, s'.log = .stateSet h o k.state :: .stopped id rec :: s.log)) := by
  have hq := quitOne_sorted env (s.trace id) rec hso
  cases h
  case miss h =>
    rw [h] at hq
    split at hq
    · cases hq
    · rename_i hn
      exact Or.inl ⟨rfl, fun b hb he => hn ⟨b, hb, he⟩, rfl⟩
  all_goals
    rw [‹quitOne env (s.trace id) rec = some _›] at hq
    split at hq
    rotate_left
    · cases hq
    rename_i hn
    cases hq
    refine Or.inr ⟨rfl, hn, ?_⟩
    first | exact Or.inl rfl | exact Or.inr ⟨_, _, rfl⟩

theorem traceOk_ending {env : Env} {s : St} {k : EndKind} {id : Nat} {rec : Int} {r : Option Bool} {s' : St}
    (hs : TraceOk env s) (h : Ending env s k id rec r s') : TraceOk env s' := by
  rcases h.trace (hs.sorted id) with ⟨rfl, _⟩ | ⟨ht, ⟨b, hb, hbr⟩, hlog⟩
  · exact hs
  · obtain ⟨h1, h2, h3, h4, h5⟩ := hs
    have hd : dispatchedTags s'.log = dispatchedTags s.log := by
      rcases hlog with h | ⟨_, _, h⟩ <;> rw [h] <;> rfl
    have hm : ∀ o ∈ s.log, o ∈ s'.log := by
      rcases hlog with h | ⟨_, _, h⟩ <;> rw [h] <;> intro o ho <;> simp [ho]
    have hc : ∀ i q, s'.log.count (.stopped i q) = s.log.count (.stopped i q) + if i = id ∧ q = rec then 1 else 0 := by
      intro i q
      rcases hlog with h | ⟨_, _, h⟩ <;> rw [h] <;> simp only [List.count_cons, beq_iff_eq, Obs.stopped.injEq, reduceCtorEq, if_false, Nat.add_zero, eq_comm (a := id), eq_comm (a := rec)]
    have hin := (h3 id rec).1 ⟨b, hb, hbr⟩
    have hz : s.log.count (.stopped id rec) = 0 := List.count_eq_zero.2 hin.2
    have hst : ∀ i q, .stopped i q ∈ s'.log ↔ .stopped i q ∈ s.log ∨ (i = id ∧ q = rec) := by
      intro i q
      rcases hlog with h | ⟨_, _, h⟩ <;> rw [h] <;> simp [or_comm]
    refine ⟨?_, ?_, ?_, ?_, ?_⟩
    · intro i box hbx
      rw [ht, set_apply] at hbx
      split at hbx
      · rename_i hi; subst hi
        obtain ⟨a, b, c, d⟩ := h1 _ box (List.mem_filter.1 hbx).1
        exact ⟨a, b, c, hm _ d⟩
      · obtain ⟨a, b, c, d⟩ := h1 _ box hbx
        exact ⟨a, b, c, hm _ d⟩
    · intro i
      rw [ht, set_apply]
      split
      · exact (h2 id).filter _
      · exact h2 i
    · intro i q
      rw [ht, hd, hst, set_apply]
      split
      · rename_i hi; subst hi
        constructor
        · rintro ⟨b, hb, rfl⟩
          rw [List.mem_filter] at hb
          obtain ⟨hb1, hb2⟩ := hb
          obtain ⟨h6, h7⟩ := (h3 _ _).1 ⟨b, hb1, rfl⟩
          refine ⟨h6, ?_⟩
          rintro (h | ⟨_, h⟩)
          · exact h7 h
          · simp [h] at hb2
        · rintro ⟨h6, h7⟩
          obtain ⟨b, hb1, hb2⟩ := (h3 i q).2 ⟨h6, fun h => h7 (Or.inl h)⟩
          refine ⟨b, List.mem_filter.2 ⟨hb1, ?_⟩, hb2⟩
          have : q ≠ rec := fun h => h7 (Or.inr ⟨rfl, h⟩)
          simp [hb2, this]
      · rename_i hi
        rw [h3 i q]; simp [hi]
    · intro i q hx
      rw [hd]
      rcases (hst i q).1 hx with h | ⟨rfl, rfl⟩
      · exact h4 i q h
      · exact hin.1
    · intro i q
      rw [hc]
      split
      · rename_i h; obtain ⟨rfl, rfl⟩ := h; omega
      · exact h5 i q

/-- Registrations that are still on their way are newer than all registered runs. -/
theorem append_fresh {env : Env} {s : St} (hf : Fifo s) (hr : RecOk env s) {id : Nat} {box : HandlerBox} {rest : List TimerEvent}
    (he : s.epc = .idle) (hc : s.chan = .appendTaskHandle id box :: rest) {i : Nat} {q : Int}
    (h : .append i q ∈ dispatchedTags s.log) : Earlier env q box.recordId := by
  have h1 := hr.sorted
  rw [hr.start, hf, he, hc] at h1
  simp only [epcTags, List.append_nil, List.map_cons, appendRecs_append, List.append_assoc] at h1
  rw [List.pairwise_append] at h1
  refine h1.2.2 q ?_ box.recordId ?_
  · simp only [appendRecs, List.mem_filterMap]
    exact ⟨_, h, rfl⟩
  · simp [appendRecs, TimerEvent.tag]

/-- What `add_task` carries into its last step. -/
theorem add3Tag {env : Env} {s : St} (h : Reachable env s) : ∀ {tag m}, s.epc = .add3 tag m →
    (tag = .add m.taskId ∧ m.maintainer = none) ∨
    ∃ c, tag = .insert m.taskId c ∧ m.maintainer = some { chain := c, innerList := [] } := by
  refine Reachable.induct (fun s => ∀ {tag m}, s.epc = .add3 tag m →
    (tag = .add m.taskId ∧ m.maintainer = none) ∨
    ∃ c, tag = .insert m.taskId c ∧ m.maintainer = some { chain := c, innerList := [] }) ?_ ?_ s h
  · intro tag m hx; cases hx
  · intro s l s' _ hs h
    cases h
    all_goals try (exact hs)
    all_goals try (intro tag m hx; cases hx; done)
    all_goals try (intro tag m hx; simp at hx; done)
    case next_add2 t chain hand exec ts seed slot sl he hseed hslot hw =>
      intro tag m hx
      cases hx
      cases chain
      · exact Or.inl ⟨rfl, rfl⟩
      · exact Or.inr ⟨_, rfl, rfl⟩
    case next_add2_missing t chain hand exec ts seed slot he hseed hslot hw =>
      intro tag m hx
      cases hx
      cases chain
      · exact Or.inl ⟨rfl, rfl⟩
      · exact Or.inr ⟨_, rfl, rfl⟩

theorem traceOk_step {env : Env} {s : St} {l : Label} {s' : St} (hr : Reachable env s) (hs : TraceOk env s)
    (h : Act env s l s') : TraceOk env s' := by
  have hm : ∀ o ∈ s.log, o ∈ s'.log := fun o ho => log_mono h ho
  cases h
  case recv_cancel id rec rest he hc =>
    have h1 : TraceOk env { s with chan := rest } := traceOk_of hs rfl (fun o ho => ho) (fun _ _ => Iff.rfl) (fun _ _ => rfl)
    exact traceOk_of (traceOk_ending h1 (Ending.of_cancel env _ id rec)) rfl
      (fun o ho => List.mem_cons_of_mem _ ho) (fun i q => by rw [done_dispatched]; exact mem_snoc_tag (by simp))
      (fun i q => by simp [done_log])
  case recv_timeout id rec rest he hc =>
    have h1 : TraceOk env { s with chan := rest } := traceOk_of hs rfl (fun o ho => ho) (fun _ _ => Iff.rfl) (fun _ _ => rfl)
    exact traceOk_of (traceOk_ending h1 (Ending.of_timeout env _ id rec)) rfl
      (fun o ho => List.mem_cons_of_mem _ ho) (fun i q => by rw [done_dispatched]; exact mem_snoc_tag (by simp))
      (fun i q => by simp [done_log])
  case recv_finish b rest he hc =>
    have h1 : TraceOk env { s with chan := rest } := traceOk_of hs rfl (fun o ho => ho) (fun _ _ => Iff.rfl) (fun _ _ => rfl)
    exact traceOk_of (traceOk_ending h1 (Ending.of_finish env _ b.taskId b.recordId)) rfl
      (fun o ho => List.mem_cons_of_mem _ ho) (fun i q => by rw [done_dispatched]; exact mem_snoc_tag (by simp))
      (fun i q => by simp [done_log])
  case recv_append id box rest he hc =>
    have hfresh := fun i q => append_fresh (fifo hr) (recOk hr) he hc (i := i) (q := q)
    obtain ⟨g1, g2⟩ := (rtOk hr).chanApp id box (by rw [hc]; exact List.mem_cons_self)
    obtain ⟨h1, h2, h3, h4, h5⟩ := hs
    have ht : (done env (maintainTaskStatus { s with chan := rest } id box) (.append id box.recordId)
        (some (.runningTask box.taskId box.recordId)) (some true)).trace = set s.trace id (s.trace id ++ [box]) := by
      simp [maintainTaskStatus]
    have hd : dispatchedTags (done env (maintainTaskStatus { s with chan := rest } id box) (.append id box.recordId)
        (some (.runningTask box.taskId box.recordId)) (some true)).log = dispatchedTags s.log ++ [.append id box.recordId] := by
      rw [done_dispatched]; simp
    have hlt : ∀ i, ∀ b ∈ s.trace i, Earlier env b.recordId box.recordId := by
      intro i b hb
      exact hfresh _ _ ((h3 i b.recordId).1 ⟨b, hb, rfl⟩).1
    have hns : ∀ i, .stopped i box.recordId ∉ s.log := by
      intro i hx
      exact (hfresh _ _ (h4 _ _ hx)).1 rfl
    refine ⟨?_, ?_, ?_, ?_, ?_⟩
    · intro i b hb
      rw [ht, set_apply] at hb
      split at hb
      · rename_i hi; subst hi
        rcases List.mem_append.1 hb with hb | hb
        · obtain ⟨a, b', c, d⟩ := h1 _ b hb; exact ⟨a, b', c, hm _ d⟩
        · cases List.mem_singleton.1 hb
          obtain ⟨b', c, d⟩ := g2
          exact ⟨g1, b', c, hm _ d⟩
      · obtain ⟨a, b', c, d⟩ := h1 _ b hb; exact ⟨a, b', c, hm _ d⟩
    · intro i
      rw [ht, set_apply]
      split
      · rw [List.pairwise_append]
        exact ⟨h2 id, by simp, by simpa using hlt id⟩
      · exact h2 i
    · intro i q
      rw [ht, hd, set_apply]
      simp only [done_log, maintainTaskStatus_log, List.mem_cons, reduceCtorEq, false_or, List.mem_append,
        List.not_mem_nil, or_false, Tag.append.injEq]
      split
      · rename_i hi; subst hi
        constructor
        · rintro ⟨b, hb, rfl⟩
          rcases List.mem_append.1 hb with hb | hb
          · obtain ⟨a, b'⟩ := (h3 i _).1 ⟨b, hb, rfl⟩
            exact ⟨Or.inl a, b'⟩
          · cases List.mem_singleton.1 hb
            exact ⟨Or.inr ⟨rfl, rfl⟩, hns _⟩
        · rintro ⟨a | ⟨_, rfl⟩, b⟩
          · obtain ⟨b, hb, hq⟩ := (h3 i q).2 ⟨a, b⟩
            exact ⟨b, List.mem_append_left _ hb, hq⟩
          · exact ⟨box, by simp, rfl⟩
      · rename_i hi; rw [h3 i q]; simp [hi]
    · intro i q hx
      rw [hd]
      simp only [done_log, maintainTaskStatus_log, List.mem_cons, reduceCtorEq, false_or] at hx
      exact List.mem_append_left _ (h4 i q hx)
    · intro i q
      simp only [done_log, maintainTaskStatus_log]
      rw [List.count_cons_of_ne (by simp)]
      exact h5 i q
  case next_add3 tag m he =>
    refine traceOk_of hs (by simp) hm (fun i q => ?_) (fun i q => by simp)
    rw [done_dispatched]
    simp only [dropMark_log]
    refine mem_snoc_tag ?_
    rcases add3Tag hr he with ⟨h, _⟩ | ⟨c, h, _⟩ <;> simp [h]
  case next_add1_err t chain hand he hn =>
    refine traceOk_of hs (by simp) hm (fun i q => ?_) (fun i q => by simp)
    rw [done_dispatched]
    simp only [dropMaintainer_log]
    refine mem_snoc_tag ?_
    cases chain <;> simp [addTag]
  all_goals
    refine traceOk_of hs ?_ hm ?_ ?_
    · first | rfl | simp; done
    · intro i q; simp [dispatchedTags, push, uInsert]
    · intro i q; simp [push, uInsert]

theorem traceOk {env : Env} {s : St} (h : Reachable env s) : TraceOk env s := by
  refine Reachable.induct (TraceOk env) ⟨?_, ?_, ?_, ?_, ?_⟩ (fun _ _ _ hr hs h => traceOk_step hr hs h) s h
  · intro _ _ hx; cases hx
  · intro _; exact List.Pairwise.nil
  · intro id rec; simp [init, dispatchedTags]
  · intro _ _ hx; cases hx
  · intro _ _; simp [init]

end DelayTimer
