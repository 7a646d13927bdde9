import Verif.Proofs.Chain
import Verif.Proofs.Place
import Verif.Spec.Parallel

/-! Counting runs that are going on. -/

namespace DelayTimer
open Spec

/-- The runs of `k` that are started and not stopped. -/
def openRuns (k : Nat) (log : List Obs) : List Int :=
  (startedRecsOf k log).filter (fun r => decide (Obs.stopped k r ∉ log))

theorem mem_openRuns {k : Nat} {log : List Obs} {r : Int} :
    r ∈ openRuns k log ↔ r ∈ startedRecsOf k log ∧ .stopped k r ∉ log := by
  simp [openRuns]

theorem startedRecsOf_sublist (k : Nat) (log : List Obs) : (startedRecsOf k log).Sublist (startedRecs log) := by
  induction log with
  | nil => exact List.Sublist.slnil
  | cons o log ih =>
    cases o <;> simp only [startedRecsOf, startedRecs] <;> try exact ih
    split
    · exact ih.append (List.Sublist.refl _)
    · exact ih.trans (List.sublist_append_left _ _)

theorem startedRecsOf_iff {k : Nat} {log : List Obs} {r : Int} :
    r ∈ startedRecsOf k log ↔ ∃ rt n ts, .started k rt r n ts ∈ log := by
  induction log with
  | nil => simp [startedRecsOf]
  | cons o log ih =>
    cases o <;> simp only [startedRecsOf, List.mem_cons, reduceCtorEq, false_or, ih]
    rename_i id rt rec n ts
    split
    · rename_i h; subst h
      simp only [List.mem_append, List.mem_singleton, ih, Obs.started.injEq]
      constructor
      · rintro (⟨a, b, c, h⟩ | rfl)
        · exact ⟨a, b, c, Or.inr h⟩
        · exact ⟨rt, n, ts, Or.inl (by simp)⟩
      · rintro ⟨a, b, c, h | h⟩
        · exact Or.inr h.2.2.1
        · exact Or.inl ⟨a, b, c, h⟩
    · rename_i h
      rw [ih]
      constructor
      · rintro ⟨a, b, c, h⟩; exact ⟨a, b, c, Or.inr h⟩
      · rintro ⟨a, b, c, hx | hx⟩
        · cases hx; exact absurd rfl h
        · exact ⟨a, b, c, hx⟩

theorem nodup_length_le {α : Type} [DecidableEq α] : ∀ {a b : List α}, a.Nodup → (∀ x ∈ a, x ∈ b) → a.length ≤ b.length
  | [], _, _, _ => Nat.zero_le _
  | x :: a, b, hn, hs => by
    rw [List.nodup_cons] at hn
    have h1 : ∀ y ∈ a, y ∈ b.erase x := by
      intro y hy
      refine (List.mem_erase_of_ne ?_).2 (hs y (List.mem_cons_of_mem _ hy))
      rintro rfl; exact hn.1 hy
    have h2 := nodup_length_le hn.2 h1
    have h3 := hs x List.mem_cons_self
    rw [List.length_erase_of_mem h3] at h2
    have h4 := List.length_pos_of_mem h3
    simp only [List.length_cons]; omega

theorem openRuns_nodup {env : Env} {s : St} (hr : Reachable env s) (k : Nat) : (openRuns k s.log).Nodup := by
  have h1 := (recOk hr).sorted
  have h2 : (startedRecs s.log).Nodup := h1.imp (fun h => h.1)
  exact (h2.sublist (startedRecsOf_sublist k s.log)).filter _

theorem ongoing_iff {env : Env} {s : St} (hr : Reachable env s) {k : Nat} {r : Int} :
    Ongoing k r s.log ↔ r ∈ openRuns k s.log := by
  rw [mem_openRuns, Ongoing, (repOk hr).ended]

theorem resting_iff {env : Env} {s : St} (hr : Reachable env s) {k : Nat} :
    Resting k s.log ↔ openRuns k s.log = [] := by
  rw [List.eq_nil_iff_forall_not_mem]
  exact forall_congr' fun r => not_congr (ongoing_iff hr)

theorem atMost_iff {env : Env} {s : St} (hr : Reachable env s) {k m : Nat} :
    AtMostOngoing k m s.log ↔ (openRuns k s.log).length ≤ m := by
  constructor
  · intro h
    exact h _ (openRuns_nodup hr k) (fun r hr' => (ongoing_iff hr).2 hr')
  · intro h rs hn hrs
    refine Nat.le_trans ?_ h
    exact nodup_length_le hn (fun r hr' => (ongoing_iff hr).1 (hrs r hr'))

theorem atLeast_iff {env : Env} {s : St} (hr : Reachable env s) {k m : Nat} :
    AtLeastOngoing k m s.log ↔ m ≤ (openRuns k s.log).length := by
  constructor
  · rintro ⟨rs, hn, hrs, h⟩
    refine Nat.le_trans h ?_
    exact nodup_length_le hn (fun r hr' => (ongoing_iff hr).1 (hrs r hr'))
  · intro h
    exact ⟨_, openRuns_nodup hr k, fun r hr' => (ongoing_iff hr).2 hr', h⟩

/-! ### Steps -/

/-- The count in the mark of `k`. -/
def num (k : Nat) (s : St) : Option Nat := (s.flags k).map (·.parallelRunnableNum)

/-- 1 if the scheduler has to count a run of `k`. -/
def counting (k : Nat) : TPC → Nat
  | .append _ t _ => if t.taskId = k then 1 else 0
  | .gate _ t _ => if t.taskId = k then 1 else 0
  | .rearm _ t u => if t.taskId = k ∧ u = true then 1 else 0
  | .mark _ id _ u => if id = k ∧ u = true then 1 else 0
  | _ => 0

/-- The scheduler is about to start a run of `k`. -/
def spawning (k : Nat) : TPC → Prop
  | .spawn _ t _ => t.taskId = k
  | _ => False

theorem counting_uncounted {k : Nat} {p : TPC} : Uncounted k p ↔ counting k p = 1 := by
  cases p <;> simp [Uncounted, counting]

theorem counting_le (k : Nat) (p : TPC) : counting k p ≤ 1 := by
  cases p <;> simp only [counting] <;> first | (split <;> omega) | omega

/-- How a step changes the number of runs of `k` and the timer's count of them. -/
inductive ParStep (k : Nat) (s s' : St) : Label → Prop
  | same (l : Label) (hr : openRuns k s'.log = openRuns k s.log) (hn : num k s' = num k s)
      (hc : counting k s'.tpc = counting k s.tpc) (hs : spawning k s'.tpc → spawning k s.tpc) : ParStep k s s' l
  | pass (p : List Nat) (t : Task) (rec : Int) (htpc : s.tpc = .check p t) (htpc' : s'.tpc = .spawn p t rec)
      (hk : t.taskId = k)
      (hl : ∀ m, t.maximumParallelRunnableNum = some m → ∃ n, num k s = some n ∧ n < m)
      (hr : openRuns k s'.log = openRuns k s.log) (hn : num k s' = num k s) : ParStep k s s' (.tCheck rec)
  | start (hs : spawning k s.tpc) (rec : Int) (hr : openRuns k s'.log = openRuns k s.log ++ [rec])
      (hn : num k s' = num k s) (hc : counting k s'.tpc = 1) (hs' : ¬ spawning k s'.tpc) : ParStep k s s' (.tSpawn false)
  | lose (l : Label) (hh : tpcTok k s.tpc ≠ []) (hh' : tpcTok k s'.tpc = []) (hw : s'.wheel = s.wheel)
      (hch : s'.chan = s.chan) (he : s'.epc = s.epc) (hr : openRuns k s'.log = openRuns k s.log)
      (hn : num k s' = num k s) (hc : counting k s'.tpc = 0) (hs' : ¬ spawning k s'.tpc) : ParStep k s s' l
  | count (u : Bool) (hu : counting k s.tpc = if u then 1 else 0) (hc : counting k s'.tpc = 0)
      (hs' : ¬ spawning k s'.tpc)
      (hr : openRuns k s'.log = openRuns k s.log) (hn : num k s' = (num k s).map (· + if u then 1 else 0)) :
      ParStep k s s' .tMark
  | add (tag : Tag) (m : TaskMark) (he : s.epc = .add3 tag m) (hk : m.taskId = k)
      (hr : openRuns k s'.log = openRuns k s.log) (hn : num k s' = some m.parallelRunnableNum)
      (ht : s'.tpc = s.tpc) : ParStep k s s' .eNext
  | drop (hr : openRuns k s'.log = openRuns k s.log) (hn : num k s' = none)
      (ht : s'.tpc = s.tpc) : ParStep k s s' .eNext
  | ended (e : TimerEvent) (rest : List TimerEvent) (rec : Int) (he : s.epc = .idle) (hch : s.chan = e :: rest)
      (hk : EventEnds k e)
      (hr : (openRuns k s'.log).length + 1 = (openRuns k s.log).length)
      (ht : s'.tpc = s.tpc)
      (hn : num k s = none ∧ num k s' = none ∨ ∃ n n', num k s = some n ∧ num k s' = some n' ∧
        (n' = n - 1 ∨ n' = n ∧ ∃ m mt, s.flags k = some m ∧ m.maintainer = some mt ∧
          (s.chainState mt.chain = DROPPED ∨
            ∃ b ∈ s.trace k, ∀ i ∈ mt.innerList, i.recordId ≠ b.recordId)))
      (hl : openRuns k s'.log = (openRuns k s.log).filter (fun r => decide (r ≠ rec)))
      (hb : ∃ b ∈ s.trace k, b.recordId = rec)
      (hw : num k s' = (num k s).map (· - 1) ∨
        (∃ mt, mts s k = some mt ∧ s.chainState mt.chain = DROPPED ∧ mts s' k = none ∧ num k s' = num k s) ∨
        ∃ mt, mts s k = some mt ∧ (∀ i ∈ mt.innerList, i.recordId ≠ rec) ∧ num k s' = num k s) : ParStep k s s' .eRecv

theorem open_news {k : Nat} {news log : List Obs}
    (h : ∀ o ∈ news, (∀ a r n ts, o ≠ .started k a r n ts) ∧ ∀ r, o ≠ .stopped k r) :
    openRuns k (news ++ log) = openRuns k log := by
  have h1 : startedRecsOf k (news ++ log) = startedRecsOf k log := by
    induction news with
    | nil => rfl
    | cons o news ih =>
      have h1 := h o List.mem_cons_self
      have h2 := ih (fun o ho => h o (List.mem_cons_of_mem _ ho))
      cases o <;> simp only [List.cons_append, startedRecsOf, h2]
      rename_i id a r n ts
      rw [if_neg]
      rintro rfl
      exact h1.1 _ _ _ _ rfl
  have h2 : ∀ r, Obs.stopped k r ∈ news ++ log ↔ Obs.stopped k r ∈ log := by
    intro r
    rw [List.mem_append]
    exact ⟨fun hx => hx.elim (fun hx => absurd rfl ((h _ hx).2 r)) (fun h => h), Or.inr⟩
  unfold openRuns
  rw [h1]
  apply List.filter_congr
  intro r _
  simp [h2]

theorem open_one {k : Nat} {o : Obs} {log : List Obs} (h1 : ∀ a r n ts, o ≠ .started k a r n ts)
    (h2 : ∀ r, o ≠ .stopped k r) : openRuns k (o :: log) = openRuns k log :=
  open_news (news := [o]) (by simpa using ⟨h1, h2⟩)

theorem open_start {k : Nat} {a : Nat} {rec : Int} {n ts : Nat} {log : List Obs} (h : .stopped k rec ∉ log) :
    openRuns k (.started k a rec n ts :: log) = openRuns k log ++ [rec] := by
  unfold openRuns
  simp only [startedRecsOf, if_pos, List.filter_append]
  congr 1
  · apply List.filter_congr
    intro r _
    simp
  · simp [h]

theorem open_stop {k : Nat} {rec : Int} {log : List Obs} :
    openRuns k (.stopped k rec :: log) = (openRuns k log).filter (fun r => decide (r ≠ rec)) := by
  unfold openRuns
  rw [List.filter_filter]
  simp only [startedRecsOf]
  apply List.filter_congr
  intro r _
  simp only [List.mem_cons, Obs.stopped.injEq, true_and, not_or, Bool.decide_and, ne_eq]

theorem filter_ne_length {l : List Int} {x : Int} (hn : l.Nodup) (hx : x ∈ l) :
    (l.filter (fun r => decide (r ≠ x))).length + 1 = l.length := by
  have h1 : l.filter (fun r => decide (r ≠ x)) = l.erase x := by
    rw [hn.erase_eq_filter]
    apply List.filter_congr
    intro r _
    by_cases h : r = x <;> simp [h]
  rw [h1, List.length_erase_of_mem hx]
  have := List.length_pos_of_mem hx
  omega

/-- A registered run is open. -/
theorem trace_open {env : Env} {s : St} (hr : Reachable env s) {k : Nat} {b : HandlerBox} (hb : b ∈ s.trace k) :
    b.recordId ∈ openRuns k s.log := by
  obtain ⟨_, rt, n, h⟩ := (traceOk hr).own k b hb
  rw [mem_openRuns, startedRecsOf_iff]
  exact ⟨⟨_, _, _, h⟩, (((traceOk hr).mem k b.recordId).1 ⟨b, hb, rfl⟩).2⟩

theorem parStep_ending {env : Env} {k : Nat} {s : St} (hr : Reachable env s) {kind : EndKind} {id : Nat} {rec : Int}
    {r : Option Bool} {s2 : St} {e : TimerEvent} {rest : List TimerEvent} {pub : Option PublicEvent} {tag : Tag}
    (he : s.epc = .idle) (hch : s.chan = e :: rest) (hk : id = k → EventEnds k e)
    (h : Ending env { s with chan := rest } kind id rec r s2) :
    ParStep k s (done env s2 tag pub r) .eRecv := by
  have hso := (traceOk hr).sorted id
  have hq := quitOne_sorted env (s.trace id) rec hso
  have hfound : ∀ {l}, quitOne env (s.trace id) rec = some l → ∃ b ∈ s.trace id, b.recordId = rec := by
    intro l hl
    rw [hl] at hq
    split at hq
    · assumption
    · cases hq
  by_cases hid : id = k
  · subst hid
    have hstop : ∀ {l}, quitOne env (s.trace id) rec = some l →
        (openRuns id (.stopped id rec :: s.log)).length + 1 = (openRuns id s.log).length := by
      intro l hl
      obtain ⟨b, hb, rfl⟩ := hfound hl
      rw [open_stop]
      exact filter_ne_length (openRuns_nodup hr id) (trace_open hr hb)
    cases h with
    | miss hx =>
      refine .same _ ?_ rfl rfl (fun h => h)
      exact open_one (by simp) (by simp)
    | nomark l hx hf =>
      change s.flags id = none at hf
      refine .ended e rest rec he hch (hk rfl) ?_ rfl (Or.inl ?_) ?_ (hfound hx) (Or.inl ?_)
      · rw [done_log, open_one (by simp) (by simp)]
        exact hstop hx
      · simp [num, hf]
      · rw [done_log, open_one (by simp) (by simp)]
        exact open_stop
      · simp [num, hf]
    | nochain l m hx hf hm =>
      change s.flags id = some m at hf
      refine .ended e rest rec he hch (hk rfl) ?_ rfl (Or.inr ⟨m.parallelRunnableNum, m.parallelRunnableNum - 1,
        by simp [num, hf], by simp [num], Or.inl rfl⟩) ?_ (hfound hx) (Or.inl ?_)
      · rw [done_log, open_one (by simp) (by simp)]
        exact hstop hx
      · rw [done_log, open_one (by simp) (by simp)]
        exact open_stop
      · simp [num, hf]
    | dropped l m mt hx hf hm hd =>
      change s.flags id = some m at hf
      refine .ended e rest rec he hch (hk rfl) ?_ rfl (Or.inr ⟨m.parallelRunnableNum,
        kind.failNum m.parallelRunnableNum, by simp [num, hf], by simp [num], ?_⟩) ?_ (hfound hx) ?_
      · rw [done_log, open_one (by simp) (by simp)]
        exact hstop hx
      · cases kind
        · exact Or.inl rfl
        · exact Or.inl rfl
        · exact Or.inr ⟨rfl, m, mt, hf, hm, Or.inl hd⟩
      · rw [done_log, open_one (by simp) (by simp)]
        exact open_stop
      · cases kind
        · exact Or.inl (by simp [num, hf, EndKind.failNum])
        · exact Or.inl (by simp [num, hf, EndKind.failNum])
        · exact Or.inr (Or.inl ⟨mt, by rw [mts_eq hf, hm], hd, by simp [mts], by simp [num, hf, EndKind.failNum]⟩)
    | unlisted l m mt hx hf hm hd hi =>
      change s.flags id = some m at hf
      refine .ended e rest rec he hch (hk rfl) ?_ rfl (Or.inr ⟨m.parallelRunnableNum,
        kind.failNum m.parallelRunnableNum, by simp [num, hf], by simp [num], ?_⟩) ?_ (hfound hx) ?_
      · rw [done_log, open_one (by simp) (by simp)]
        exact hstop hx
      · cases kind
        · exact Or.inl rfl
        · exact Or.inl rfl
        · obtain ⟨b, hb, rfl⟩ := hfound hx
          exact Or.inr ⟨rfl, m, mt, hf, hm, Or.inr ⟨b, hb, hi⟩⟩
      · rw [done_log, open_one (by simp) (by simp)]
        exact open_stop
      · cases kind
        · exact Or.inl (by simp [num, hf, EndKind.failNum])
        · exact Or.inl (by simp [num, hf, EndKind.failNum])
        · exact Or.inr (Or.inr ⟨mt, by rw [mts_eq hf, hm], hi, by simp [num, hf, EndKind.failNum]⟩)
    | found l m mt a i b hx hf hm hd hl hi =>
      change s.flags id = some m at hf
      refine .ended e rest rec he hch (hk rfl) ?_ rfl (Or.inr ⟨m.parallelRunnableNum,
        m.parallelRunnableNum - 1, by simp [num, hf], by simp [num], Or.inl rfl⟩) ?_ (hfound hx) (Or.inl ?_)
      · rw [done_log, open_one (by simp) (by simp)]
        show (openRuns id (.stateSet _ _ _ :: .stopped id rec :: s.log)).length + 1 = _
        rw [open_one (by simp) (by simp)]
        exact hstop hx
      · rw [done_log, open_one (by simp) (by simp)]
        show openRuns id (.stateSet _ _ _ :: .stopped id rec :: s.log) = _
        rw [open_one (by simp) (by simp)]
        exact open_stop
      · simp [num, hf]
  · have hst : ∀ r : Int, Obs.stopped id rec ≠ .stopped k r := by
      intro r h; cases h; exact hid rfl
    have hfl : ∀ m, set s.flags id m k = s.flags k := fun m => set_other _ _ _ (fun h => hid h.symm)
    cases h with
    | found l m mt a i b hx hf hm hd hl hi =>
      refine .same _ ?_ ?_ rfl (fun h => h)
      · rw [done_log, open_one (by simp) (by simp)]
        show openRuns k (.stateSet _ _ _ :: .stopped id rec :: s.log) = _
        rw [open_one (by simp) (by simp), open_one (by simp) hst]
      · simp only [num, done_flags, hfl]
    | miss hx =>
      refine .same _ ?_ rfl rfl (fun h => h)
      exact open_one (by simp) (by simp)
    | _ =>
      refine .same _ ?_ ?_ rfl (fun h => h)
      · rw [done_log, open_one (by simp) (by simp)]
        exact open_one (by simp) hst
      · simp only [num, done_flags, hfl]

theorem parStep {env : Env} (k : Nat) {s : St} {l : Label} {s' : St} (hr : Reachable env s) (h : Act env s l s') :
    ParStep k s s' l := by
  cases h
  all_goals try (exact .same _ rfl rfl rfl (fun h => h))
  all_goals try (exact .same _ (open_one (by simp) (by simp)) rfl rfl (fun h => h))
  case recv_cancel id rec rest he hc =>
    exact parStep_ending hr he hc (fun h => h) (Ending.of_cancel env _ id rec)
  case recv_timeout id rec rest he hc =>
    exact parStep_ending hr he hc (fun h => h) (Ending.of_timeout env _ id rec)
  case recv_finish b rest he hc =>
    exact parStep_ending hr he hc (fun h => h) (Ending.of_finish env _ _ _)
  case check_nolimit pending t rec h hrec hmax =>
    by_cases hk : t.taskId = k
    · exact .pass pending t rec h rfl hk (by rw [hmax]; simp) rfl rfl
    · exact .same _ rfl rfl (by rw [h]; rfl) (fun h => absurd h hk)
  case check_skip pending t rec m mk h hrec hmax hf hle =>
    exact .same _ (open_one (by simp) (by simp)) rfl (by rw [h]; simp [counting]) (fun h => h.elim)
  case check_ok pending t rec m mk h hrec hmax hf hlt =>
    by_cases hk : t.taskId = k
    · refine .pass pending t rec h rfl hk ?_ rfl rfl
      intro m' hm'
      rw [hmax] at hm'; cases hm'
      subst hk
      exact ⟨mk.parallelRunnableNum, by simp [num, hf], hlt⟩
    · exact .same _ rfl rfl (by rw [h]; rfl) (fun h => absurd h hk)
  case spawn pending t rec h =>
    by_cases hk : t.taskId = k
    · subst hk
      refine .start (by rw [h]; rfl) rec (open_start ?_) rfl (by simp [counting]) (fun h => h.elim)
      intro hx
      have h1 := (traceOk hr).stop _ _ hx
      have h2 := (recOk hr).fresh _ _ _ h
      have h3 := (recOk hr).start
      have h4 : rec ∈ startedRecs s.log := by
        rw [h3, List.mem_append]
        left
        simp only [appendRecs, List.mem_filterMap]
        exact ⟨_, dispatched_queued hr h1, rfl⟩
      exact (h2.2 rec h4).1 rfl
    · refine .same _ (open_one ?_ (by simp)) rfl (by rw [h]; simp [counting, hk]) (fun h => h.elim)
      intro a r n ts hx; cases hx; exact hk rfl
  case append pending t box h =>
    exact .same _ (open_one (by simp) (by simp)) rfl (by rw [h]; rfl) (fun h => h.elim)
  case gate_panic pending t rec h hd =>
    by_cases hk : t.taskId = k
    · exact .lose _ (by rw [h]; simp [tpcTok, hk]) rfl rfl rfl rfl rfl rfl rfl (fun h => h.elim)
    · exact .same _ rfl rfl (by rw [h]; simp [counting, hk]) (fun h => h.elim)
  case gate_again pending t t' rec h hd =>
    exact .same _ rfl rfl (by rw [h]; simp [counting, down_taskId hd]) (fun h => h.elim)
  case gate_last pending t t' rec h hd =>
    by_cases hk : t.taskId = k
    · exact .lose _ (by rw [h]; simp [tpcTok, hk]) rfl rfl rfl rfl rfl rfl rfl (fun h => h.elim)
    · exact .same _ rfl rfl (by rw [h]; simp [counting, hk]) (fun h => h.elim)
  case slot_none pending t upd h hx =>
    by_cases hk : t.taskId = k
    · exact .lose _ (by rw [h]; simp [tpcTok, hk]) rfl rfl rfl rfl rfl rfl rfl (fun h => h.elim)
    · exact .same _ rfl rfl (by rw [h]; simp [counting, hk]) (fun h => h.elim)
  case slot_missing pending t upd exec h hx hw =>
    by_cases hk : t.taskId = k
    · exact .lose _ (by rw [h]; simp [tpcTok, hk]) rfl rfl rfl rfl rfl rfl rfl (fun h => h.elim)
    · exact .same _ rfl rfl (by rw [h]; simp [counting, hk]) (fun h => h.elim)
  case slot_ok pending t upd exec sl step slot h hx hstep hslot hw =>
    exact .same _ rfl rfl (by rw [h]; rfl) (fun h => h.elim)
  case mark_none pending id slot upd h hf =>
    by_cases hk : id = k
    · subst hk
      refine .count upd (by rw [h]; simp [counting]) rfl (fun h => h.elim) rfl ?_
      simp [num, hf]
    · exact .same _ rfl rfl (by rw [h]; simp [counting, hk]) (fun h => h.elim)
  case mark_some pending id slot upd m h hf =>
    by_cases hk : id = k
    · subst hk
      refine .count upd (by rw [h]; simp [counting]) rfl (fun h => h.elim) rfl ?_
      simp only [num, hf, set_same, Option.map_some]
      cases upd <;> rfl
    · refine .same _ rfl ?_ (by rw [h]; simp [counting, hk]) (fun h => h.elim)
      simp only [num]
      rw [set_other _ _ _ (fun h => hk h.symm)]
  case recv_append id box rest he hc =>
    refine .same _ ?_ ?_ (by simp) (by simp)
    · rw [done_log, open_one (by simp) (by simp)]
      simp
    · simp only [num, done_flags, maintainTaskStatus]
      unfold registerInstance
      dsimp only
      split
      · rfl
      · rename_i m hf
        change s.flags id = some m at hf
        split
        · rfl
        · split
          · simp only [set_apply]
            split
            · rename_i hk; subst hk; simp [hf]
            · rfl
          · simp only [set_apply]
            split
            · rename_i hk; subst hk; simp [hf]
            · rfl
  case next_add3 tag m he =>
    by_cases hk : m.taskId = k
    · subst hk
      refine .add tag m he rfl ?_ ?_ (by simp)
      · rw [done_log, open_one (by simp) (by simp)]; simp
      · simp [num]
    · refine .same _ ?_ ?_ (by simp) (by simp)
      · rw [done_log, open_one (by simp) (by simp)]; simp
      · simp only [num, done_flags]
        rw [set_other _ _ _ (fun h => hk h.symm)]
  case next_remove id ok he =>
    by_cases hk : id = k
    · subst hk
      refine .drop ?_ ?_ (by simp)
      · rw [done_log, open_one (by simp) (by simp)]; simp
      · simp [num]
    · refine .same _ ?_ ?_ (by simp) (by simp)
      · rw [done_log, open_one (by simp) (by simp)]; simp
      · simp only [num, done_flags]
        rw [set_other _ _ _ (fun h => hk h.symm)]
  all_goals first
    | (have hz := ‹s.tpc = _›; exact .same _ rfl rfl (by rw [hz]; rfl) (fun h => h.elim))
    | (have hz := ‹s.tpc = _›; exact .same _ (open_one (by simp) (by simp)) rfl (by rw [hz]; rfl) (fun h => h.elim))
    | (refine .same _ ?_ (by simp [num]) (by simp) (by simp)
       first
       | (rw [done_log, open_one (by simp) (by simp)]; simp; done)
       | exact (open_one (by simp) (by simp)).trans (open_one (by simp) (by simp))
       | exact open_one (by simp) (by simp))
    | skip

/-! ### No copy is left -/

/-- There is no copy of `k` anywhere. -/
structure NoCopy (k : Nat) (s : St) : Prop where
  chan : chanAdds k s.chan = []
  epc : epcTok k s.epc = []
  tpc : tpcTok k s.tpc = []
  wheel : ∀ i t, ¬ inWheel s.wheel k i t

theorem noCopy_step {env : Env} {k : Nat} {s : St} {l : Label} {s' : St} (hs : NoCopy k s)
    (hu : ∀ t, .updateTask t ∈ s.chan → t.taskId ≠ k) (hl : ¬ Brings k l) (h : Act env s l s') : NoCopy k s' := by
  obtain ⟨h1, h2, h3, h4⟩ := hs
  refine ⟨?_, ?_, ?_, ?_⟩
  · rcases chan_step h with ⟨_, h3 | ⟨e, h3, h4⟩⟩ | ⟨_, _, e, h3⟩ | ⟨_, h3⟩
    · rw [h3]; exact h1
    · rw [h3, chanAdds_append, h1, List.nil_append]
      rcases h4 with h4 | ⟨op, rfl, rfl⟩ | ⟨t, rfl, rfl⟩
      · have := h4 k
        cases e <;> simp_all [chanAdds, EventTouches]
      · cases op <;> simp_all [chanAdds, Brings, UserOp.event]
      · simp_all [chanAdds, Brings]
    · rw [h3, show e :: s'.chan = [e] ++ s'.chan from rfl, chanAdds_append] at h1
      exact (List.append_eq_nil_iff.1 h1).2
    · rw [h3]; exact h1
  · cases h
    all_goals try (exact h2)
    all_goals try (simp [epcTok]; done)
    all_goals try (simpa using h2)
    case recv_add t rest he hc =>
      rw [hc] at h1; simp_all [chanAdds, epcTok]
    case recv_insert t c rest he hc =>
      rw [hc] at h1; simp_all [chanAdds, epcTok]
    case recv_advance id rest m sl u he hc hf hwh hr =>
      obtain ⟨h3, h5⟩ := removeTask_some hr
      by_cases hk : id = k
      · exact absurd ⟨sl, hwh, h3, h5.trans hk⟩ (h4 m.slotMark u)
      · simp [epcTok, h5, hk]
    all_goals (rw [‹s.epc = _›] at h2; simp_all [epcTok])
  · cases h
    all_goals try (exact h3)
    all_goals try (simp [tpcTok]; done)
    all_goals try (simpa using h3)
    case pop_hit pending id sl u h hmem hwh hr =>
      obtain ⟨h5, h6⟩ := removeTask_some hr
      by_cases hk : id = k
      · exact absurd ⟨sl, hwh, h5, h6.trans hk⟩ (h4 _ u)
      · simp [tpcTok, h6, hk]
    case gate_again pending t t' rec h hd =>
      rw [h] at h3
      simpa [tpcTok, down_taskId hd] using h3
    all_goals (have hz := ‹s.tpc = _›; rw [hz] at h3; exact h3)
  · intro j u hj
    rcases copy_from k h hj with ⟨v, hv⟩ | ⟨p, t, upd, _, hp, hk, _⟩ | ⟨t, c, hand, exec, ts, tag, m, _, he, hk, _⟩ |
      ⟨t, rest, _, _, hc, hk⟩ | ⟨t, hand, _, he, hk⟩
    · exact h4 _ _ hv
    · rw [hp] at h3; simp [tpcTok, hk] at h3
    · rw [he] at h2; simp [epcTok, hk] at h2
    · exact hu t (by rw [hc]; exact List.mem_cons_self) hk
    · rw [he] at h2; simp [epcTok, hk] at h2

theorem single_fresh {env : Env} {k : Nat} {s : St} {l : Label} {s' : St} (hs : Single k s)
    (hl : FreshCall k l s) (h : Act env s l s') : Single k s' := by
  obtain ⟨hadd, hupd⟩ := hl
  by_cases hb : Brings k l
  · have had : Adds k l := by
      cases l <;> try (exact hb)
      rename_i op
      cases op <;> try (exact hb)
      exact absurd hb (hupd _ rfl)
    obtain ⟨h1, h2⟩ := (hadd had).1.loose (hadd had).2.1
    cases h <;> try (exact hb.elim)
    case usend op =>
      cases op <;> try (exact had.elim)
      rename_i t
      refine ⟨?_, fun i t hi => absurd hi (h2 _ _), fun i t j u hi => absurd hi (h2 _ _), ?_⟩
      · simp only [DelayTimer.looseN, push, UserOp.event, chanAdds_append, List.length_append] at h1 ⊢
        have : (chanAdds k [TimerEvent.addTask t]).length ≤ 1 := by
          simp only [chanAdds]; exact List.length_filterMap_le _ _
        omega
      · intro u hu
        simp only [push, UserOp.event, List.mem_append, List.mem_singleton, reduceCtorEq, or_false] at hu
        exact hs.noUpd u hu
    case uinsert t =>
      refine ⟨?_, fun i t hi => absurd hi (h2 _ _), fun i t j u hi => absurd hi (h2 _ _), ?_⟩
      · simp only [DelayTimer.looseN, push, uInsert, chanAdds_append, List.length_append] at h1 ⊢
        have : (chanAdds k [TimerEvent.insertTask t s.nextChain]).length ≤ 1 := by
          simp only [chanAdds]; exact List.length_filterMap_le _ _
        omega
      · intro u hu
        simp only [push, uInsert, List.mem_append, List.mem_singleton, reduceCtorEq, or_false] at hu
        exact hs.noUpd u hu
  · exact single_step hs hb h

theorem brings_adds {k : Nat} {l : Label} {s : St} (hl : FreshCall k l s) (hb : Brings k l) : Adds k l := by
  cases l <;> try (exact hb)
  rename_i op
  cases op <;> try (exact hb)
  exact absurd hb (hl.2 _ rfl)

/-! ### The count is not too low -/

/-- The limit of the task. -/
def HasLimit (m : Nat) (t : Task) : Prop := t.maximumParallelRunnableNum = some m

structure Low (k m : Nat) (s : St) : Prop where
  single : Single k s
  lim : Copies (HasLimit m) (HasLimit m) k s
  le : (openRuns k s.log).length ≤ m
  room : spawning k s.tpc → (openRuns k s.log).length < m
  cnt : ∀ n, num k s = some n → (openRuns k s.log).length ≤ n + counting k s.tpc ∨ NoCopy k s

theorem down_limit {oc : Bool} {t t' : Task} {b : Bool} (h : t.downCountAndSetValid oc = some (b, t')) :
    t'.maximumParallelRunnableNum = t.maximumParallelRunnableNum := by
  unfold Task.downCountAndSetValid at h
  split at h
  · cases h
  · cases h; rfl

theorem low_step {env : Env} {k m : Nat} {s : St} {l : Label} {s' : St} (hr : Reachable env s) (hs : Low k m s)
    (hl : FreshCall k l s) (hm : FreshMark k s) (hb : ∀ t ∈ broughtBy k l, HasLimit m t)
    (h : Act env s l s') : Low k m s' := by
  obtain ⟨hsing, hlim, hle, hroom, hcnt⟩ := hs
  have hsing' := single_fresh hsing hl h
  have hlim' : Copies (HasLimit m) (HasLimit m) k s' :=
    copies_step (fun _ _ h => h) (fun _ h => h) (fun t t' ht hd => (down_limit hd).trans ht) (fun _ h => h) hb hlim h
  -- no copy left: stays, or no run is open
  have hkeep : NoCopy k s → NoCopy k s' ∨ openRuns k s.log = [] := by
    intro hn
    by_cases hbr : Brings k l
    · exact Or.inr ((resting_iff hr).1 ((hl.1 (brings_adds hl hbr)).2.2))
    · exact Or.inl (noCopy_step hn hsing.noUpd hbr h)
  have hp := parStep k hr h
  cases hp with
  | same _ h1 h2 h3 h4 =>
    refine ⟨hsing', hlim', by rw [h1]; exact hle, fun h => by rw [h1]; exact hroom (h4 h), ?_⟩
    intro n hn
    rw [h2] at hn
    rw [h1, h3]
    rcases hcnt n hn with h | h
    · exact Or.inl h
    · rcases hkeep h with h | h
      · exact Or.inr h
      · left; rw [h]; simp
  | pass p t rec htpc htpc' hk hlt h1 h2 =>
    have hmax : t.maximumParallelRunnableNum = some m :=
      hlim.held t (by rw [htpc]; simp [heldTok, hk])
    obtain ⟨n, hn, hnm⟩ := hlt m hmax
    have hno : ¬ NoCopy k s := by
      intro hx
      have := hx.tpc
      rw [htpc] at this; simp [tpcTok, hk] at this
    have h3 : (openRuns k s.log).length ≤ n := by
      rcases hcnt n hn with h | h
      · rw [htpc] at h; simpa [counting] using h
      · exact absurd h hno
    refine ⟨hsing', hlim', by rw [h1]; exact hle, fun _ => by rw [h1]; omega, ?_⟩
    intro n' hn'
    rw [h2, hn] at hn'; cases hn'
    left; rw [h1]; omega
  | start hsp rec h1 h2 h3 h4 =>
    have h5 := hroom hsp
    refine ⟨hsing', hlim', by rw [h1]; simp; omega, fun h => absurd h h4, ?_⟩
    intro n hn
    rw [h2] at hn
    left
    rw [h1, h3]
    rcases hcnt n hn with h | h
    · have : counting k s.tpc = 0 := by
        cases hq : s.tpc <;> simp [hq, spawning, counting] at hsp ⊢
      simp; omega
    · exfalso
      have := h.tpc
      cases hq : s.tpc <;> simp [hq, spawning, tpcTok] at hsp this
      exact this hsp
  | lose _ hh hh' hw hch he h1 h2 h3 h4 =>
    refine ⟨hsing', hlim', by rw [h1]; exact hle, fun h => absurd h h4, ?_⟩
    intro n hn
    right
    have hone := hsing.one
    have htok : 0 < (tpcTok k s.tpc).length := List.length_pos_iff.2 hh
    simp only [DelayTimer.looseN] at hone
    refine ⟨?_, ?_, hh', ?_⟩
    · rw [hch, ← List.length_eq_zero_iff]; omega
    · rw [he, ← List.length_eq_zero_iff]; omega
    · intro i t hi
      rw [hw] at hi
      have := hsing.excl i t hi
      simp only [DelayTimer.looseN] at this
      omega
  | count u hu h3 h4 h1 h2 =>
    refine ⟨hsing', hlim', by rw [h1]; exact hle, fun h => absurd h h4, ?_⟩
    intro n hn
    rw [h2, Option.map_eq_some_iff] at hn
    obtain ⟨n0, hn0, rfl⟩ := hn
    rcases hcnt n0 hn0 with h | h
    · left; rw [h1, h3]; omega
    · rcases hkeep h with h | h
      · exact Or.inr h
      · left; rw [h1, h]; simp
  | add tag mk he hk h1 h2 h3 =>
    refine ⟨hsing', hlim', by rw [h1]; exact hle, fun h => by rw [h1]; exact hroom (by rw [← h3]; exact h), ?_⟩
    intro n hn
    left
    rw [h1, (resting_iff hr).1 (hm tag mk he hk)]
    simp
  | drop h1 h2 h3 =>
    refine ⟨hsing', hlim', by rw [h1]; exact hle, fun h => by rw [h1]; exact hroom (by rw [← h3]; exact h), ?_⟩
    intro n hn
    rw [h2] at hn; cases hn
  | ended e rest rec he hch hk h1 h3 h2 =>
    refine ⟨hsing', hlim', by omega, fun h => by have := hroom (by rw [← h3]; exact h); omega, ?_⟩
    intro n' hn'
    rcases h2 with ⟨_, h2⟩ | ⟨n, n'', ha, hb', hc⟩
    · rw [h2] at hn'; cases hn'
    · rw [hb'] at hn'; cases hn'
      rcases hcnt n ha with h | h
      · left
        rw [h3]
        rcases hc with hc | ⟨hc, _⟩ <;> omega
      · rcases hkeep h with h | h
        · exact Or.inr h
        · rw [h] at h1; simp at h1

theorem low_init (env : Env) (k m : Nat) : Low k m (init env) := by
  have hn := Nobody.init env k
  refine ⟨⟨by rw [hn.looseN]; omega, ?_, ?_, ?_⟩, hn.copies, Nat.zero_le _, fun h => h.elim, ?_⟩
  · intro i t hi; exact absurd hi ((absent_iff.1 hn.unborn.absent).1 i t)
  · intro i t j u hi; exact absurd hi ((absent_iff.1 hn.unborn.absent).1 i t)
  · intro t ht; cases ht
  · intro n hn'; cases hn'

/-! ### The count is not too high -/

/-- The registered runs of `k` that have not ended are listed by its maintainer. -/
def Listed (k : Nat) (s : St) : Prop :=
  ∀ mt, mts s k = some mt → ∀ rec, .append k rec ∈ dispatchedTags s.log → .stopped k rec ∉ s.log →
    ∃ i ∈ mt.innerList, i.recordId = rec

/-- The same of one run. -/
def ListedRun (k : Nat) (rec : Int) (s : St) : Prop :=
  ∀ mt, mts s k = some mt → .append k rec ∈ dispatchedTags s.log → .stopped k rec ∉ s.log →
    ∃ i ∈ mt.innerList, i.recordId = rec

theorem dull_append {news log : List Obs} (h : ∀ o ∈ news, Dull o) {id : Nat} {rec : Int} :
    .append id rec ∈ dispatchedTags (news ++ log) ↔ .append id rec ∈ dispatchedTags log := by
  rw [mem_dispatchedTags, mem_dispatchedTags]
  refine exists_congr fun r => ?_
  rw [List.mem_append]
  exact ⟨fun hx => hx.elim (fun hx => absurd (h _ hx) (by simp [Dull])) (fun h => h), Or.inr⟩

theorem listedRun_step {env : Env} {k : Nat} {rec : Int} {s : St} {l : Label} {s' : St} (hr : Reachable env s)
    (hs : ListedRun k rec s) (hm : ∀ tag m, s.epc = .add3 tag m → m.taskId = k → l = .eNext → rec ∉ openRuns k s.log)
    (h : Act env s l s') : ListedRun k rec s' := by
  have hi := instStep hr h
  cases hi with
  | dull _ hsame news hl hd =>
    intro mt hmt h1 h2
    rw [hsame.mts] at hmt
    rw [hl] at h1 h2
    rw [dull_append hd] at h1
    rw [dull_stopped hd] at h2
    exact hs mt hmt h1 h2
  | miss kind id rc r hb hsame hl =>
    intro mt hmt h1 h2
    rw [hsame.mts] at hmt
    rw [hl] at h1 h2
    refine hs mt hmt ?_ (fun h => h2 (List.mem_cons_of_mem _ h))
    simp only [dispatchedTags] at h1
    cases kind <;> simpa [EndKind.tag] using h1
  | quiet kind id rc r hb hx hsame hl =>
    intro mt hmt h1 h2
    rw [hsame.mts] at hmt
    rw [hl] at h1 h2
    refine hs mt hmt ?_ (fun h => h2 (by simp [h]))
    simp only [dispatchedTags] at h1
    cases kind <;> simpa [EndKind.tag] using h1
  | dropped kind id rc r mt0 hb hm0 hd hmt0 hh hn hcs hq hch hnc hl =>
    intro mt hmt h1 h2
    rw [hmt0] at hmt
    split at hmt
    · cases hmt
    · rw [hl] at h1 h2
      refine hs mt hmt ?_ (fun h => h2 (by simp [h]))
      simp only [dispatchedTags] at h1
      cases kind <;> simpa [EndKind.tag] using h1
  | found kind id rc r mt0 a i b hb hm0 hd hil hi hmt0 hh hn hcs hq hch hnc hl =>
    intro mt hmt h1 h2
    rw [hmt0] at hmt
    rw [hl] at h1 h2
    have h3 : .append k rec ∈ dispatchedTags s.log := by
      simp only [dispatchedTags] at h1
      cases kind <;> simpa [EndKind.tag] using h1
    have h4 : .stopped k rec ∉ s.log := fun h => h2 (by simp [h])
    split at hmt
    · rename_i hk
      subst hk
      cases hmt
      obtain ⟨j, hj, hjr⟩ := hs mt0 hm0 h3 h4
      refine ⟨j, ?_, hjr⟩
      rw [hil] at hj
      simp only [List.mem_append, List.mem_cons] at hj ⊢
      rcases hj with hj | rfl | hj
      · exact Or.inl hj
      · exfalso
        apply h2
        rw [← hjr, hi]
        simp
      · exact Or.inr hj
    · exact hs mt hmt h3 h4
  | plain id box rest he hc hm0 hsame hl =>
    intro mt hmt h1 h2
    rw [hsame.mts] at hmt
    rw [hl] at h1 h2
    have hk : id ≠ k := by rintro rfl; rw [hm0] at hmt; cases hmt
    refine hs mt hmt ?_ (fun h => h2 (List.mem_cons_of_mem _ h))
    simp only [dispatchedTags, List.mem_append, List.mem_singleton, Tag.append.injEq] at h1
    rcases h1 with h1 | h1
    · exact h1
    · exact absurd h1.1.symm hk
  | nobody id box rest mt0 he hc hm0 hd hmt0 hh hn hcs hq hch hnc hl =>
    intro mt hmt h1 h2
    rw [hmt0] at hmt
    split at hmt
    · cases hmt
    · rename_i hk
      rw [hl] at h1 h2
      refine hs mt hmt ?_ (fun h => h2 (List.mem_cons_of_mem _ h))
      simp only [dispatchedTags, List.mem_append, List.mem_singleton, Tag.append.injEq] at h1
      rcases h1 with h1 | h1
      · exact h1
      · exact absurd h1.1 hk
  | newInst id box rest mt0 he hc hm0 hd hmt0 hh hn hcs hq hch hnc hl =>
    intro mt hmt h1 h2
    rw [hmt0] at hmt
    rw [hl] at h1 h2
    simp only [dispatchedTags, List.mem_append, List.mem_singleton, Tag.append.injEq] at h1
    have h4 : .stopped k rec ∉ s.log := fun h => h2 (List.mem_cons_of_mem _ h)
    split at hmt
    · rename_i hk
      subst hk
      cases hmt
      rcases h1 with h1 | h1
      · obtain ⟨j, hj, hjr⟩ := hs mt0 hm0 h1 h4
        exact ⟨j, List.mem_append_left _ hj, hjr⟩
      · exact ⟨_, List.mem_append_right _ List.mem_cons_self, h1.2.symm⟩
    · rename_i hk
      rcases h1 with h1 | h1
      · exact hs mt hmt h1 h4
      · exact absurd h1.1 hk
  | mark id new tag r ht hmt0 hh hn hcs hq hch hnc hl =>
    intro mt hmt h1 h2
    rw [hmt0] at hmt
    rw [hl] at h1 h2
    have h4 : .stopped k rec ∉ s.log := fun h => h2 (List.mem_cons_of_mem _ h)
    have h3 : .append k rec ∈ dispatchedTags s.log := by
      simp only [dispatchedTags, List.mem_append, List.mem_singleton] at h1
      rcases h1 with h1 | h1
      · exact h1
      · exfalso
        rcases ht with ⟨rfl, _⟩ | ⟨m, he, _, _⟩
        · cases h1
        · subst h1
          rcases add3Tag hr he with ⟨h, _⟩ | ⟨c, h, _⟩ <;> cases h
    split at hmt
    · rename_i hk
      subst hk
      rcases ht with ⟨_, rfl, _⟩ | ⟨m, he, hk, hnew, _⟩
      · cases hmt
      · exfalso
        obtain ⟨b, hb, rfl⟩ := ((traceOk hr).mem k rec).2 ⟨h3, h4⟩
        exact hm tag m he hk rfl (trace_open hr hb)
    · exact hs mt hmt h3 h4
  | refused t c hand he hmt0 hh hn hcs hq hch hnc hl =>
    intro mt hmt h1 h2
    rw [hmt0] at hmt
    rw [hl] at h1 h2
    exact hs mt hmt (by simpa [dispatchedTags] using h1) (fun h => h2 (List.mem_cons_of_mem _ h))
  | insert t hmt0 hh hn hcs hq hch hnc hl =>
    intro mt hmt h1 h2
    rw [hmt0] at hmt
    rw [hl] at h1 h2
    exact hs mt hmt (by simpa [dispatchedTags] using h1) (fun h => h2 (List.mem_cons_of_mem _ h))
  | deliver c i rest hheld ha hqu hmt0 hh hn hcs hq hch hnc hl =>
    intro mt hmt h1 h2
    rw [hmt0] at hmt
    rw [hl] at h1 h2
    exact hs mt hmt (by simpa [dispatchedTags] using h1) (fun h => h2 (List.mem_cons_of_mem _ h))
  | drop c hheld hmt0 hh hn hcs hq hch hnc hl =>
    intro mt hmt h1 h2
    rw [hmt0] at hmt
    rw [hl] at h1 h2
    exact hs mt hmt h1 h2

theorem listed_step {env : Env} {k : Nat} {s : St} {l : Label} {s' : St} (hr : Reachable env s)
    (hs : Listed k s) (hm : FreshMark k s) (h : Act env s l s') : Listed k s' := by
  intro mt hmt rec
  refine listedRun_step hr (fun mt hmt => hs mt hmt rec) ?_ h mt hmt
  intro tag m he hk _ hx
  rw [(resting_iff hr).1 (hm tag m he hk)] at hx
  cases hx

/-- A new mark counts nothing. -/
theorem add3_zero {env : Env} {s : St} (hr : Reachable env s) :
    ∀ tag m, s.epc = .add3 tag m → m.parallelRunnableNum = 0 := by
  refine Reachable.induct (fun s => ∀ tag m, s.epc = .add3 tag m → m.parallelRunnableNum = 0) ?_ ?_ s hr
  · intro tag m h; cases h
  · intro s l s' _ ih h
    cases h
    all_goals try (exact ih)
    case next_add2 => intro tag m h; cases h; rfl
    case next_add2_missing => intro tag m h; cases h; rfl
    all_goals (intro tag m h; first | (cases h; done) | (simp at h; done) | exact ih tag m (by simpa using h))

structure High (k : Nat) (s : St) : Prop where
  going : counting k s.tpc = 1 → openRuns k s.log ≠ []
  cnt : ∀ n, num k s = some n → n + counting k s.tpc ≤ (openRuns k s.log).length
  listed : Listed k s

theorem high_step {env : Env} {k : Nat} {s : St} {l : Label} {s' : St} (hr : Reachable env s) (hs : High k s)
    (hm : FreshMark k s) (hc : CountedFirst k s) (hk : ChainKept k s) (h : Act env s l s') : High k s' := by
  obtain ⟨h1, h2, h3⟩ := hs
  have h3' := listed_step hr h3 hm h
  have hp := parStep k hr h
  have hle := counting_le k s.tpc
  cases hp with
  | same _ a1 a2 a3 a4 => exact ⟨by rw [a1, a3]; exact h1, by rw [a1, a2, a3]; exact h2, h3'⟩
  | pass p t rec htpc htpc' hk hlt a1 a2 =>
    refine ⟨by rw [htpc']; simp [counting], ?_, h3'⟩
    intro n hn
    rw [a2] at hn
    have := h2 n hn
    rw [a1, htpc']
    simp only [counting]
    omega
  | start hsp rec a1 a2 a3 a4 =>
    refine ⟨by rw [a1]; simp, ?_, h3'⟩
    intro n hn
    rw [a2] at hn
    have := h2 n hn
    have : counting k s.tpc = 0 := by
      cases hq : s.tpc <;> simp [hq, spawning, counting] at hsp ⊢
    rw [a1, a3]
    simp; omega
  | lose _ hh hh' hw hch he a1 a2 a3 a4 =>
    refine ⟨by rw [a3]; simp, ?_, h3'⟩
    intro n hn
    rw [a2] at hn
    have := h2 n hn
    rw [a1, a3]; omega
  | count u hu a3 a4 a1 a2 =>
    refine ⟨by rw [a3]; simp, ?_, h3'⟩
    intro n hn
    rw [a2, Option.map_eq_some_iff] at hn
    obtain ⟨n0, hn0, rfl⟩ := hn
    have := h2 n0 hn0
    rw [a1, a3]; omega
  | add tag mk he hkk a1 a2 a3 =>
    have hz := (resting_iff hr).1 (hm tag mk he hkk)
    refine ⟨by rw [a1, a3]; exact h1, ?_, h3'⟩
    intro n hn
    rw [a2, add3_zero hr tag mk he] at hn
    cases hn
    rw [a1, a3, hz]
    have : counting k s.tpc ≠ 1 := fun h => h1 h hz
    simp; omega
  | drop a1 a2 a3 =>
    refine ⟨by rw [a1, a3]; exact h1, ?_, h3'⟩
    intro n hn
    rw [a2] at hn; cases hn
  | ended e rest rec he hch hke a1 a3 a2 =>
    have hz : counting k s.tpc = 0 := by
      have : ¬ Uncounted k s.tpc := fun hu => hc hu he e (by rw [hch]; rfl) hke
      rw [counting_uncounted] at this
      omega
    refine ⟨by rw [a3, hz]; simp, ?_, h3'⟩
    intro n' hn'
    rcases a2 with ⟨_, a2⟩ | ⟨n, n'', ha, hb', hcc⟩
    · rw [a2] at hn'; cases hn'
    · rw [hb'] at hn'; cases hn'
      have := h2 n ha
      rw [a3, hz]
      rcases hcc with hcc | ⟨_, m, mt, hf, hmt, hcc⟩
      · omega
      · exfalso
        rcases hcc with hcc | ⟨b, hb, hcc⟩
        · exact hk m mt hf hmt hcc
        · obtain ⟨x1, x2⟩ := ((traceOk hr).mem k b.recordId).1 ⟨b, hb, rfl⟩
          obtain ⟨i, hi, hir⟩ := h3 mt (by rw [mts_eq hf, hmt]) b.recordId x1 x2
          exact hcc i hi hir

theorem high_init (env : Env) (k : Nat) : High k (init env) :=
  ⟨fun h => absurd h (by simp [DelayTimer.init, counting]), fun n hn => (by cases hn), fun mt hmt => (by cases hmt)⟩

/-! ### Ids handed in once -/

/-- 1 if the event thread is adding `k`. -/
def addingN (k : Nat) : EPC → Nat
  | .add1 t _ _ => if t.taskId = k then 1 else 0
  | .add2 t _ _ _ _ => if t.taskId = k then 1 else 0
  | .add3 _ m => if m.taskId = k then 1 else 0
  | _ => 0

/-- The number of additions of `k` on their way. -/
def addsN (k : Nat) (s : St) : Nat := (chanAdds k s.chan).length + addingN k s.epc

/-- `k` has no mark and was never started. -/
structure Virgin (k : Nat) (s : St) : Prop where
  flag : s.flags k = none
  recs : startedRecsOf k s.log = []
  spawn : ¬ spawning k s.tpc

theorem addsN_step {env : Env} {k : Nat} {s : St} {l : Label} {s' : St} (hl : ¬ Brings k l) (h : Act env s l s') :
    addsN k s' ≤ addsN k s := by
  cases h
  case usend op => cases op <;> simp_all [addsN, push, UserOp.event, chanAdds, Brings]
  case uinsert t => simp_all [addsN, push, uInsert, chanAdds, Brings]
  case next_add1 t chain hand exec he hn => simp only [addsN, he]; exact Nat.le_refl _
  all_goals try (exact Nat.le_refl _)
  all_goals try (simp [addsN, addingN, push, chanAdds, *]; done)
  all_goals try (simp only [addsN, *]; rw [chanAdds_cons]; simp [addingN, chanAdds]; done)
  all_goals
    simp only [addsN, *]; rw [chanAdds_cons]; simp only [addingN, chanAdds]
    split <;> simp [*] <;> omega

theorem addsN_add3 {env : Env} {k : Nat} {s : St} {s' : St} {tag : Tag} {m : TaskMark} (he : s.epc = .add3 tag m)
    (hk : m.taskId = k) (h : Act env s .eNext s') : addsN k s' + 1 = addsN k s := by
  cases h
  case next_add3 tag' m' he' =>
    rw [he] at he'; cases he'
    simp [addsN, he, addingN, hk]
  all_goals (have hz := ‹s.epc = _›; have hy := hz.symm.trans he; cases hy)

theorem virgin_step {env : Env} {k m : Nat} {s : St} {l : Label} {s' : St} (hr : Reachable env s) (hs : Virgin k s)
    (hlim : Copies (HasLimit m) (HasLimit m) k s) (h : Act env s l s') :
    Virgin k s' ∨ ∃ tag m, s.epc = .add3 tag m ∧ m.taskId = k ∧ l = .eNext := by
  obtain ⟨h1, h2, h3⟩ := hs
  have hn : num k s = none := by simp [num, h1]
  have hnum : ∀ {x : St}, num k x = none → x.flags k = none := by
    intro x hx; simpa [num] using hx
  have hrecs : ¬ spawning k s.tpc → startedRecsOf k s'.log = [] := by
    intro hsp
    rcases log_cases h with ⟨n, hn, hmi, -⟩ | ⟨p, t, rec, box', rfl, hp, hp', hb, hn, hce⟩ | ⟨e'', hc', hn, he⟩ | ⟨u, now, n, rfl, hp, hc', hn⟩ | ⟨rec, r, rfl, hr, hn, hce⟩
    · rw [hn, List.eq_nil_iff_forall_not_mem]
      intro r hx
      rw [startedRecsOf_iff] at hx
      obtain ⟨a, b, c, hx⟩ := hx
      rcases List.mem_append.1 hx with hx | hx
      · exact hmi _ hx
      · have : r ∈ startedRecsOf k s.log := startedRecsOf_iff.2 ⟨a, b, c, hx⟩
        rw [h2] at this; cases this
    · rw [hp] at hsp
      rw [hn]
      simp only [startedRecsOf]
      rw [if_neg (show ¬ t.taskId = k from hsp)]
      exact h2
    · rw [hn]; exact h2
    · rw [hn]; exact h2
    · rw [hn]; exact h2
  have hp := parStep k hr h
  cases hp with
  | same _ a1 a2 a3 a4 => exact Or.inl ⟨hnum (by rw [a2, hn]), hrecs h3, fun h => h3 (a4 h)⟩
  | pass p t rec htpc htpc' hk hlt a1 a2 =>
    exfalso
    have hmax : t.maximumParallelRunnableNum = some m := hlim.held t (by rw [htpc]; simp [heldTok, hk])
    obtain ⟨n, hx, _⟩ := hlt m hmax
    rw [hn] at hx; cases hx
  | start hsp => exact absurd hsp h3
  | lose _ hh hh' hw hch he a1 a2 a3 a4 => exact Or.inl ⟨hnum (by rw [a2, hn]), hrecs h3, a4⟩
  | count u hu a3 a4 a1 a2 => exact Or.inl ⟨hnum (by rw [a2, hn]; rfl), hrecs h3, a4⟩
  | add tag mk he hkk a1 a2 a3 => exact Or.inr ⟨tag, mk, he, hkk, rfl⟩
  | drop a1 a2 a3 => exact Or.inl ⟨hnum a2, hrecs h3, by rw [a3]; exact h3⟩
  | ended e rest rec he hch hke a1 a3 a2 =>
    rcases a2 with ⟨_, a2⟩ | ⟨n, n'', ha, _⟩
    · exact Or.inl ⟨hnum a2, hrecs h3, by rw [a3]; exact h3⟩
    · rw [hn] at ha; cases ha

/-- An id handed in once: it has no mark until it is recorded, and it is recorded once. -/
structure OnceIn (k m n : Nat) (s : St) : Prop where
  lim : Copies (HasLimit m) (HasLimit m) k s
  state : (addsN k s ≤ n ∧ Virgin k s) ∨ addsN k s = 0

theorem onceIn_step {env : Env} {k m : Nat} {s : St} {l : Label} {s' : St} {n : Nat} (hr : Reachable env s)
    (hn1 : n ≤ 1) (hs : OnceIn k m n s) (hl : ¬ Brings k l) (h : Act env s l s') : OnceIn k m n s' := by
  obtain ⟨hlim, hst⟩ := hs
  have hlim' : Copies (HasLimit m) (HasLimit m) k s' :=
    copies_step (fun _ _ h => h) (fun _ h => h) (fun t t' ht hd => (down_limit hd).trans ht) (fun _ h => h)
      (by rw [broughtBy_nil hl]; simp) hlim h
  have h1 := addsN_step hl h
  refine ⟨hlim', ?_⟩
  rcases hst with ⟨h2, h3⟩ | h2
  · rcases virgin_step hr h3 hlim h with h4 | ⟨tag, mk, he, hk, rfl⟩
    · exact Or.inl ⟨by omega, h4⟩
    · have := addsN_add3 he hk h
      right; omega
  · right; omega

theorem OnceIn.freshMark {env : Env} {k m n : Nat} {s : St} (hr : Reachable env s) (hs : OnceIn k m n s) :
    FreshMark k s := by
  intro tag mk he hk
  rw [resting_iff hr]
  rcases hs.state with ⟨_, h⟩ | h
  · simp [openRuns, h.recs]
  · simp [addsN, he, addingN, hk] at h

end DelayTimer
