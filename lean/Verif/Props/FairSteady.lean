import Verif.Props.FairLimit
import Verif.Proofs.Body

/-!
An execution without end in which a limited task is started for ever: the hypotheses of `C76_forever_partial` can be met.
-/

namespace DelayTimer

open Spec

/-! ## Every run reports its completion at most once -/

theorem finish_once {env : Env} {s : St} (hr : Reachable env s) (id : Nat) (rec : Int) :
    (queuedTags s.log).count (.finish id rec) ≤ 1 := by
  refine hr.induct (fun s => (queuedTags s.log).count (.finish id rec) ≤ 1) (by simp [init, queuedTags]) ?_
  intro s l s' hre hs h
  have hone : ∀ t : Tag, t ≠ .finish id rec → s'.log = .queued t :: s.log → (queuedTags s'.log).count (.finish id rec) ≤ 1 := by
    intro t ht hl
    rw [hl]
    simp only [queuedTags, List.count_append]
    rw [List.count_eq_zero.2 (fun h => ht (List.mem_singleton.1 h).symm)]
    exact hs
  rcases log_cases h with ⟨news, hn, hmi, _⟩ | ⟨_, _, _, _, _, _, _, _, hn, _⟩ | ⟨e, _, hn, hc⟩ | ⟨u, _, _, _, _, _, hn⟩ | ⟨_, _, _, _, hn, _⟩
  · rw [hn]
    rw [queuedTags_minor hmi]; exact hs
  · rw [hn]; exact hs
  · by_cases he : e.tag = .finish id rec
    · rcases hc with ⟨p, t, box, _, _, rfl⟩ | ⟨rec', now, r, rfl, hrt, _, _, rfl⟩ | ⟨op, _, rfl⟩ | ⟨t, c, _, rfl⟩ | ⟨w, i, _, rfl⟩
      · cases he
      · simp only [TimerEvent.tag, Tag.finish.injEq] at he
        obtain ⟨rfl, rfl⟩ := he
        cases h with
        | finish _ _ r' hr' hb hg hf =>
          rw [hrt] at hr'; cases hr'
          have hz : (queuedTags s.log).count (.finish r.taskId rec') = 0 := by
            refine List.count_eq_zero.2 fun hm => ?_
            obtain ⟨q, h1, _, h3⟩ := (runLog hre).reported _ _ (mem_queuedTags.1 hm)
            rw [hrt] at h1; cases h1
            rw [hf] at h3; cases h3
          rw [hn]
          simp only [queuedTags, List.count_append, hz]
          simp [TimerEvent.tag]
      · cases op <;> cases he
      · cases he
      · cases he
    · exact hone _ he hn
  · rw [hn]
    simp only [queuedTags, List.count_append]
    rw [show List.count (.finish id rec) [Tag.timeout u.taskId u.recordId] = 0 from List.count_eq_zero.2 (by simp)]
    exact hs
  · rw [hn]; exact hs

/-! ## Turns, with something tried at every other moment -/

/-- At even steps `y` is tried; at the odd ones the event thread, the scheduler and the reports of the runs take turns. -/
def Turn2 (y : St → Label → Prop) (n : Nat) (s : St) (l : Label) : Prop :=
  if n % 2 = 0 then y s l else (Nat.unpair (n / 2)).1 ≠ 2 ∧ Tried (fun _ _ => False) n (Nat.unpair (n / 2)).1 l

noncomputable def turns2 (env : Env) (y : St → Label → Prop) (s : St) : Nat → St
  | 0 => s
  | n + 1 => match pick env (Turn2 y n (turns2 env y s n)) (turns2 env y s n) with
    | some p => p.2
    | none => turns2 env y s n

noncomputable def turnLab2 (env : Env) (y : St → Label → Prop) (s : St) (n : Nat) : Option Label :=
  (pick env (Turn2 y n (turns2 env y s n)) (turns2 env y s n)).map Prod.fst

/-- What the turns consist of. -/
def Plain (l : Label) : Prop := ByEvents l = true ∨ (ByScheduler l = true ∧ l ≠ .tSpawn true) ∨ ∃ rec, Reports rec l

/-- A continuation in which the event thread, the scheduler and the reports are not held up, and `y` happens if it is
possible again and again. -/
theorem steady_course {env : Env} (y : St → Label → Prop) {pre : List Label} {s : St} (h : run env (init env) pre = some s) :
    ∃ c : Course env, c.upTo pre.length = pre ∧ c.st pre.length = s ∧ c.WeaklyFair (ByEvents · = true) ∧
      c.WeaklyFair (ByScheduler · = true) ∧ c.RunsReport ∧
      (∀ n, (∀ j, ∃ m, j ≤ m ∧ Enabled env (y (c.st m)) (c.st m)) → ∃ m l, n ≤ m ∧ y (c.st m) l ∧ c.lab m = some l) ∧
      ∀ n l, pre.length ≤ n → c.lab n = some l → y (c.st n) l ∨ Plain l := by
  have ho : Onwards env s (turns2 env y s) (turnLab2 env y s) := by
    refine ⟨rfl, fun n => ?_⟩
    unfold turnLab2
    cases h : pick env (Turn2 y n (turns2 env y s n)) (turns2 env y s n) with
    | none => simp only [Option.map_none, turns2, h]
    | some p => simp only [Option.map_some, turns2, h]; exact (pick_some h).2
  have taken : ∀ n, Enabled env (Turn2 y n (turns2 env y s n)) (turns2 env y s n) →
      ∃ l, Turn2 y n (turns2 env y s n) l ∧ turnLab2 env y s n = some l := by
    intro n h
    unfold turnLab2
    cases hp : pick env (Turn2 y n (turns2 env y s n)) (turns2 env y s n) with
    | none => exact absurd h (pick_none hp)
    | some p => exact ⟨p.1, (pick_some hp).1, rfl⟩
  have oflab : ∀ n l, turnLab2 env y s n = some l → Turn2 y n (turns2 env y s n) l := by
    intro n l h
    unfold turnLab2 at h
    cases hp : pick env (Turn2 y n (turns2 env y s n)) (turns2 env y s n) with
    | none => rw [hp] at h; cases h
    | some p => rw [hp] at h; cases h; exact (pick_some hp).1
  obtain ⟨c, h1, h2, h3⟩ := continued h ho
  have weak : ∀ (A : Label → Prop) (j : Nat), j ≠ 2 → (∀ k l, Tried (fun _ _ => False) k j l → A l) →
      (∀ k s, Enabled env A s → Enabled env (Tried (fun _ _ => False) k j) s) → c.WeaklyFair A := by
    intro A j hj2 ha hb n hen
    obtain ⟨k, hk1, hk2, hk3⟩ := turn_comes j n
    have he : Enabled env (Turn2 y k (turns2 env y s k)) (turns2 env y s k) := by
      rw [← h2 k]
      obtain ⟨l, s', h4, h5⟩ := hb k _ (hen (pre.length + k) (by omega))
      exact ⟨l, s', by rw [Turn2, if_neg (by omega), hk3]; exact ⟨hj2, h4⟩, h5⟩
    obtain ⟨l, hl, hlab⟩ := taken k he
    rw [Turn2, if_neg (by omega), hk3] at hl
    exact ⟨pre.length + k, by omega, l, ha k l hl.2, by rw [h3]; exact hlab⟩
  refine ⟨c, h1, by have := h2 0; simpa [turns2] using this, ?_, ?_, ?_, ?_, ?_⟩
  · exact weak _ 0 (by omega) (fun k l h => h) fun k s h => h
  · exact weak _ 1 (by omega) (fun k l h => h.1) fun k s h => tried_scheduler k h
  · intro rec n hen
    exact weak (Reports rec) (turnOf rec) (by unfold turnOf; split <;> omega) (fun k l h => (tried_reports k rec l).1 h)
      (fun k s ⟨l, s', h4, h5⟩ => ⟨l, s', (tried_reports k rec l).2 h4, h5⟩) n fun m hm => (hen m hm).1
  · intro n hen
    obtain ⟨m, hm, he⟩ := hen (n + pre.length + 1)
    obtain ⟨k, rfl⟩ : ∃ k, m = pre.length + k := ⟨m - pre.length, by omega⟩
    have even : ∀ k, k % 2 = 0 → Enabled env (y (c.st (pre.length + k))) (c.st (pre.length + k)) →
        ∃ l, y (c.st (pre.length + k)) l ∧ c.lab (pre.length + k) = some l := by
      intro k hk he
      rw [h2 k] at he ⊢
      obtain ⟨l, hl, hlab⟩ := taken k (by
        obtain ⟨l, s', h4, h5⟩ := he
        exact ⟨l, s', by rw [Turn2, if_pos hk]; exact h4, h5⟩)
      rw [Turn2, if_pos hk] at hl
      exact ⟨l, hl, by rw [h3]; exact hlab⟩
    rcases Nat.mod_two_eq_zero_or_one k with hk | hk
    · obtain ⟨l, h4, h5⟩ := even k hk he
      exact ⟨_, l, by omega, h4, h5⟩
    · obtain ⟨i, rfl⟩ : ∃ i, k = i + 1 := ⟨k - 1, by omega⟩
      cases hlab : c.lab (pre.length + i) with
      | none =>
        have hsame := course_rest c hlab
        rw [show pre.length + (i + 1) = pre.length + i + 1 by omega, hsame] at he
        obtain ⟨l, h4, h5⟩ := even i (by omega) he
        exact ⟨_, l, by omega, h4, h5⟩
      | some l =>
        have := oflab i l (by rw [← h3]; exact hlab)
        rw [Turn2, if_pos (by omega), ← h2 i] at this
        exact ⟨_, l, by omega, this, hlab⟩
  · intro n l hn hlab
    obtain ⟨k, rfl⟩ : ∃ k, n = pre.length + k := ⟨n - pre.length, by omega⟩
    rw [h3] at hlab
    have ht := oflab k l hlab
    rw [← h2 k] at ht
    unfold Turn2 at ht
    split at ht
    · exact Or.inl ht
    · right
      revert ht
      generalize (Nat.unpair (k / 2)).1 = j
      rintro ⟨hj, ht⟩
      match j, hj, ht with
      | 0, _, ht => exact Or.inl ht
      | 1, _, ht => exact Or.inr (Or.inl ht)
      | j + 3, _, ht =>
        simp only [Tried] at ht
        split at ht
        · exact Or.inr (Or.inr ⟨_, ht⟩)
        split at ht
        · exact Or.inr (Or.inr ⟨_, ht⟩)
        · exact ht.elim

end DelayTimer

namespace DelayTimer.Ex

open Spec

/-- The bodies of task 1 end, one at a time, while the scheduler is between two iterations. -/
def Leisure (s : St) (l : Label) : Prop := s.tpc = .head ∧ ∃ rec r, l = .rBody rec ∧ s.rt rec = some r ∧ r.taskId = 1

/-- The scheduler is about to start, or to count, a run of task 1. -/
def Starting (s : St) : Prop := spawning 1 s.tpc ∨ counting 1 s.tpc = 1

/-- No report of a run of task 1 is under way or due. -/
structure NoReports (s : St) : Prop where
  chan : ∀ e ∈ s.chan, ¬ EventEnds 1 e
  due : ∀ rec r, s.rt rec = some r → r.taskId = 1 → r.bodyDone = true → r.finishSent = true

/-- Only reports end runs. -/
def OnlyReports (s : St) : Prop := ∀ t ∈ queuedTags s.log, (∀ id rec, t ≠ .cancel id rec) ∧ ∀ id rec, t ≠ .timeout id rec

theorem onlyReports_step {s s' : St} {l : Label} (hs : OnlyReports s) (hl : Leisure s l ∨ Plain l) (h : Act env0 s l s') :
    OnlyReports s' := by
  unfold OnlyReports at *
  rcases log_cases h with ⟨news, hn, hmi, _⟩ | ⟨_, _, _, _, _, _, _, _, hn, _⟩ | ⟨e, _, hn, hc⟩ | ⟨u, _, _, rfl, _, _, hn⟩ | ⟨_, _, _, _, hn, _⟩
  · rw [hn, queuedTags_minor hmi]; exact hs
  · rw [hn]; exact hs
  · rw [hn]
    intro t ht
    rcases List.mem_append.1 ht with ht | ht
    · exact hs t ht
    · rw [List.mem_singleton.1 ht]
      rcases hc with ⟨p, t, box, _, _, rfl⟩ | ⟨rec', now, r, rfl, hrt, _, _, rfl⟩ | ⟨op, rfl, rfl⟩ | ⟨t, c, rfl, rfl⟩ | ⟨w, i, rfl, rfl⟩
      · exact ⟨by simp [TimerEvent.tag], by simp [TimerEvent.tag]⟩
      · exact ⟨by simp [TimerEvent.tag], by simp [TimerEvent.tag]⟩
      all_goals
        rcases hl with ⟨_, _, _, h, _⟩ | h | ⟨h, _⟩ | ⟨_, _, h⟩ <;> cases h
  · rcases hl with ⟨_, _, _, h, _⟩ | h | ⟨h, _⟩ | ⟨_, _, h⟩ <;> cases h
  · rw [hn]; exact hs

/-- A stopped run has been reported. -/
theorem stopped_reported {s : St} (hr : Reachable env0 s) (ho : OnlyReports s) {rec : Int} (h : .stopped 1 rec ∈ s.log) :
    .finish 1 rec ∈ dispatchedTags s.log := by
  obtain ⟨l1, l2, tag, r, h1, h2, _⟩ := (repOk hr).ended _ _ |>.2 h
  have h3 : tag ∈ dispatchedTags s.log := mem_dispatchedTags.2 ⟨r, by rw [h1]; simp⟩
  have h4 := ho tag (dispatched_queued hr h3)
  simp only [endTags, List.mem_cons, List.not_mem_nil, or_false] at h2
  rcases h2 with rfl | rfl | rfl
  · exact absurd rfl (h4.1 _ _)
  · exact absurd rfl (h4.2 _ _)
  · exact h3

theorem idle_noReports {s : St} (hr : Reachable env0 s) (ho : OnlyReports s) (hz : openRuns 1 s.log = []) : NoReports s := by
  have hst : ∀ rec r, s.rt rec = some r → r.taskId = 1 → .finish 1 rec ∈ dispatchedTags s.log := by
    intro rec r h1 h2
    refine stopped_reported hr ho (Classical.byContradiction fun h3 => ?_)
    obtain ⟨n, ts, h4⟩ := ((rtOk hr).rt rec r h1).1
    rw [h2] at h4
    have := mem_openRuns.2 ⟨startedRecsOf_iff.2 ⟨_, _, _, h4⟩, h3⟩
    rw [hz] at this; cases this
  constructor
  · intro e he hends
    have hq : e.tag ∈ queuedTags s.log := by
      rw [fifo hr]; exact List.mem_append_right _ (List.mem_map_of_mem he)
    cases e <;> try (exact hends.elim)
    · exact absurd rfl ((ho _ hq).1 _ _)
    · exact absurd rfl ((ho _ hq).2 _ _)
    · rename_i b
      have hb : b.taskId = 1 := hends
      obtain ⟨r, h1, h2, h3⟩ := (runLog hr).reported _ _ (mem_queuedTags.1 hq)
      have h4 := hst b.recordId r h1 (h2.trans hb)
      have h5 := finish_once hr 1 b.recordId
      rw [fifo hr, List.count_append, List.count_append] at h5
      have h6 := List.count_pos_iff.2 h4
      have h7 : 0 < (s.chan.map TimerEvent.tag).count (.finish 1 b.recordId) :=
        List.count_pos_iff.2 (List.mem_map.2 ⟨_, he, by simp [TimerEvent.tag, hb]⟩)
      omega
  · intro rec r h1 h2 _
    obtain ⟨q, h3, _, h4⟩ := (runLog hr).reported _ _ (mem_queuedTags.1 (dispatched_queued hr (hst rec r h1 h2)))
    rw [h1] at h3; cases h3
    exact h4

theorem steady_step {s s' : St} {l : Label} (hr : Reachable env0 s) (hlow : Low 1 1 s) (ho : OnlyReports s)
    (hs : Starting s → NoReports s) (hl : Leisure s l ∨ Plain l) (h : Act env0 s l s') : Starting s' → NoReports s' := by
  intro hst
  -- it was so before, or nothing is open
  have hbefore : Starting s ∨ openRuns 1 s.log = [] := by
    cases parStep 1 hr h with
    | same _ a1 a2 a3 a4 => exact Or.inl (hst.imp a4 fun hc => by rw [← a3]; exact hc)
    | pass p t rec htpc htpc' hk hlt a1 a2 =>
      right
      have hlim : t.maximumParallelRunnableNum = some 1 := hlow.lim.held t (by rw [htpc]; simp [heldTok, hk])
      obtain ⟨n, e1, e2⟩ := hlt 1 hlim
      rcases hlow.cnt n e1 with e3 | e3
      · rw [htpc] at e3
        simp only [counting] at e3
        exact List.length_eq_zero_iff.1 (by omega)
      · exact absurd e3.tpc (by rw [htpc]; simp [tpcTok, hk])
    | start hsp rec a1 a2 a3 a4 => exact Or.inl (Or.inl hsp)
    | lose _ b1 b2 b3 b4 b5 a1 a2 a3 a4 => rcases hst with h1 | h1
                                           · exact absurd h1 a4
                                           · rw [a3] at h1; cases h1
    | count u hu a3 a4 a1 a2 => rcases hst with h1 | h1
                                · exact absurd h1 a4
                                · rw [a3] at h1; cases h1
    | add tag mk he hk a1 a2 a3 => exact Or.inl (by rw [Starting, ← a3]; exact hst)
    | drop a1 a2 a3 => exact Or.inl (by rw [Starting, ← a3]; exact hst)
    | ended e rest rec he hch hk a1 a2 a3 => exact Or.inl (by rw [Starting, ← a2]; exact hst)
  have hno : NoReports s := hbefore.elim hs (idle_noReports hr ho)
  obtain ⟨h1, h2⟩ := hno
  have hnl : ∀ rec, l ≠ .rPanic rec := by
    rintro rec rfl
    rcases hl with ⟨_, _, _, h, _⟩ | h | ⟨h, _⟩ | ⟨_, _, h⟩ <;> cases h
  have hbody : ∀ rec, l = .rBody rec → s.tpc = .head := by
    rintro rec rfl
    rcases hl with ⟨h, _⟩ | h | ⟨h, _⟩ | ⟨_, _, h⟩
    · exact h
    all_goals cases h
  have hplain : Leisure s l ∨ Plain l := hl
  have hrest : ∀ {e : TimerEvent} {rest : List TimerEvent}, s.chan = e :: rest → ∀ x ∈ rest, ¬ EventEnds 1 x :=
    fun hc x hx => h1 x (by rw [hc]; exact List.mem_cons_of_mem _ hx)
  have gated : ∀ (x : Int) {g : Int → Option RtInst}, g = setI s.rt x ((s.rt x).map (fun r => { r with gate := true })) →
      ∀ rec r, g rec = some r → r.taskId = 1 → r.bodyDone = true → r.finishSent = true := by
    rintro x g rfl rec r hrt hid hb
    rw [setI_apply] at hrt
    split at hrt
    · rename_i e; subst e
      cases hq : s.rt rec with
      | none => rw [hq] at hrt; cases hrt
      | some q => rw [hq] at hrt; cases hrt; exact h2 rec q hq hid hb
    · exact h2 rec r hrt hid hb
  cases h
  all_goals try (exact ⟨h1, h2⟩)
  all_goals try (exact absurd rfl (hnl _))
  all_goals try (rcases hl with ⟨_, _, _, h, _⟩ | h | ⟨h, _⟩ | ⟨_, _, h⟩ <;> cases h; done)
  case body rec r hrt hb hlost =>
    have hh := hbody rec rfl
    rcases hst with h3 | h3
    · exact absurd h3 (by simp [hh, spawning])
    · exact absurd h3 (by simp [hh, counting])
  case spawn pending t rec hp =>
    refine ⟨h1, fun x r hrt hid hb => ?_⟩
    dsimp only at hrt
    rw [setI_apply] at hrt
    split at hrt
    · cases hrt; cases hb
    · exact h2 x r hrt hid hb
  case append pending t box hp =>
    refine ⟨fun x hx => ?_, h2⟩
    rcases List.mem_append.1 hx with hx | hx
    · exact h1 x hx
    · rw [List.mem_singleton.1 hx]; exact id
  case finish rec now r hrt hb hg hf =>
    have h3 : r.taskId ≠ 1 := fun h => by have := h2 rec r hrt h hb; rw [hf] at this; cases this
    constructor
    · intro x hx
      rcases List.mem_append.1 hx with hx | hx
      · exact h1 x hx
      · rw [List.mem_singleton.1 hx]; exact h3
    · intro x q hq hid hb'
      dsimp only at hq
      rw [setI_apply] at hq
      split at hq
      · cases hq; rfl
      · exact h2 x q hq hid hb'
  case gate_panic p t rec hp hd =>
    exact ⟨h1, gated rec rfl⟩
  case gate_again p t t' rec hp hd =>
    exact ⟨h1, gated rec rfl⟩
  case gate_last p t t' rec hp hd =>
    exact ⟨h1, gated rec rfl⟩
  all_goals try (refine ⟨fun x hx => hrest ‹s.chan = _› x ?_, ?_⟩ <;> first | simpa using hx | simpa using h2)
  all_goals (refine ⟨?_, ?_⟩ <;> first | simpa using h1 | simpa using h2)

/-- No run is lost. -/
theorem kept_step {s s' : St} {l : Label} (hs : ∀ rec r, s.rt rec = some r → r.lost = false) (hl : ∀ rec, l ≠ .rPanic rec)
    (h : Act env0 s l s') : ∀ rec r, s'.rt rec = some r → r.lost = false := by
  intro rec r hrt
  by_cases h1 : ∃ x, l = .rBody x
  · obtain ⟨x, rfl⟩ := h1
    cases h with
    | body _ q hq hb hlo =>
      dsimp only at hrt
      rw [setI_apply] at hrt
      split at hrt
      · cases hrt; exact hlo
      · exact hs rec r hrt
  by_cases h2 : l = .tSpawn false
  · subst h2
    cases h with
    | spawn p t x hp =>
      dsimp only at hrt
      rw [setI_apply] at hrt
      split at hrt
      · cases hrt; rfl
      · exact hs rec r hrt
  have h3 := (base_quiet h (fun x hx => h1 ⟨x, hx⟩) hl h2).2 rec
  rw [hrt] at h3
  cases hq : s.rt rec with
  | none => rw [hq] at h3; cases h3
  | some q =>
    rw [hq] at h3
    simp only [Option.map_some, Option.some.injEq, RtInst.key, Prod.mk.injEq] at h3
    rw [h3.2.2.2]; exact hs rec q hq

/-- The scheduler comes to the end of an iteration again and again. -/
theorem head_comes {env : Env} (c : Course env) (hf : c.WeaklyFair (ByScheduler · = true)) (ht : c.Turning) (n : Nat) :
    c.Comes n fun s => s.tpc = .head := by
  obtain ⟨m, hm, h⟩ := one_tick c hf ht n
  refine Classical.byContradiction fun hno => ?_
  have h2 : ∀ j, n ≤ j → (c.st j).ticks = (c.st n).ticks := by
    refine course_keeps c (fun s => s.ticks = (c.st n).ticks) rfl ?_
    intro j l hj hlab hk
    rcases ticks_step (step_act (course_step c hlab)) with ⟨_, h⟩ | ⟨h3, h⟩
    · rw [h]; exact hk
    · subst h3
      have ha := step_act (course_step c hlab)
      refine absurd ⟨j + 1, by omega, ?_⟩ hno
      generalize c.st (j + 1) = s' at ha
      cases ha
      rfl
  have := h2 m hm
  have h' : (c.st n).ticks < (c.st m).ticks := h
  omega

/-- C76, `C76_forever_partial`: its hypotheses are met. Task 1 has a limit of one; its bodies end one after the other, while the
scheduler is between two iterations; nothing else is asked of the timer. -/
example : ∃ c : Course env0, c.WeaklyFair (ByScheduler · = true) ∧ c.Turning ∧ c.lab 0 = some (.uSend (.add slow)) ∧
    HandsIn slow (.uSend (.add slow)) ∧ slow.taskId = 1 ∧ slow.valid = true ∧ slow.maximumParallelRunnableNum = some 1 ∧
    (∀ j, alarm j slow ≠ none) ∧ runsLeft slow = none ∧ (∀ j l, j ≠ 0 → c.lab j = some l → ¬ Touches 1 l) ∧
    Spec.Settled 1 (c.st 5) ∧ attempts 1 (c.st 5).log = [] ∧ (∀ j, CountedFirst 1 (c.st j) ∧ ChainKept 1 (c.st j)) ∧
    (∀ n, ∀ r ∈ startedRecsOf 1 (c.st n).log, c.Comes n fun s => RunEnded 1 r s.log) := by
  obtain ⟨c, h1, h2, hfe, hfs, hfr, hy, h5⟩ := steady_course Leisure (pre := add slow) (play_run (env := env0) (by rfl))
  have h1' : c.upTo 5 = .uSend (.add slow) :: [.eRecv, .eNext, .eNext, .eNext] := h1
  have hlabs : ∀ n l, 5 ≤ n → c.lab n = some l → ¬ Touches 1 l ∧ l ≠ .uSend .stop ∧ l ≠ .tSpawn true ∧
      (∀ t, l ≠ .uInsert t) ∧ ∀ rec, l ≠ .rPanic rec := by
    intro n l hn hlab
    rcases h5 n l hn hlab with ⟨_, _, _, rfl, _⟩ | h | ⟨h, h'⟩ | ⟨_, _, rfl⟩
    · exact ⟨id, by simp, by simp, by simp, by simp⟩
    · cases l <;> first | cases h; done | exact ⟨id, by simp, by simp, by simp, by simp⟩
    · cases l <;> first | cases h; done | exact ⟨id, by simp, h', by simp, by simp⟩
    · exact ⟨id, by simp, by simp, by simp, by simp⟩
  obtain ⟨hl, ht, h0, hno⟩ := slow_course (x := fun _ l => ¬ Touches 1 l ∧ l ≠ .uSend .stop ∧ l ≠ .tSpawn true)
    (pre := [.eRecv, .eNext, .eNext, .eNext]) (fun _ _ h => h) (harmless_of (by decide)) h1'
    (fun n l hn hlab => Or.inr ⟨0, (hlabs n l hn hlab).1, (hlabs n l hn hlab).2.1, (hlabs n l hn hlab).2.2.1⟩)
  obtain ⟨g5, g6⟩ := added_settled (pre := [.eRecv, .eNext, .eNext, .eNext]) h1' (by decide) rfl
  have hlow : ∀ j, 5 ≤ j → Low 1 1 (c.st j) := by
    intro j hj
    obtain ⟨ls, e1, _, e2⟩ := between_mem c (n := 5) (m := j) (P := fun l => ¬ Touches 1 l) hj
      (fun i l hi h => (hlabs i l hi h).1)
    have honce : OnlyOnce 1 slow (c.upTo j) := by
      refine ⟨rfl, [], .uSend (.add slow), [.eRecv, .eNext, .eNext, .eNext] ++ ls, by rw [e2, h1']; rfl, Or.inl rfl, by simp, ?_⟩
      intro l hl hb
      rcases List.mem_append.1 hl with hl | hl
      · exact (harmless_of (by decide) l hl).1 (brings_touches hb)
      · exact e1 l hl (brings_touches hb)
    obtain ⟨hfr, hfc⟩ := once_states (env := env0) honce rfl
    exact low_run _ (Reachable.init env0) (low_init env0 1 1) hfr hfc (by rw [once_handed honce]; simp [HasLimit]; rfl) (course_run c j)
  have hinv : ∀ j, 5 ≤ j → OnlyReports (c.st j) ∧ (Starting (c.st j) → NoReports (c.st j)) ∧
      ∀ rec r, (c.st j).rt rec = some r → r.lost = false := by
    refine course_keeps c (fun s => OnlyReports s ∧ (Starting s → NoReports s) ∧ ∀ rec r, s.rt rec = some r → r.lost = false) ?_ ?_
    · rw [show c.st 5 = _ from h2]
      refine ⟨?_, ?_, ?_⟩
      · intro t ht
        rw [show queuedTags (play env0 (add slow)).log = [.add 1] by decide +kernel] at ht
        rw [List.mem_singleton.1 ht]
        exact ⟨by simp, by simp⟩
      · intro hs
        rw [Starting, show (play env0 (add slow)).tpc = .head from rfl] at hs
        rcases hs with hs | hs
        · exact hs.elim
        · cases hs
      · intro rec r hr
        rw [show (play env0 (add slow)).rt rec = none from rfl] at hr; cases hr
    · intro j l hj hlab ⟨i1, i2, i3⟩
      have ha := step_act (course_step c hlab)
      exact ⟨onlyReports_step i1 (h5 j l hj hlab) ha, steady_step (course_reach c j) (hlow j hj) i1 i2 (h5 j l hj hlab) ha,
        kept_step i3 (hlabs j l hj hlab).2.2.2.2 ha⟩
  refine ⟨c, hfs, ht, h0, Or.inl rfl, rfl, rfl, rfl, slow_alarms, rfl, hno, g5, g6, ?_, ?_⟩
  · intro j
    constructor
    · by_cases hj : 5 ≤ j
      · intro hu _ e he hends
        exact ((hinv j hj).2.1 (Or.inr (counting_uncounted.1 hu))).chan e (List.mem_of_mem_head? he) hends
      · obtain ⟨ls, e1, _⟩ := course_between c (n := j) (m := 5) (by omega)
        exact throughout_of (f := countedFirst 1) countedFirst_of (add slow) _ (by decide +kernel) _ ls _ (h1.symm.trans e1) (course_run c j)
    · refine chainKept_added (course_run c j) fun t ht => ?_
      obtain ⟨i, _, hi⟩ := (mem_upTo c j).1 ht
      by_cases h6 : 5 ≤ i
      · exact absurd rfl ((hlabs i _ h6 hi).2.2.2.1 t)
      · have : .uInsert t ∈ c.upTo 5 := (mem_upTo c 5).2 ⟨i, by omega, hi⟩
        rw [h1'] at this
        simp at this
  · intro n r hr
    refine Classical.byContradiction fun hnever => ?_
    obtain ⟨rtn, k, ts, hst⟩ := startedRecsOf_iff.1 hr
    have hnb : ∀ m, .bodyEnded 1 r ∉ (c.st m).log := by
      intro m hb
      obtain ⟨j, hj, h⟩ := C73_reported c hfe hfs hfr hl (fun n => (course_turns c ht n).2.2.1)
        (n := max n m) (course_log c (Nat.le_max_right _ _) hb)
      exact hnever ⟨j, by omega, h⟩
    have hundone : ∀ m, n + 5 ≤ m → ∃ q, (c.st m).rt r = some q ∧ q.taskId = 1 ∧ q.bodyDone = false ∧ q.lost = false := by
      intro m hm
      obtain ⟨q, e1, e2, _⟩ := (runLog (course_reach c m)).started _ _ _ _ _ (course_log c (by omega) hst)
      refine ⟨q, e1, e2, ?_, (hinv m (by omega)).2.2 r q e1⟩
      cases hb : q.bodyDone with
      | false => rfl
      | true =>
        rcases ((rtOk (course_reach c m)).rt r q e1).2.2 hb with h | ⟨_, _, _, _, _, _, h⟩
        · rw [e2] at h; exact absurd h (hnb m)
        · cases h
    -- the body can end again and again, so a body of task 1 ends
    obtain ⟨m, l, hm, ⟨hh, r', q', rfl, e3, e4⟩, hlab⟩ := hy (n + 5) fun j => by
      obtain ⟨m, hm, hh⟩ := head_comes c hfs ht (j + n + 5)
      obtain ⟨q, e1, e2, e3, e4⟩ := hundone m (by omega)
      have hstep : ∃ s', step env0 (c.st m) (.rBody r) = some s' := by
        simp [step, rBody, e1, e3, e4]
      exact ⟨m, by omega, .rBody r, hstep.choose, ⟨hh, r, q, rfl, e1, e2⟩, hstep.choose_spec⟩
    have hstep := course_step c hlab
    simp only [step, rBody, e3] at hstep
    split at hstep
    · cases hstep
    rename_i hdone
    simp only [Option.some.injEq] at hstep
    have hdone' : q'.bodyDone = false := by cases hx : q'.bodyDone <;> simp_all
    -- it is this one, as only one run of task 1 is on
    have hopen : ∀ x q, (c.st m).rt x = some q → q.taskId = 1 → q.bodyDone = false → x ∈ openRuns 1 (c.st m).log := by
      intro x q f1 f2 f3
      obtain ⟨n', ts', f4⟩ := ((rtOk (course_reach c m)).rt x q f1).1
      rw [f2] at f4
      refine mem_openRuns.2 ⟨startedRecsOf_iff.2 ⟨_, _, _, f4⟩, fun hstop => ?_⟩
      have f5 := stopped_reported (course_reach c m) (hinv m (by omega)).1 hstop
      obtain ⟨q2, f6, _, f7⟩ := (runLog (course_reach c m)).reported _ _ (mem_queuedTags.1 (dispatched_queued (course_reach c m) f5))
      rw [f1] at f6; cases f6
      have := ((runLog (course_reach c m)).sent x q f1 f7).2
      rw [f3] at this; cases this
    obtain ⟨q, f1, f2, f3, _⟩ := hundone m (by omega)
    have k1 := hopen r q f1 f2 f3
    have k2 := hopen r' q' e3 e4 hdone'
    have k3 := (hlow m (by omega)).le
    have k4 : r = r' := by
      match hx : openRuns 1 (c.st m).log, k1, k2, k3 with
      | [a], k1, k2, _ => rw [List.mem_singleton.1 k1, List.mem_singleton.1 k2]
      | a :: b :: xs, _, _, k3 => simp at k3
    subst k4
    refine hnb (m + 1) ?_
    rw [← hstep, e4]
    exact List.mem_cons_self

end DelayTimer.Ex
