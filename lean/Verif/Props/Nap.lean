import Verif.Spec.Nap
import Verif.Props.Sweep
import Verif.Props.Part

/-!
# C91: between its rounds the sweeper sleeps
-/

namespace DelayTimer

open Spec

/-- After a deadline was handled at `n`: the sweeper is still in that round and knows no deadline before `e`, or it sleeps until
`e` at least, or it is in a later round. -/
def Napping (n e : Nat) (s : St) : Prop :=
  (∃ i, s.spc = .active n i ∧ ∀ v ∈ s.heap, e ≤ v.deadline) ∨ (∃ w, s.spc = .idle w ∧ e ≤ w) ∨ ∃ now i, s.spc = .active now i ∧ e ≤ now

theorem napping_step {env : Env} {n e : Nat} {s s' : St} {l : Label} (h2 : e ≤ n + 3) (hr : Reachable env s)
    (h : Act env s l s') (hn : Napping n e s) : Napping n e s' := by
  rcases unit_cases hr h with ⟨_, h4, h5, _⟩ | ⟨_, _, _, _, _, _, h4, h5, _⟩ | ⟨w, u, rest, rfl, hs, _, _, _, h5, h6⟩ |
    ⟨w, now, rfl, hs, hle, h5, _, h4, h6⟩ | ⟨u, now, i, rfl, hs, hu, _, hd, _, h4, h5, h6⟩ | ⟨now, i, w, rfl, hs, h5, hw, _, h4, h6⟩
  · simpa only [Napping, h4, h5] using hn
  · simpa only [Napping, h4, h5] using hn
  · rcases hn with ⟨i, h7, _⟩ | ⟨w', h7, h8⟩ | ⟨_, _, h7, _⟩
    · rw [hs] at h7; cases h7
    · rw [hs] at h7; cases h7; exact Or.inr (Or.inl ⟨w, h5, h8⟩)
    · rw [hs] at h7; cases h7
  · rcases hn with ⟨i, h7, _⟩ | ⟨w', h7, h8⟩ | ⟨_, _, h7, _⟩
    · rw [hs] at h7; cases h7
    · rw [hs] at h7; cases h7; exact Or.inr (Or.inr ⟨now, _, h5, by omega⟩)
    · rw [hs] at h7; cases h7
  · rcases hn with ⟨i', h7, h8⟩ | ⟨w', h7, h8⟩ | ⟨now', i', h7, h8⟩
    · rw [hs] at h7; cases h7
      exact Or.inl ⟨i, h5, fun v hv => h8 v (by rw [h4] at hv; exact List.mem_of_mem_erase hv)⟩
    · rw [hs] at h7; cases h7
    · rw [hs] at h7; cases h7; exact Or.inr (Or.inr ⟨now, i, h5, h8⟩)
  · refine Or.inr (Or.inl ⟨w, h5, ?_⟩)
    rcases hn with ⟨i', h7, h8⟩ | ⟨w', h7, h8⟩ | ⟨now', i', h7, h8⟩
    · rw [hs] at h7; cases h7
      rcases hw with ⟨_, rfl⟩ | ⟨_, rfl⟩ | ⟨_, d, h9, _, rfl⟩
      · exact h2
      · exact h2
      · obtain ⟨⟨v, hv, rfl⟩, _⟩ := heapMin_some h9
        exact h8 v hv
    · rw [hs] at h7; cases h7
    · rw [hs] at h7; cases h7
      rcases hw with ⟨_, rfl⟩ | ⟨_, rfl⟩ | ⟨_, d, _, _, rfl⟩ <;> omega

theorem napping_pop {env : Env} {n e : Nat} {s s' : St} {u : RecycleUnit} {now i : Nat} (h1 : n < e)
    (h : Act env s (.sPop u) s') (hs : s.spc = .active now i) (hn : Napping n e s) : e ≤ now := by
  cases h
  case spop now' i' hp hu hmin hle =>
    rw [hs] at hp; cases hp
    rcases hn with ⟨_, h7, h8⟩ | ⟨_, h7, _⟩ | ⟨_, _, h7, h8⟩
    · rw [hs] at h7; cases h7
      have := h8 u hu; omega
    · rw [hs] at h7; cases h7
    · rw [hs] at h7; cases h7; exact h8

/-- What is new in the log. -/
theorem news_cases {env : Env} {s s' : St} {l : Label} (h : Act env s l s') :
    (∃ new, s'.log = new ++ s.log ∧ ∀ v now, .swept v now ∉ new) ∨
      ∃ u now i, l = .sPop u ∧ s.spc = .active now (i + 1) ∧
        s'.log = [.swept u now, .queued (.timeout u.taskId u.recordId)] ++ s.log := by
  rcases log_cases h with ⟨new, hn, hm, _⟩ | ⟨_, _, _, _, _, _, _, _, hn, _⟩ | ⟨_, _, hn, _⟩ | ⟨u, now, i, hl, hs, _, hn⟩ | ⟨_, _, _, _, hn, _⟩
  · exact Or.inl ⟨new, hn, fun v now hx => hm _ hx⟩
  · exact Or.inl ⟨[_], hn, by simp⟩
  · exact Or.inl ⟨[_], hn, by simp⟩
  · exact Or.inr ⟨u, now, i, hl, hs, hn⟩
  · exact Or.inl ⟨[_], hn, by simp⟩

theorem napping_run {env : Env} {ls : List Label} {s : St} (h : run env (init env) ls = some s) :
    ∀ {A B : List Obs} {u : RecycleUnit} {n e : Nat}, s.log = A ++ .swept u n :: B → n < e → e ≤ n + 3 → LaterDue ls u n B e →
      Napping n e s ∧ ∀ v now, .swept v now ∈ A → e ≤ now := by
  refine steps_induct (fun ls s => ∀ {A B : List Obs} {u : RecycleUnit} {n e : Nat}, s.log = A ++ .swept u n :: B → n < e →
    e ≤ n + 3 → LaterDue ls u n B e → Napping n e s ∧ ∀ v now, .swept v now ∈ A → e ≤ now) ?_ ?_ ls s h
  · intro A B u n e h0
    cases A <;> cases h0
  · intro ls s l s' hq ih hst A B u n e h0 h1 h2 h3
    have ha := step_act hst
    have hre : Reachable env s := ⟨ls, hq⟩
    have h3' : LaterDue ls u n B e := fun k rec i ts t m ht => h3 k rec i ts t m (by
      rw [handed_append]; exact List.mem_append_left _ ht)
    have old : ∀ new a', s'.log = new ++ s.log → s.log = a' ++ .swept u n :: B → A = new ++ a' →
        (∀ v now, .swept v now ∈ new → Napping n e s → e ≤ now) → Napping n e s' ∧ ∀ v now, .swept v now ∈ A → e ≤ now := by
      intro new a' _ h5 h6 h7
      obtain ⟨h8, h9⟩ := ih h5 h1 h2 h3'
      refine ⟨napping_step h2 hre ha h8, fun v now hv => ?_⟩
      rw [h6] at hv
      rcases List.mem_append.1 hv with hv | hv
      · exact h7 v now hv h8
      · exact h9 v now hv
    rcases news_cases ha with ⟨new, h4, h5⟩ | ⟨u', now', i, rfl, hs, h4⟩
    · rw [h4] at h0
      rcases List.append_eq_append_iff.1 h0 with ⟨a', h6, h7⟩ | ⟨c, h6, h7⟩
      · exact old new a' h4 h7 h6 (fun v now hv => absurd hv (h5 v now))
      · cases c with
        | nil =>
          exact old new [] h4 (by simpa using h7.symm) (by simpa using h6.symm) (fun v now hv => absurd hv (h5 v now))
        | cons o c =>
          cases h7
          exact absurd (by rw [h6]; simp) (h5 u n)
    · have hnew : ∀ v now, Obs.swept v now ∈ [Obs.swept u' now', .queued (.timeout u'.taskId u'.recordId)] → Napping n e s → e ≤ now := by
        intro v now hv hn
        simp at hv
        obtain ⟨rfl, rfl⟩ := hv
        exact napping_pop h1 ha hs hn
      rw [h4] at h0
      rcases List.append_eq_append_iff.1 h0 with ⟨a', h6, h7⟩ | ⟨c, h6, h7⟩
      · exact old _ a' h4 h7 h6 hnew
      · match A, c, h6, h7 with
        | _, [], h6, h7 => exact old _ [] h4 (by simpa using h7.symm) (by simpa using h6.symm) hnew
        | [], c, h6, h7 =>
          simp only [List.nil_append] at h6
          rw [← h6] at h7
          simp only [List.cons_append, List.nil_append, List.cons.injEq, Obs.swept.injEq] at h7
          obtain ⟨⟨rfl, rfl⟩, rfl⟩ := h7
          refine ⟨Or.inl ⟨i, ?_, ?_⟩, by simp⟩
          · cases ha
            case spop now2 i2 hp _ _ _ => rw [hs] at hp; cases hp; rfl
          · intro v hv
            have hv0 : v ∈ s.heap := by
              cases ha
              case spop => exact List.mem_of_mem_erase hv
            obtain ⟨t, ht, i3, ts, m, h8, h9, h10⟩ := (unitOk hq).heap v hv0
            rcases h3' v.taskId v.recordId i3 ts t m ht h9 (List.mem_cons_of_mem _ h8) with ⟨w, now, h11, h12⟩ | h11
            · exfalso
              have hnd := C31_once (hre.step hst)
              rw [List.append_assoc, List.map_append] at hnd
              refine (List.nodup_append.1 hnd).2.2 _ (List.mem_map_of_mem (mem_sweptUnits.2 ⟨now, ?_⟩)) v.recordId
                (List.mem_map_of_mem (List.mem_append_left _ hv)) h12
              rw [h4]; exact h11
            · rw [h10]; exact h11
        | a :: A, o :: c, h6, h7 =>
          cases h7
          simp at h6
          obtain ⟨_, h6⟩ := h6
          cases A with
          | nil => cases h6
          | cons b A =>
            have := congrArg List.length h6
            simp at this

/-- **C91** After it has dealt with a deadline, the sweeper deals with no further one before `e`, if `e` is at most three seconds
later and no run that was started before and has not been dealt with has its deadline before `e`. -/
theorem C91_sleep {env : Env} {ls : List Label} {s : St} {A B : List Obs} {u v : RecycleUnit} {n e now : Nat}
    (h : run env (init env) ls = some s) (hl : s.log = A ++ .swept u n :: B) (h1 : n < e) (h2 : e ≤ n + 3)
    (h3 : LaterDue ls u n B e) (hv : .swept v now ∈ A) : e ≤ now :=
  (napping_run h hl h1 h2 h3).2 v now hv

/-- **C91** When it has dealt with the deadlines of all runs started so far, it deals with none for three seconds. So a run
that is started after this is stopped for its limit no earlier than that, however short the limit is. -/
theorem C91_dry {env : Env} {ls : List Label} {s : St} {A B : List Obs} {u v : RecycleUnit} {n now : Nat}
    (h : run env (init env) ls = some s) (hl : s.log = A ++ .swept u n :: B)
    (h1 : ∀ k rtn rec i ts, .started k rtn rec i ts ∈ B → (∃ t ∈ handed k ls, t.routine = rtn ∧ t.maximumRunningTime ≠ none) →
      ∃ w r, .swept w r ∈ .swept u n :: B ∧ w.recordId = rec)
    (hv : .swept v now ∈ A) : n + 3 ≤ now := by
  refine C91_sleep h hl (by omega) (Nat.le_refl _) ?_ hv
  intro k rec i ts t m ht hm hs
  exact Or.inl (h1 k t.routine rec i ts hs ⟨t, ht, rfl, by rw [hm]; simp⟩)

end DelayTimer

namespace DelayTimer.Ex

open Spec

/-- Task 1 may run for a second and is started every other second, task 2 may run for three seconds. The first run of task 1 is
dealt with at 103, and then the sweeper sleeps until the deadline of task 2 at 105, ... -/
def woken : List Label :=
  add { every 1 101 2 with maximumRunningTime := some 1 } ++ add { every 2 101 5000 with maximumRunningTime := some 3 } ++
  idles 2 ++ pop 2 0 ++ [.tSlot, .tMark, .tPop 1, .tCheck 1, .tSpawn false, .tAppend, .tGate, .tSlot, .tMark, .tLapse,
    .eRecv, .eRecv, .sAdd, .sAdd, .sWake 103, .sPop ⟨103, 1, 1⟩, .sRest] ++ idle ++ fire 1 2 ++
  [.eRecv, .eRecv, .sAdd, .sWake 105, .sPop ⟨105, 1, 2⟩]

theorem woken_run : run env0 (init env0) woken = some (play env0 woken) := play_run (by decide +kernel)

/-- What is seen of task 1 in this execution. -/
def wokenSeen : List Obs := (play env0 woken).log.filter (seen (· == 1) true)

/-- The condition of C89 on running time limits is needed. Nothing is inserted in `woken`, and yet what is seen of task 1 is not
the history of any timer: without task 2 the sweeper would have slept until 106. -/
theorem C91_shared : run env0 (init env0) woken = some (play env0 woken) ∧ (∀ t, .uInsert t ∉ woken) ∧ (∀ w i, .uCancel w i ∉ woken) ∧
    ∀ env ls p, run env (init env) ls = some p → p.log ≠ (play env0 woken).log.filter (seen (· == 1) true) := by
  refine ⟨woken_run, by intro t; simp [woken, add, idles, idle, pop, fire], by intro w i; simp [woken, add, idles, idle, pop, fire], ?_⟩
  intro env ls p h he
  have hl : p.log = wokenSeen.take 8 ++ .swept ⟨103, 1, 1⟩ 103 :: wokenSeen.drop 9 := by
    rw [he]; show wokenSeen = _; decide +kernel
  have := C91_dry (v := ⟨105, 1, 2⟩) (now := 105) h hl ?_ (by decide +kernel)
  · omega
  · intro k rtn rec i ts hs _
    have hB : wokenSeen.drop 9 = [.queued (.timeout 1 1), .dispatched (.append 1 1) (some true), .queued (.append 1 1),
      .started 1 1 1 2 102, .attempted 1 2, .dispatched (.add 1) (some true), .queued (.add 1)] := by decide +kernel
    rw [hB] at hs
    simp at hs
    exact ⟨_, _, List.mem_cons_self, by rw [hs.2.2.1]⟩

/-- C91: in `woken` the sweeper deals with the second run of task 1 no earlier than at 105, because of task 2. -/
example : ∃ A B, (play env0 woken).log = A ++ .swept ⟨103, 1, 1⟩ 103 :: B ∧ LaterDue woken ⟨103, 1, 1⟩ 103 B 105 ∧
    .swept ⟨105, 1, 2⟩ 105 ∈ A := by
  refine ⟨(play env0 woken).log.takeWhile (· ≠ .swept ⟨103, 1, 1⟩ 103), ((play env0 woken).log.dropWhile (· ≠ .swept ⟨103, 1, 1⟩ 103)).tail,
    by decide +kernel, ?_, by decide +kernel⟩
  intro k rec i ts t m ht hm hs
  have hs : .started k t.routine rec i ts ∈ [Obs.started 1 1 1 2 102, .started 2 2 0 2 102] := by
    have h0 : (((play env0 woken).log.dropWhile (· ≠ .swept ⟨103, 1, 1⟩ 103)).tail).filter
      (fun | .started .. => true | _ => false) = [Obs.started 1 1 1 2 102, .started 2 2 0 2 102] := by decide +kernel
    rw [← h0]; exact List.mem_filter.2 ⟨hs, rfl⟩
  simp at hs
  rcases hs with ⟨_, _, rfl, _⟩ | ⟨rfl, _, _, _, rfl⟩
  · exact Or.inl ⟨_, _, List.mem_cons_self, rfl⟩
  · right
    simp [woken, handed, broughtBy, add, idles, idle, pop, fire, every] at ht
    rw [ht] at hm
    cases hm
    decide

/-- Task 1 on its own: the second run, started at 104 for one second at most, is dealt with at 106. -/
def dried : List Label :=
  add { every 1 101 2 with maximumRunningTime := some 1 } ++ idles 2 ++ fire 1 0 ++
  [.eRecv, .sAdd, .sWake 103, .sPop ⟨103, 1, 0⟩, .sRest] ++ idle ++ fire 1 1 ++
  [.eRecv, .eRecv, .sAdd, .sWake 106, .sPop ⟨105, 1, 1⟩]

example : ∃ A B, run env0 (init env0) dried = some (play env0 dried) ∧ (play env0 dried).log = A ++ .swept ⟨103, 1, 0⟩ 103 :: B ∧
    (∀ k rtn rec i ts, .started k rtn rec i ts ∈ B → (∃ t ∈ handed k dried, t.routine = rtn ∧ t.maximumRunningTime ≠ none) →
      ∃ w r, .swept w r ∈ .swept ⟨103, 1, 0⟩ 103 :: B ∧ w.recordId = rec) ∧ .swept ⟨105, 1, 1⟩ 106 ∈ A := by
  refine ⟨(play env0 dried).log.takeWhile (· ≠ .swept ⟨103, 1, 0⟩ 103), ((play env0 dried).log.dropWhile (· ≠ .swept ⟨103, 1, 0⟩ 103)).tail,
    play_run (by decide +kernel), by decide +kernel, ?_, by decide +kernel⟩
  intro k rtn rec i ts hs _
  have hs : .started k rtn rec i ts ∈ [Obs.started 1 1 0 2 102] := by
    have h0 : (((play env0 dried).log.dropWhile (· ≠ .swept ⟨103, 1, 0⟩ 103)).tail).filter
      (fun | .started .. => true | _ => false) = [Obs.started 1 1 0 2 102] := by decide +kernel
    rw [← h0]; exact List.mem_filter.2 ⟨hs, rfl⟩
  simp at hs
  exact ⟨_, _, List.mem_cons_self, by rw [hs.2.2.1]⟩

end DelayTimer.Ex
