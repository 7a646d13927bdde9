import Verif.Proofs.Parallel

/-! How far the count kept in a mark can be from the number of runs going on. -/

namespace DelayTimer
open Spec

/-- The count of `k`, with the run the scheduler is about to count, is covered by runs going on, but for one, and for `d` more
once there is no chain. A run counts only if its end will be counted: if `k` has a chain and the run is registered, it is on
the list of the chain. -/
def Covered (k d : Nat) (s : St) : Prop :=
  ∀ n, num k s = some n → ∃ rs : List Int, rs.Nodup ∧ (∀ r ∈ rs, r ∈ openRuns k s.log ∧ ListedRun k r s) ∧
    n + counting k s.tpc ≤ rs.length + 1 + if mts s k = none then d else 0

/-- A task without a chain does not get one, except by being recorded again. -/
theorem chainless_step {env : Env} {k : Nat} {s : St} {l : Label} {s' : St} (hr : Reachable env s)
    (h : Act env s l s') (hs : mts s k = none) (ha : ∀ tag m, s.epc = .add3 tag m → m.taskId = k → l ≠ .eNext) :
    mts s' k = none := by
  cases instStep hr h with
  | dull _ hsame => rw [hsame.mts]; exact hs
  | miss _ _ _ _ _ hsame => rw [hsame.mts]; exact hs
  | quiet _ _ _ _ _ _ hsame => rw [hsame.mts]; exact hs
  | dropped _ id _ _ mt _ hm _ hmt => rw [hmt]; split <;> simp [hs]
  | found _ id _ _ mt a i b _ hm _ _ _ hmt =>
    rw [hmt]; split
    · rename_i hk; subst hk; rw [hs] at hm; cases hm
    · exact hs
  | plain _ _ _ _ _ _ hsame => rw [hsame.mts]; exact hs
  | nobody _ _ _ _ _ _ _ _ hmt => rw [hmt]; split <;> simp [hs]
  | newInst id _ _ mt _ _ hm _ hmt =>
    rw [hmt]; split
    · rename_i hk; subst hk; rw [hs] at hm; cases hm
    · exact hs
  | mark id new tag r ht hmt =>
    rw [hmt]; split
    · rename_i hk; subst hk
      rcases ht with ⟨_, h, _⟩ | ⟨m, he, hk, _, _⟩
      · exact h
      · exact absurd rfl (ha tag m he hk)
    · exact hs
  | refused _ _ _ _ hmt => rw [hmt]; exact hs
  | insert _ hmt => rw [hmt]; exact hs
  | deliver _ _ _ _ _ _ hmt => rw [hmt]; exact hs
  | drop _ _ hmt => rw [hmt]; exact hs

theorem erase_room {rs : List Int} {rec : Int} : rs.length ≤ (rs.erase rec).length + 1 := by
  rw [List.length_erase]; split <;> omega

/-- A run that is started is a new one. -/
theorem start_new {env : Env} {k : Nat} {s : St} {s' : St} {rec : Int} (hr : Reachable env s)
    (h : Act env s (.tSpawn false) s') (hsp : spawning k s.tpc)
    (ho : openRuns k s'.log = openRuns k s.log ++ [rec]) : rec ∉ openRuns k s.log := by
  cases h with
  | spawn pending t rec' htpc =>
    rw [htpc] at hsp
    obtain rfl : t.taskId = k := hsp
    have hn : rec' ∉ startedRecs s.log := fun hx => (((recOk hr).fresh _ _ _ htpc).2 rec' hx).1 rfl
    have hn' : rec' ∉ startedRecsOf t.taskId s.log := fun hx => hn ((startedRecsOf_sublist _ _).subset hx)
    have h1 : openRuns t.taskId (.started t.taskId t.routine rec' s.ticks (env.clock s.ticks) :: s.log) =
        openRuns t.taskId s.log ++ [rec'].filter (fun r => decide (Obs.stopped t.taskId r ∉ s.log)) := by
      unfold openRuns
      simp only [startedRecsOf, if_pos, List.filter_append]
      congr 1
      · apply List.filter_congr
        intro r _
        simp
      · simp
    have h2 := List.append_cancel_left (h1.symm.trans ho)
    have h3 : rec ∈ [rec'] := by
      have : rec ∈ [rec'].filter (fun r => decide (Obs.stopped t.taskId r ∉ s.log)) := by rw [h2]; simp
      exact (List.mem_filter.1 this).1
    intro hx
    rw [List.mem_singleton.1 h3] at hx
    exact hn' (mem_openRuns.1 hx).1

/-- The count stays covered in every step, with `d = 1`, or with `d = 0` as long as the chain is kept. -/
theorem covered_step {env : Env} {k d : Nat} {s : St} {l : Label} {s' : St} (hr : Reachable env s) (hs : Covered k d s)
    (hd : d = 1 ∨ ChainKept k s) (h : Act env s l s') : Covered k d s' := by
  have hle := counting_le k s.tpc
  -- when the runs, the count and what is to be counted change in no unfavourable way
  have keep : (∀ tag m, s.epc = .add3 tag m → m.taskId = k → l ≠ .eNext) →
      (∀ r ∈ openRuns k s.log, r ∈ openRuns k s'.log) →
      (∀ n', num k s' = some n' → ∃ n, num k s = some n ∧ n' + counting k s'.tpc ≤ n + counting k s.tpc) → Covered k d s' := by
    intro ha ho hn n' hn'
    obtain ⟨n, h1, h2⟩ := hn n' hn'
    obtain ⟨rs, e1, e2, e3⟩ := hs n h1
    refine ⟨rs, e1, fun r hr' => ⟨ho r (e2 r hr').1, ?_⟩, ?_⟩
    · exact listedRun_step hr (e2 r hr').2 (fun tag m he hk hl => absurd hl (ha tag m he hk)) h
    · have : (if mts s k = none then d else 0) ≤ if mts s' k = none then d else 0 := by
        split
        · rename_i hx; rw [if_pos (chainless_step hr h hx ha)]; exact Nat.le_refl _
        · omega
      omega
  -- a new mark counts nothing
  by_cases hadd : ∃ tag m, s.epc = .add3 tag m ∧ m.taskId = k ∧ l = .eNext
  · obtain ⟨tag, m, he, hk, rfl⟩ := hadd
    intro n hn
    refine ⟨[], List.nodup_nil, by simp, ?_⟩
    have := counting_le k s'.tpc
    suffices n = 0 by simp only [List.length_nil]; omega
    have h0 := add3_zero hr tag m he
    cases h
    case next_add3 tag' m' he' =>
      rw [he] at he'; cases he'
      simp [num, hk, h0] at hn
      omega
    all_goals (have hz := ‹s.epc = _›; have hy := hz.symm.trans he; cases hy)
  have ha : ∀ tag m, s.epc = .add3 tag m → m.taskId = k → l ≠ .eNext :=
    fun tag m he hk hl => hadd ⟨tag, m, he, hk, hl⟩
  cases parStep k hr h with
  | same _ a1 a2 a3 a4 => exact keep ha (by rw [a1]; exact fun _ h => h) (fun n hn => ⟨n, by rw [← a2]; exact hn, by omega⟩)
  | pass p t rec htpc htpc' hk hlt a1 a2 =>
    exact keep ha (by rw [a1]; exact fun _ h => h)
      (fun n hn => ⟨n, by rw [← a2]; exact hn, by rw [htpc']; simp [counting]⟩)
  | lose _ hh hh' hw hch he a1 a2 a3 a4 =>
    exact keep ha (by rw [a1]; exact fun _ h => h) (fun n hn => ⟨n, by rw [← a2]; exact hn, by omega⟩)
  | count u hu a3 a4 a1 a2 =>
    refine keep ha (by rw [a1]; exact fun _ h => h) (fun n' hn => ?_)
    rw [a2, Option.map_eq_some_iff] at hn
    obtain ⟨n, h1, rfl⟩ := hn
    exact ⟨n, h1, by omega⟩
  | add tag mk he hkk a1 a2 a3 => exact absurd rfl (ha tag mk he hkk)
  | drop a1 a2 a3 => intro n hn; rw [a2] at hn; cases hn
  | start hsp rec a1 a2 a3 a4 =>
    intro n hn
    rw [a2] at hn
    obtain ⟨rs, e1, e2, e3⟩ := hs n hn
    have hnew : rec ∉ openRuns k s.log := start_new hr h hsp a1
    have hc0 : counting k s.tpc = 0 := by
      cases hq : s.tpc <;> simp [hq, spawning, counting] at hsp ⊢
    refine ⟨rs ++ [rec], ?_, ?_, ?_⟩
    · rw [List.nodup_append]
      refine ⟨e1, by simp, ?_⟩
      intro a ha' b hb hab
      simp only [List.mem_singleton] at hb
      subst hab hb
      exact hnew (e2 _ ha').1
    · intro r hr'
      rw [a1]
      rcases List.mem_append.1 hr' with h1 | h1
      · exact ⟨List.mem_append_left _ (e2 r h1).1, listedRun_step hr (e2 r h1).2 (fun tag m he hk hl => by cases hl) h⟩
      · simp only [List.mem_singleton] at h1
        subst h1
        refine ⟨by simp, listedRun_step hr ?_ (fun tag m he hk hl => by cases hl) h⟩
        intro mt _ g1 g2
        obtain ⟨b, hb, rfl⟩ := ((traceOk hr).mem k r).2 ⟨g1, g2⟩
        exact absurd (trace_open hr hb) hnew
    · have : (if mts s k = none then d else 0) ≤ if mts s' k = none then d else 0 := by
        split
        · rename_i hx; rw [if_pos (chainless_step hr h hx ha)]; exact Nat.le_refl _
        · omega
      simp only [List.length_append, List.length_singleton]
      omega
  | ended e rest rec he hch hke a1 a3 a2 b1 b2 b3 =>
    intro n' hn'
    have hslack : (if mts s k = none then d else 0) ≤ if mts s' k = none then d else 0 := by
      split
      · rename_i hx; rw [if_pos (chainless_step hr h hx ha)]; exact Nat.le_refl _
      · omega
    have hrest : ∀ {rs : List Int}, rs.Nodup → (∀ r ∈ rs, r ∈ openRuns k s.log ∧ ListedRun k r s) →
        (rs.erase rec).Nodup ∧ ∀ r ∈ rs.erase rec, r ∈ openRuns k s'.log ∧ ListedRun k r s' := by
      intro rs e1 e2
      refine ⟨e1.erase rec, fun r hr' => ?_⟩
      rw [e1.mem_erase_iff] at hr'
      refine ⟨?_, listedRun_step hr (e2 r hr'.2).2 (fun tag m he hk hl => by cases hl) h⟩
      rw [b1, List.mem_filter]
      exact ⟨(e2 r hr'.2).1, by simpa using hr'.1⟩
    rw [a3]
    rcases b3 with b3 | ⟨mt, c1, c2, c3, c4⟩ | ⟨mt, c1, c2, c3⟩
    · rw [b3, Option.map_eq_some_iff] at hn'
      obtain ⟨n, h1, rfl⟩ := hn'
      obtain ⟨rs, e1, e2, e3⟩ := hs n h1
      have := erase_room (rs := rs) (rec := rec)
      exact ⟨rs.erase rec, (hrest e1 e2).1, (hrest e1 e2).2, by omega⟩
    · rw [c4] at hn'
      obtain ⟨rs, e1, e2, e3⟩ := hs n' hn'
      have := erase_room (rs := rs) (rec := rec)
      refine ⟨rs.erase rec, (hrest e1 e2).1, (hrest e1 e2).2, ?_⟩
      rcases hd with hd | hd
      · rw [c1] at e3
        rw [c3]
        simp only [reduceCtorEq, if_false, if_true] at e3 ⊢
        omega
      · exfalso
        cases hf : s.flags k with
        | none => simp [mts, hf] at c1
        | some m => exact hd m mt hf (by rw [← mts_eq hf]; exact c1) c2
    · rw [c3] at hn'
      obtain ⟨rs, e1, e2, e3⟩ := hs n' hn'
      have hnot : rec ∉ rs := by
        intro hx
        obtain ⟨g1, g2⟩ := ((traceOk hr).mem k rec).1 b2
        obtain ⟨i, hi, hir⟩ := (e2 rec hx).2 mt c1 g1 g2
        exact c2 i hi hir
      have h1 := hrest e1 e2
      rw [List.erase_of_not_mem hnot] at h1
      exact ⟨rs, h1.1, h1.2, by omega⟩

theorem covered_init (env : Env) (k d : Nat) : Covered k d (init env) := fun n hn => by cases hn

/-- In every reachable state the count of `k` is at most two more than the runs of `k` going on. -/
theorem covered {env : Env} {s : St} (hr : Reachable env s) (k : Nat) : Covered k 1 s :=
  Reachable.induct (P := Covered k 1) (covered_init env k 1) (fun _ _ _ hr hs h => covered_step hr hs (Or.inl rfl) h) s hr

/-- It is at most one more if the chain of `k` is kept all the time. -/
theorem covered_kept {env : Env} {k : Nat} : ∀ (ls : List Label) {s s' : St}, Reachable env s → Covered k 0 s →
    Throughout env s ls (ChainKept k) → run env s ls = some s' → Covered k 0 s' := by
  intro ls
  induction ls with
  | nil => intro s s' _ h _ hr; cases hr; exact h
  | cons l ls ih =>
    intro s s' hre h hc hr
    simp only [run] at hr
    split at hr
    rotate_left
    · cases hr
    rename_i s1 h1
    refine ih (hre.step h1) (covered_step hre h (Or.inr (hc [] _ s rfl rfl)) (step_act h1)) ?_ hr
    intro l1 l2 s2 e hr2
    exact hc (l :: l1) l2 s2 (by rw [e]; rfl) (by simp only [run, h1]; exact hr2)

theorem Covered.le {k d : Nat} {s : St} (hs : Covered k d s) {n : Nat}
    (hn : num k s = some n) : n + counting k s.tpc ≤ (openRuns k s.log).length + 1 + d := by
  obtain ⟨rs, e1, e2, e3⟩ := hs n hn
  have := nodup_length_le e1 (fun r hr => (e2 r hr).1)
  have : (if mts s k = none then d else 0) ≤ d := by split <;> omega
  omega

end DelayTimer
