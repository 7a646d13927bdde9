import Verif.Spec.Nap
import Verif.Props.Sweep
import Verif.Proofs.PartRuns

/-!
Deadlines on their way to the sweeper.
-/

namespace DelayTimer

open Spec

/-- The deadlines an event brings. -/
def evUnits : TimerEvent → List RecycleUnit
  | .appendTaskHandle _ box => unitsOf box
  | _ => []

/-- The deadline the scheduler has in its hands. -/
def tpcUnits : TPC → List RecycleUnit
  | .append _ _ box => unitsOf box
  | _ => []

/-- The deadlines on their way to the sweeper, in the order in which they get there. -/
def onWay (s : St) : List RecycleUnit := s.unitChan ++ s.chan.flatMap evUnits ++ tpcUnits s.tpc

theorem way_cases {env : Env} {ls : List Label} {s s' : St} {l : Label} (hr : run env (init env) ls = some s) (h : Act env s l s') :
    ((onWay s').Sublist (onWay s) ∧ s'.heap = s.heap ∧ s'.spc = s.spc ∧ (s'.ticks = s.ticks ∨ s'.ticks = s.ticks + 1)) ∨
    (∃ (t : Task) (us : List RecycleUnit), onWay s' = onWay s ++ us ∧ (∃ t0 ∈ handed t.taskId ls, t0.maximumRunningTime = t.maximumRunningTime) ∧
      (∀ u ∈ us, ∃ m, t.maximumRunningTime = some m ∧ u.deadline = (env.clock s.ticks + m) % 2 ^ 64) ∧ us.length ≤ 1 ∧
      s'.heap = s.heap ∧ s'.spc = s.spc ∧ s'.ticks = s.ticks) ∨
    (∃ w u, onWay s = u :: onWay s' ∧ s'.heap = u :: s.heap ∧ s.spc = .idle w ∧ s'.spc = .idle w ∧ s'.ticks = s.ticks) ∨
    (∃ w now, l = .sWake now ∧ s.spc = .idle w ∧ w ≤ now ∧ s'.spc = .active now 200 ∧ onWay s' = onWay s ∧ s'.heap = s.heap ∧
      s'.ticks = s.ticks) ∨
    (∃ u now n, l = .sPop u ∧ s.spc = .active now (n + 1) ∧ s'.spc = .active now n ∧ onWay s' = onWay s ∧ s'.heap = s.heap.erase u ∧
      s'.ticks = s.ticks) ∨
    (∃ now n w, l = .sRest ∧ s.spc = .active now n ∧ s'.spc = .idle w ∧
      (n = 0 ∧ w = now + 3 ∨ heapMin s.heap = none ∧ w = now + 3 ∨
        n ≠ 0 ∧ ∃ d, heapMin s.heap = some d ∧ now < d ∧ w = d) ∧ onWay s' = onWay s ∧ s'.heap = s.heap ∧ s'.ticks = s.ticks) := by
  cases h
  case spawn pending t rec hp =>
    refine Or.inr (Or.inl ⟨t, unitsOf ⟨t.taskId, rec, env.clock s.ticks, t.getMaximumRunningTime (env.clock s.ticks)⟩, ?_, ?_, ?_, ?_, rfl, rfl, rfl⟩)
    · simp only [onWay, hp, tpcUnits, List.append_nil]
    · obtain ⟨t0, h0, hrt, hmx, _⟩ := (stems hr t.taskId).held t (by rw [hp]; simp [heldTok])
      exact ⟨t0, h0, hmx⟩
    · intro u hu
      simp only [unitsOf, Task.getMaximumRunningTime] at hu
      cases hq : t.maximumRunningTime with
      | none => rw [hq] at hu; simp at hu
      | some m =>
        rw [hq] at hu
        simp only [Option.map_some, List.mem_singleton] at hu
        subst hu
        exact ⟨m, rfl, by simp [Nat.add_comm]⟩
    · simp only [unitsOf]; split <;> simp
  case sadd w u rest hp hu =>
    exact Or.inr (Or.inr (Or.inl ⟨w, u, by simp [onWay, hu], rfl, hp, hp, rfl⟩))
  case swake w now hp hle =>
    exact Or.inr (Or.inr (Or.inr (Or.inl ⟨w, now, rfl, hp, hle, rfl, rfl, rfl, rfl⟩)))
  case spop u now n hp hu hmin hle =>
    exact Or.inr (Or.inr (Or.inr (Or.inr (Or.inl ⟨u, now, n, rfl, hp, rfl, by simp [onWay, push, evUnits], rfl, rfl⟩))))
  case srest now n w hp hw =>
    exact Or.inr (Or.inr (Or.inr (Or.inr (Or.inr ⟨now, n, w, rfl, hp, rfl, hw, rfl, rfl, rfl⟩))))
  case append pending t box hp =>
    exact Or.inl ⟨by simp [onWay, push, evUnits, tpcUnits, hp], rfl, rfl, Or.inl rfl⟩
  case recv_append id box rest he hc =>
    refine Or.inl ⟨?_, by simp, by simp, Or.inl (by simp)⟩
    simp [onWay, hc, evUnits, maintainTaskStatus]
  case usend op =>
    refine Or.inl ⟨?_, rfl, rfl, Or.inl rfl⟩
    cases op <;> simp [onWay, push, evUnits, UserOp.event]
  all_goals first
    | exact Or.inl ⟨List.Sublist.refl _, rfl, rfl, Or.inl rfl⟩
    | exact Or.inl ⟨List.Sublist.refl _, rfl, rfl, Or.inr rfl⟩
    | (refine Or.inl ⟨?_, by simp, by simp, ?_⟩
       · simp_all [onWay, push, evUnits, tpcUnits, uInsert]
       · simp)

/-- All limits lie between `lo` and `hi`: deadlines get to the sweeper in order but for the difference, and it does not sleep past
any by more than that. -/
structure Prompt (env : Env) (lo hi : Nat) (ls : List Label) (s : St) : Prop where
  order : (onWay s).Pairwise (fun u v => u.deadline ≤ v.deadline + (hi - lo))
  heap : ∀ u ∈ s.heap, ∀ v ∈ onWay s, u.deadline ≤ v.deadline + (hi - lo)
  ahead : ∀ u, u ∈ s.heap ∨ u ∈ onWay s → u.deadline ≤ env.clock s.ticks + hi
  idle : ∀ w, s.spc = .idle w → w ≤ lastRound ls + 3 ∨
    w ≤ env.clock s.ticks + hi ∧ ∀ u, u ∈ s.heap ∨ u ∈ onWay s → w ≤ u.deadline + (hi - lo)
  active : ∀ now n, s.spc = .active now n → lastRound ls = now

theorem lastRound_other (ls : List Label) {l : Label} (h : ∀ now, l ≠ .sWake now) : lastRound (ls ++ [l]) = lastRound ls := by
  cases l <;> simp [lastRound] <;> exact absurd rfl (h _)

theorem prompt_run {env : Env} {lo hi : Nat} (hc : ∀ n, env.clock n ≤ env.clock (n + 1)) {ls : List Label} {s : St}
    (h : run env (init env) ls = some s) (hf : ∀ n, n ≤ s.ticks → env.clock n + hi < 2 ^ 64)
    (hm : ∀ k, ∀ t ∈ handed k ls, ∀ m, t.maximumRunningTime = some m → lo ≤ m ∧ m ≤ hi) : Prompt env lo hi ls s := by
  refine steps_induct (fun ls s => (∀ n, n ≤ s.ticks → env.clock n + hi < 2 ^ 64) →
    (∀ k, ∀ t ∈ handed k ls, ∀ m, t.maximumRunningTime = some m → lo ≤ m ∧ m ≤ hi) → Prompt env lo hi ls s) ?_ ?_ ls s h hf hm
  · intro _ _
    refine ⟨List.Pairwise.nil, fun u hu => (by cases hu), fun u hu => ?_, fun w hw => ?_, fun now n hs => (by cases hs)⟩
    · rcases hu with hu | hu <;> cases hu
    · cases hw; exact Or.inl (Nat.zero_le _)
  · intro ls s l s' hq ih hst hf hm
    have ha := step_act hst
    have hti : s.ticks ≤ s'.ticks := by
      rcases way_cases hq ha with ⟨_, _, _, d | d⟩ | ⟨_, _, _, _, _, _, _, _, d⟩ | ⟨_, _, _, _, _, _, d⟩ | ⟨_, _, _, _, _, _, _, _, d⟩ |
        ⟨_, _, _, _, _, _, _, _, d⟩ | ⟨_, _, _, _, _, _, _, _, _, d⟩ <;> omega
    have hm' : ∀ k, ∀ t ∈ handed k ls, ∀ m, t.maximumRunningTime = some m → lo ≤ m ∧ m ≤ hi := fun k t ht =>
      hm k t (by rw [handed_append]; exact List.mem_append_left _ ht)
    obtain ⟨h1, h2, h3, h4, h5⟩ := ih (fun n hn => hf n (by omega)) hm'
    have keep : (∀ now, l ≠ .sWake now) → lastRound (ls ++ [l]) = lastRound ls := lastRound_other ls
    have nowake : s'.spc = s.spc → ∀ now, l ≠ .sWake now := by
      rintro he now rfl
      cases ha
      case swake w hp _ => rw [hp] at he; cases he
    rcases way_cases hq ha with ⟨a, b, c, d⟩ | ⟨t, us, a, ⟨t0, h0, h0'⟩, hu, hl, b, c, d⟩ | ⟨w, u, a, b, c, c', d⟩ |
      ⟨w, now, rfl, c, hle, c', a, b, d⟩ | ⟨u, now, n, rfl, c, c', a, b, d⟩ | ⟨now, n, w, rfl, c, c', hw, a, b, d⟩
    · have hck : env.clock s.ticks ≤ env.clock s'.ticks := by
        rcases d with d | d <;> rw [d]
        · exact Nat.le_refl _
        · exact hc _
      have hk := keep (nowake c)
      have hsub : ∀ u, u ∈ s'.heap ∨ u ∈ onWay s' → u ∈ s.heap ∨ u ∈ onWay s := fun u hu => by
        rw [b] at hu
        exact hu.imp id (fun h => a.subset h)
      refine ⟨h1.sublist a, fun u hu v hv => h2 u (b ▸ hu) v (a.subset hv), fun u hu => Nat.le_trans (h3 u (hsub u hu)) (by omega), ?_, ?_⟩
      · intro w hw
        rw [hk]
        rcases h4 w (c ▸ hw) with h6 | ⟨h6, h7⟩
        · exact Or.inl h6
        · exact Or.inr ⟨by omega, fun u hu => h7 u (hsub u hu)⟩
      · intro now n hs
        rw [hk]; exact h5 now n (c ▸ hs)
    · have hk := keep (nowake c)
      have hus : ∀ u ∈ us, env.clock s.ticks + lo ≤ u.deadline ∧ u.deadline ≤ env.clock s.ticks + hi := by
        intro u hx
        obtain ⟨m, h6, h7⟩ := hu u hx
        have := hm' _ t0 h0 m (h0'.trans h6)
        have := hf _ hti
        rw [h7, Nat.mod_eq_of_lt (by omega)]
        omega
      have hall : ∀ u, u ∈ s'.heap ∨ u ∈ onWay s' → (u ∈ s.heap ∨ u ∈ onWay s) ∨ u ∈ us := fun u hu => by
        rw [b, a] at hu
        rcases hu with hu | hu
        · exact Or.inl (Or.inl hu)
        · rcases List.mem_append.1 hu with hu | hu
          · exact Or.inl (Or.inr hu)
          · exact Or.inr hu
      refine ⟨?_, ?_, ?_, ?_, ?_⟩
      · rw [a, List.pairwise_append]
        refine ⟨h1, ?_, fun u hu v hv => by have := hus v hv; have := h3 u (Or.inr hu); omega⟩
        match us, hl with
        | [], _ => exact List.Pairwise.nil
        | [_], _ => exact List.pairwise_singleton _ _
      · intro u hu v hv
        rw [b] at hu
        rw [a] at hv
        rcases List.mem_append.1 hv with hv | hv
        · exact h2 u hu v hv
        · have := hus v hv; have := h3 u (Or.inl hu); omega
      · intro u hu
        rw [d]
        rcases hall u hu with hu | hu
        · exact h3 u hu
        · exact (hus u hu).2
      · intro w hw
        rw [hk, d]
        rcases h4 w (c ▸ hw) with h6 | ⟨h6, h7⟩
        · exact Or.inl h6
        · refine Or.inr ⟨h6, fun u hu => ?_⟩
          rcases hall u hu with hu | hu
          · exact h7 u hu
          · have := hus u hu; omega
      · intro now n hs
        rw [hk]; exact h5 now n (c ▸ hs)
    · have hk := keep (nowake (c'.trans c.symm))
      rw [a] at h1 h2 h3 h4
      have hall : ∀ v, v ∈ s'.heap ∨ v ∈ onWay s' → v ∈ s.heap ∨ v ∈ u :: onWay s' := fun v hv => by
        rw [b] at hv
        rcases hv with hv | hv
        · rcases List.mem_cons.1 hv with rfl | hv
          · exact Or.inr List.mem_cons_self
          · exact Or.inl hv
        · exact Or.inr (List.mem_cons_of_mem _ hv)
      refine ⟨(List.pairwise_cons.1 h1).2, ?_, fun v hv => by rw [d]; exact h3 v (hall v hv), ?_, ?_⟩
      · intro v hv x hx
        rw [b] at hv
        rcases List.mem_cons.1 hv with rfl | hv
        · exact (List.pairwise_cons.1 h1).1 x hx
        · exact h2 v hv x (List.mem_cons_of_mem _ hx)
      · intro w' hw
        rw [hk, d]
        rcases h4 w' (by rw [c]; rw [c'] at hw; exact hw) with h6 | ⟨h6, h7⟩
        · exact Or.inl h6
        · exact Or.inr ⟨h6, fun v hv => h7 v (hall v hv)⟩
      · intro now n hs
        rw [c'] at hs; cases hs
    · refine ⟨by rw [a]; exact h1, by rw [a, b]; exact h2, by rw [a, b, d]; exact h3, ?_, ?_⟩
      · intro w' hw; rw [c'] at hw; cases hw
      · intro now' n hs
        rw [c'] at hs; cases hs
        simp [lastRound]
    · have hk := keep (by intro _ hx; cases hx)
      have he : ∀ v, v ∈ s'.heap → v ∈ s.heap := fun v hv => by rw [b] at hv; exact List.mem_of_mem_erase hv
      refine ⟨by rw [a]; exact h1, by rw [a]; exact fun v hv => h2 v (he v hv), ?_, ?_, ?_⟩
      · rw [a, d]; exact fun v hv => h3 v (hv.imp (he v) id)
      · intro w' hw; rw [c'] at hw; cases hw
      · intro now' n' hs
        rw [c'] at hs; cases hs
        rw [hk]; exact h5 now _ c
    · have hk := keep (by intro _ hx; cases hx)
      refine ⟨by rw [a]; exact h1, by rw [a, b]; exact h2, by rw [a, b, d]; exact h3, ?_, ?_⟩
      · intro w' hw'
        rw [c'] at hw'; cases hw'
        rw [hk, h5 now n c]
        rcases hw with ⟨_, rfl⟩ | ⟨_, rfl⟩ | ⟨_, e, he, _, rfl⟩
        · exact Or.inl (Nat.le_refl _)
        · exact Or.inl (Nat.le_refl _)
        · obtain ⟨⟨v, hv, rfl⟩, hmin⟩ := heapMin_some he
          refine Or.inr ⟨by rw [d]; exact h3 v (Or.inl hv), fun x hx => ?_⟩
          rw [a, b] at hx
          rcases hx with hx | hx
          · exact Nat.le_trans (hmin x hx) (Nat.le_add_right _ _)
          · exact h2 v hv x hx
      · intro now' n' hs
        rw [c'] at hs; cases hs

/-- Starts lie in the past. -/
theorem started_past {env : Env} {s : St} (hr : Reachable env s) : ∀ k rtn rec n ts,
    .started k rtn rec n ts ∈ s.log → n ≤ s.ticks := by
  refine Reachable.induct (fun s => ∀ k rtn rec n ts, .started k rtn rec n ts ∈ s.log → n ≤ s.ticks) ?_ ?_ s hr
  · intro k rtn rec n ts h; cases h
  · intro s l s' hre hs ha k rtn rec n ts h
    have hti : s.ticks ≤ s'.ticks := by
      obtain ⟨ls, hls⟩ := hre
      rcases way_cases hls ha with ⟨_, _, _, d | d⟩ | ⟨_, _, _, _, _, _, _, _, d⟩ | ⟨_, _, _, _, _, _, d⟩ | ⟨_, _, _, _, _, _, _, _, d⟩ |
        ⟨_, _, _, _, _, _, _, _, d⟩ | ⟨_, _, _, _, _, _, _, _, _, d⟩ <;> omega
    rcases log_cases ha with ⟨o, hn, hmi, _⟩ | ⟨p, t, rec', box', rfl, hp, hp', hb, hn, _⟩ | ⟨e'', _, hn, _⟩ |
      ⟨u, now, o, rfl, _, _, hn⟩ | ⟨rec', r, rfl, _, hn, _⟩
    all_goals rw [hn] at h
    · rcases List.mem_append.1 h with h | h
      · exact (hmi _ h).elim
      · exact Nat.le_trans (hs _ _ _ _ _ h) hti
    all_goals (simp only [List.mem_cons, reduceCtorEq, false_or] at h)
    · rcases h with h | h
      · cases h; exact hti
      · exact Nat.le_trans (hs _ _ _ _ _ h) hti
    all_goals exact Nat.le_trans (hs _ _ _ _ _ h) hti

end DelayTimer
