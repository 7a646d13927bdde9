import Verif.Proofs.Prompt
import Verif.Proofs.Alive
import Verif.Props.Timeout
import Verif.Props.Nap

/-!
# C92: the sweeper oversleeps by no more than the running time limits differ
-/

namespace DelayTimer

open Spec

/-- **C92** The sweeper sleeps until `w`, and some deadline has been registered and not dealt with. If all running time limits lie
between `lo` and `hi` and the clock does not go back, it gets up by `hi - lo` after that deadline, or three seconds after its last
round. -/
theorem C92_late {env : Env} {lo hi w : Nat} {ls : List Label} {s : St} {u : RecycleUnit}
    (hc : ∀ n, env.clock n ≤ env.clock (n + 1)) (h : run env (init env) ls = some s)
    (hf : ∀ n, n ≤ s.ticks → env.clock n + hi < 2 ^ 64)
    (hm : ∀ k, ∀ t ∈ handed k ls, ∀ m, t.maximumRunningTime = some m → lo ≤ m ∧ m ≤ hi) (hw : s.spc = .idle w)
    (hu : u ∈ s.heap ∨ u ∈ s.unitChan) : w ≤ max (u.deadline + (hi - lo)) (lastRound ls + 3) := by
  rcases (prompt_run hc h hf hm).idle w hw with h1 | ⟨_, h1⟩
  · omega
  · have := h1 u (hu.imp id fun hx => by simp [onWay, hx])
    omega

/-- **C92** If all running time limits are the same, it gets up by that deadline, or three seconds after its last round. -/
theorem C92_awake {env : Env} {m w : Nat} {ls : List Label} {s : St} {u : RecycleUnit}
    (hc : ∀ n, env.clock n ≤ env.clock (n + 1)) (h : run env (init env) ls = some s)
    (hf : ∀ n, n ≤ s.ticks → env.clock n + m < 2 ^ 64)
    (hm : ∀ k, ∀ t ∈ handed k ls, t.maximumRunningTime = none ∨ t.maximumRunningTime = some m) (hw : s.spc = .idle w)
    (hu : u ∈ s.heap ∨ u ∈ s.unitChan) : w ≤ max u.deadline (lastRound ls + 3) := by
  have := C92_late (lo := m) hc h hf ?_ hw hu
  · rwa [Nat.sub_self] at this
  · intro k t ht m' h1
    rcases hm k t ht with h2 | h2 <;> rw [h1] at h2 <;> cases h2
    exact ⟨Nat.le_refl _, Nat.le_refl _⟩

/-- **C92** In terms of a run: once it is registered, either its deadline has been dealt with, or the sweeper is in a round, or it
can get up at any reading from `hi - lo` after the deadline on that is three seconds after its last round. -/
theorem C92_run {env : Env} {lo hi m : Nat} {ls : List Label} {s : St} {id rtn n ts r : Nat} {rec : Int}
    (hc : ∀ n, env.clock n ≤ env.clock (n + 1)) (h : run env (init env) ls = some s)
    (hf : ∀ n, n ≤ s.ticks → env.clock n + hi < 2 ^ 64)
    (hm : ∀ k, ∀ t ∈ handed k ls, ∀ m, t.maximumRunningTime = some m → lo ≤ m ∧ m ≤ hi)
    (hid : ∀ t ∈ handed id ls, t.maximumRunningTime = some m) (hs : .started id rtn rec n ts ∈ s.log)
    (hd : .append id rec ∈ dispatchedTags s.log) (h1 : ts + m + (hi - lo) ≤ r) (h2 : lastRound ls + 3 ≤ r) :
    (∃ now, .swept ⟨ts + m, id, rec⟩ now ∈ s.log) ∨ (∃ now i, s.spc = .active now i) ∨ ∃ s', step env s (.sWake r) = some s' := by
  have hts := started_clock ⟨ls, h⟩ _ _ _ _ _ hs
  have hnt := started_past ⟨ls, h⟩ _ _ _ _ _ hs
  have hmh : m ≤ hi := by
    obtain ⟨t, ht, _⟩ := C52_origin h hs
    exact (hm id t ht m (hid t ht)).2
  have hfn := hf n hnt
  have hu := C66_registered h hid hs (by rw [hts]; omega) hd
  have up : ⟨ts + m, id, rec⟩ ∈ s.heap ∨ ⟨ts + m, id, rec⟩ ∈ s.unitChan →
      (∃ now i, s.spc = .active now i) ∨ ∃ s', step env s (.sWake r) = some s' := by
    intro hx
    cases hw : s.spc with
    | active now i => exact Or.inl ⟨now, i, rfl⟩
    | idle w =>
      have := C92_late hc h hf hm hw hx
      dsimp only at this
      exact Or.inr ⟨_, by simp only [step, sWake, hw]; rw [if_pos (by omega)]⟩
  rcases List.mem_append.1 hu with hu | hu
  · rcases List.mem_append.1 hu with hu | hu
    · exact Or.inl (mem_sweptUnits.1 hu)
    · exact Or.inr (up (Or.inl hu))
  · exact Or.inr (up (Or.inr hu))

/-- From the beginning of a round at `now`, with the deadlines `H` in the heap and the history `L`, up to the next round. -/
def InRound (now : Nat) (H : List RecycleUnit) (L : List Obs) (s : St) : Prop :=
  (∀ r n, s.spc = .active r n → r = now ∧ ∀ u ∈ s.heap, u ∈ H) ∧ ∀ v r, .swept v r ∈ s.log → .swept v r ∈ L ∨ r = now ∧ v ∈ H

theorem inRound_step {env : Env} {now : Nat} {H : List RecycleUnit} {L : List Obs} {s s' : St} {l : Label} (hr : Reachable env s)
    (hl : ∀ r, l ≠ .sWake r) (ha : Act env s l s') (h : InRound now H L s) : InRound now H L s' := by
  obtain ⟨h1, h2⟩ := h
  refine ⟨?_, ?_⟩
  · intro r n hs
    rcases unit_cases hr ha with ⟨_, b, c, _, _⟩ | ⟨_, _, _, _, _, _, b, c, _, _⟩ | ⟨_, _, _, _, _, _, _, _, c, _⟩ |
      ⟨_, now', rfl, _⟩ | ⟨u, now', n', _, hq, _, _, _, _, b, c, _⟩ | ⟨_, _, _, _, _, c, _⟩
    · rw [b]; exact h1 r n (c ▸ hs)
    · rw [b]; exact h1 r n (c ▸ hs)
    · rw [c] at hs; cases hs
    · exact absurd rfl (hl now')
    · rw [c] at hs; cases hs
      obtain ⟨h3, h4⟩ := h1 _ _ hq
      exact ⟨h3, fun v hv => h4 v (List.mem_of_mem_erase (b ▸ hv))⟩
    · rw [c] at hs; cases hs
  · intro v r hv
    rcases news_cases ha with ⟨new, h3, h4⟩ | ⟨u, now', i, rfl, hs, h3⟩
    · rw [h3] at hv
      rcases List.mem_append.1 hv with hv | hv
      · exact absurd hv (h4 v r)
      · exact h2 v r hv
    · rw [h3] at hv
      rcases List.mem_append.1 hv with hv | hv
      · simp at hv
        obtain ⟨rfl, rfl⟩ := hv
        obtain ⟨rfl, h5⟩ := h1 _ _ hs
        refine Or.inr ⟨rfl, h5 _ ?_⟩
        cases ha
        case spop hu _ _ => exact hu
      · exact h2 v r hv

/-- **C92** How late a deadline is dealt with. If the sweeper gets up at most `e` after the end of its sleep, then every deadline it
deals with in this round is dealt with at a reading no more than `e` after the later of: `hi - lo` past the deadline, and three
seconds past the beginning of the round before. -/
theorem C92_swept {env : Env} {lo hi w e now r : Nat} {ls1 ls2 : List Label} {s1 s2 : St} {u : RecycleUnit}
    (hc : ∀ n, env.clock n ≤ env.clock (n + 1)) (h1 : run env (init env) ls1 = some s1)
    (hf : ∀ n, n ≤ s1.ticks → env.clock n + hi < 2 ^ 64)
    (hm : ∀ k, ∀ t ∈ handed k ls1, ∀ m, t.maximumRunningTime = some m → lo ≤ m ∧ m ≤ hi) (hw : s1.spc = .idle w)
    (he : now ≤ w + e) (h2 : run env s1 (.sWake now :: ls2) = some s2) (hl : ∀ r, .sWake r ∉ ls2)
    (hn : .swept u r ∉ s1.log) (hs : .swept u r ∈ s2.log) : r ≤ max (u.deadline + (hi - lo)) (lastRound ls1 + 3) + e := by
  have key : ∀ (ls : List Label) (s s' : St), Reachable env s → InRound now s1.heap s1.log s → (∀ r, .sWake r ∉ ls) →
      run env s ls = some s' → InRound now s1.heap s1.log s' := by
    intro ls
    induction ls with
    | nil => intro s s' _ h _ hx; cases hx; exact h
    | cons l ls ih =>
      intro s s' hr h hl hx
      simp only [run] at hx
      split at hx
      · rename_i x hst
        exact ih x s' (hr.step hst) (inRound_step hr (fun r hlr => hl r (hlr ▸ List.mem_cons_self)) (step_act hst) h)
          (fun r hlr => hl r (List.mem_cons_of_mem _ hlr)) hx
      · cases hx
  simp only [run] at h2
  split at h2
  · rename_i x hst
    have hr1 : Reachable env s1 := ⟨ls1, h1⟩
    have hx : InRound now s1.heap s1.log x := by
      have ha := step_act hst
      cases ha
      case swake => exact ⟨fun r n hs => by cases hs; exact ⟨rfl, fun _ h => h⟩, fun v r hv => Or.inl hv⟩
    rcases (key ls2 x s2 (hr1.step hst) hx hl h2).2 u r hs with h3 | ⟨rfl, h3⟩
    · exact absurd h3 hn
    · have := C92_late hc h1 hf hm hw (Or.inl h3)
      omega
  · cases h2

end DelayTimer

namespace DelayTimer.Ex

open Spec

/-- Limits of a thousand seconds and of one: the round of the sweeper falls between the registrations of two runs started in the
same second. -/
def unequal : List Label :=
  add { every 1 101 5000 with maximumRunningTime := some 1 } ++ add { every 2 101 5000 with maximumRunningTime := some 1000 } ++
  idles 2 ++ pop 2 0 ++ [.tSlot, .tMark, .eRecv, .sAdd, .sWake 102, .sRest, .tPop 1, .tCheck 1, .tSpawn false, .tAppend, .tGate,
    .tSlot, .tMark, .tLapse, .eRecv, .sAdd]

/-- C92: the bound is met exactly. In `unequal` the sweeper sleeps until 1102; the deadline is 103, and the limits differ by 999. -/
example : ∃ s, run env0 (init env0) unequal = some s ∧
    (∀ k, ∀ t ∈ handed k unequal, ∀ m, t.maximumRunningTime = some m → 1 ≤ m ∧ m ≤ 1000) ∧
    s.spc = .idle 1102 ∧ ⟨103, 1, 1⟩ ∈ s.heap ∧ 1102 = 103 + (1000 - 1) ∧ lastRound unequal = 102 ∧
    (∀ n, n ≤ s.ticks → env0.clock n + 1000 < 2 ^ 64) := by
  refine ⟨play env0 unequal, play_run (by decide +kernel), ?_, by decide +kernel, by decide +kernel, rfl, rfl, ?_⟩
  · intro k t ht m hm
    simp [unequal, handed, broughtBy, add, idles, idle, pop] at ht
    rcases ht with ⟨_, rfl⟩ | ⟨_, rfl⟩ <;> cases hm <;> omega
  · intro n hn
    have : (play env0 unequal).ticks = 3 := by decide +kernel
    simp only [env0]
    omega

/-- C92: in `dried` the second deadline, 105, is dealt with at 106, three seconds after the round at 103. -/
example : ∃ s1 s2, run env0 (init env0) dried.dropLast.dropLast = some s1 ∧ s1.spc = .idle 106 ∧
    run env0 s1 [.sWake 106, .sPop ⟨105, 1, 1⟩] = some s2 ∧ .swept ⟨105, 1, 1⟩ 106 ∉ s1.log ∧ .swept ⟨105, 1, 1⟩ 106 ∈ s2.log ∧
    106 = lastRound dried.dropLast.dropLast + 3 := by
  refine ⟨play env0 dried.dropLast.dropLast, play env0 dried, play_run (by decide +kernel), by decide +kernel, ?_, by decide +kernel,
    by decide +kernel, rfl⟩
  have h : run env0 (init env0) (dried.dropLast.dropLast ++ [.sWake 106, .sPop ⟨105, 1, 1⟩]) = some (play env0 dried) :=
    play_run (ls := dried) (by decide +kernel)
  rw [run_append, play_run (by decide +kernel)] at h
  exact h

/-- C92: in `dried`, before the second deadline is dealt with, the sweeper sleeps until 106, three seconds after its last round.
The deadline is 105. -/
example : ∃ ls s, run env0 (init env0) ls = some s ∧ (∀ k, ∀ t ∈ handed k ls, t.maximumRunningTime = none ∨ t.maximumRunningTime = some 1) ∧
    s.spc = .idle 106 ∧ ⟨105, 1, 1⟩ ∈ s.heap ∧ lastRound ls = 103 ∧
    (∀ n, n ≤ s.ticks → env0.clock n + 1 < 2 ^ 64) := by
  refine ⟨dried.dropLast.dropLast, play env0 dried.dropLast.dropLast, play_run (by decide +kernel), ?_, by decide +kernel, by decide +kernel, rfl, ?_⟩
  · intro k t ht
    simp [dried, handed, broughtBy, add, idles, idle, pop, fire] at ht
    rw [ht.2]
    exact Or.inr rfl
  · intro n hn
    have : (play env0 dried.dropLast.dropLast).ticks = 5 := by decide +kernel
    simp only [env0]
    omega

end DelayTimer.Ex
