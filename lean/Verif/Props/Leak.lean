import Verif.Props.Record
import Verif.Props.Fading
import Verif.Props.BodyFair

/-!
# The table of marks grows without bound (C94)

Tasks that have come to their end are kept on record. So the table grows with the number of ids ever used, not with the number
of tasks that are still to run.
-/

namespace DelayTimer
open Spec

/-- A bound for finitely many. -/
theorem common_bound (P : Nat → Nat → Prop) : ∀ N, (∀ i, i < N → ∃ m0, ∀ m, m0 ≤ m → P i m) →
    ∃ m0, ∀ i m, i < N → m0 ≤ m → P i m := by
  intro N
  induction N with
  | zero => intro _; exact ⟨0, fun i m h => absurd h (by omega)⟩
  | succ N ih =>
    intro h
    obtain ⟨a, ha⟩ := ih fun i hi => h i (by omega)
    obtain ⟨b, hb⟩ := h N (by omega)
    refine ⟨a + b, fun i m hi hm => ?_⟩
    by_cases e : i = N
    · subst e; exact hb m (by omega)
    · exact ha i m (by omega) (by omega)

namespace Ex

/-- Tasks `0` to `N - 1`, each to run once, are handed in. -/
def crowd (N : Nat) : List Label := (List.range N).map fun i => .uSend (.add (times 1 i 101 3))

theorem crowd_run (ls : List Label) (h : ∀ l ∈ ls, ∃ t, l = .uSend (.add t)) (s : St) : ∃ s', run env0 s ls = some s' := by
  induction ls generalizing s with
  | nil => exact ⟨s, rfl⟩
  | cons l ls ih =>
    obtain ⟨t, rfl⟩ := h l List.mem_cons_self
    simp only [run, step]
    exact ih (fun l hl => h l (List.mem_cons_of_mem _ hl)) _

/-- **C94** For every `N` there is an execution after which no task at all is waiting, the scheduler has none in its hands, none is
in the channel, and there are records of `N` tasks. -/
theorem C94_unbounded (N : Nat) : ∃ s, Reachable env0 s ∧ (∀ k, Unscheduled k s) ∧ ∀ k, k < N → s.flags k ≠ none := by
  have hadd : ∀ l ∈ crowd N, ∃ i, i < N ∧ l = .uSend (.add (times 1 i 101 3)) := by
    intro l hl
    obtain ⟨i, hi, rfl⟩ := List.mem_map.1 hl
    exact ⟨i, List.mem_range.1 hi, rfl⟩
  obtain ⟨s0, hs0⟩ := crowd_run (crowd N) (fun l hl => (hadd l hl).elim fun i h => ⟨_, h.2⟩) (init env0)
  obtain ⟨c, h1, h2, h3, _, h4⟩ := fair_course hs0
  have hlen : (crowd N).length = N := by simp [crowd]
  rw [hlen] at h1 h4
  have hup := upTo_take (c := c) (n := N) (by rw [h1, hlen])
  have hlab : ∀ i, i < N → c.lab i = some (.uSend (.add (times 1 i 101 3))) := by
    intro i hi
    rw [(hup i (by omega)).2 hi, h1]
    simp [crowd, hi]
  have hoth : ∀ m l k, m ≠ k ∨ N ≤ k → c.lab m = some l → ¬ Touches k l := by
    intro m l k hm hl ht
    by_cases hmN : m < N
    · rw [hlab m hmN] at hl
      cases hl
      have : m = k := ht
      omega
    · have := h4 m l (by omega) hl
      cases l <;> first | exact ht | exact this.elim
  have hcase : ∀ n l, c.lab n = some l → (∃ t, l = .uSend (.add t)) ∨ Unasked l := by
    intro n l hl
    by_cases hn : n < N
    · rw [hlab n hn] at hl; cases hl; exact Or.inl ⟨_, rfl⟩
    · exact Or.inr (h4 n l (by omega) hl)
  have hli := (unchecked_lives (env := env0) rfl c).1
  have htn : c.Turning := by
    refine C71_turning c ?_ ?_ (fun n k t _ j h => by cases h)
    · intro n h
      rcases hcase n _ h with ⟨t, h⟩ | h
      · cases h
      · exact h
    · intro n h
      rcases hcase n _ h with ⟨t, h⟩ | h
      · cases h
      · exact h
  have hrec : ∀ i, i < N → ∃ m0, ∀ m, m0 ≤ m → (c.st m).flags i ≠ none ∧ 0 < (startTicks i (c.st m).log).length := by
    intro i hi
    obtain ⟨a, _, ha⟩ := C94_for_ever c h3.events hli (hlab i hi) (Or.inl rfl) rfl (by intro e; cases e)
      (fun m hm hl => hoth m _ i (Or.inl (by omega)) hl rfl)
    obtain ⟨D, hD⟩ := C71_starts c h3.events h3.scheduler hli htn (hlab i hi) (Or.inl rfl) rfl rfl rfl (by simp [times, runsLeft])
      (by intro e; cases e) (fun m l hm hl => hoth m l i (Or.inl hm) hl)
    obtain ⟨b, hb⟩ := hD 0 D rfl
    refine ⟨a + b, fun m hm => ⟨ha m (by omega), ?_⟩⟩
    have := (List.getElem?_eq_some_iff.1 (hb m (by omega))).1
    exact this
  obtain ⟨m0, hm0⟩ := common_bound (fun i m => (c.st m).flags i ≠ none ∧ 0 < (startTicks i (c.st m).log).length) N hrec
  obtain ⟨m, hm, hhead⟩ := comes_head c h3.scheduler htn (m0 + N)
  have hhead : (c.st m).tpc = .head := hhead
  refine ⟨c.st m, course_reach c m, fun k => ?_, fun k hk => (hm0 k m hk (by omega)).1⟩
  by_cases hk : k < N
  · have hh := handed_once c (hlab k hk) (Or.inl rfl) rfl (fun m l hm hl => hoth m l k (Or.inl hm) hl) m
    rw [if_neg (by omega)] at hh
    have hle := C04_partial hh (n := 1) rfl (Nat.le_refl 1) (course_run c m)
    have hge := (hm0 k m hk (by omega)).2
    have h1 : (startTicks k (c.st m).log).length = 1 := Nat.le_antisymm hle hge
    exact (C50_partial (course_run c m) hh (n := 1) rfl (Nat.le_refl 1) h1 (by rw [hhead]; exact id)).1
  · have hb : ∀ l ∈ c.upTo m, ¬ Brings k l := by
      intro l hl hb
      obtain ⟨j, _, hj⟩ := (mem_upTo c m).1 hl
      refine hoth j l k (Or.inr (by omega)) hj ?_
      cases l <;> try exact hb.elim
      case uSend op => cases op <;> first | exact hb | exact hb.elim
      case uInsert t => exact hb
    have hc := (nobody_run (c.upTo m) (Nobody.init env0 k) hb (course_run c m)).copies (P := fun _ => False) (Q := fun _ => False)
    refine ⟨⟨?_, by rw [hhead]; exact id⟩, chanAdds_nil_iff.1 (List.eq_nil_iff_forall_not_mem.2 hc.chan), ?_⟩
    · rintro ⟨i, sl, u, hw⟩
      exact hc.wheel i u ⟨sl, hw⟩
    · intro ha
      have h6 := hc.epc
      cases he : (c.st m).epc <;> simp only [he, Adding] at ha
      all_goals simp [he, epcTok, if_pos ha] at h6

end Ex

end DelayTimer
