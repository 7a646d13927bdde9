import Verif.Proofs.Alive
import Verif.Examples

/-! # The wheel itself: C46 -/

namespace DelayTimer
open Spec

/-- C46, first part. The hand is on the wheel, stands where the number of ticks says, and its slot
exists. -/
theorem C46_slot_found {env : Env} {s : St} (h : Reachable env s) :
    s.secondHand < 3600 ∧ s.secondHand = s.ticks % 3600 ∧ ∃ sl, s.wheel s.secondHand = some sl := by
  have hw := wheelOk h
  refine ⟨hw.hand_lt, hw.hand, ?_⟩
  exact Option.isSome_iff_exists.1 ((hw.shape.1 _).2 hw.hand_lt)

/-- C46, second part. No action moves the hand except the end of an iteration, which moves it by one
position. -/
theorem C46_hand_moves {env : Env} {s s' : St} {l : Label} (h : step env s l = some s') :
    (l ≠ .tLapse ∧ s'.secondHand = s.secondHand ∧ s'.ticks = s.ticks) ∨
    (l = .tLapse ∧ s'.secondHand = (s.secondHand + 1) % 3600 ∧ s'.ticks = s.ticks + 1) := by
  cases step_act h
  case lapse => exact Or.inr ⟨rfl, rfl, rfl⟩
  all_goals left
  all_goals try (exact ⟨by simp, rfl, rfl⟩)
  all_goals (refine ⟨by simp, ?_, ?_⟩ <;> simp)

/-- C46, from any state to any later one: the hand has moved by as many positions as there were ticks. -/
theorem C46_hand_distance {env : Env} {s s' : St} {ls : List Label} (hr : Reachable env s)
    (h : run env s ls = some s') :
    s.ticks ≤ s'.ticks ∧ s'.secondHand = (s.secondHand + (s'.ticks - s.ticks)) % 3600 := by
  have h1 := (wheelOk hr).hand
  have h2 := (wheelOk (hr.run h)).hand
  have h3 : s.ticks ≤ s'.ticks := by
    refine run_induct (env := env) (fun x => s.ticks ≤ x.ticks) ?_ ls s s' (Nat.le_refl _) h
    intro a l b hab ha
    cases ha
    all_goals try (exact hab)
    all_goals try (simpa using hab)
    case lapse h => exact Nat.le_succ_of_le hab
  refine ⟨h3, ?_⟩
  rw [h1, h2]; omega

/-- An upper bound on what the scheduler still has to do in an iteration. -/
def work : TPC → Nat
  | .head => 0
  | .store => 0
  | .arrive => 0
  | .batch p => 8 * p.length
  | .check p _ => 8 * p.length + 7
  | .spawn p _ _ => 8 * p.length + 6
  | .append p _ _ => 8 * p.length + 5
  | .gate p _ _ => 8 * p.length + 4
  | .rearm p _ _ => 8 * p.length + 3
  | .mark p _ _ _ => 8 * p.length + 2
  | .halted => 0
  | .panicked => 0

theorem work_step {env : Env} {s s' : St} {l : Label} (h : Act env s l s') (hp : past s.tpc = true)
    (hl : l ≠ .tLapse) :
    past s'.tpc = true ∧ work s'.tpc + (if ByScheduler l then 1 else 0) ≤ work s.tpc := by
  cases h
  all_goals try (exact ⟨hp, Nat.le_refl _⟩)
  all_goals try (exact absurd rfl hl)
  all_goals try (rw [‹s.tpc = _›] at hp; cases hp; done)
  case pop_hit pending id sl t h hmem hw hr =>
    have := List.length_erase_of_mem hmem
    have := List.length_pos_of_mem hmem
    refine ⟨rfl, ?_⟩
    simp only [h, work, ByScheduler, if_true]
    omega
  case pop_miss pending id h hmem hw =>
    have := List.length_erase_of_mem hmem
    have := List.length_pos_of_mem hmem
    refine ⟨rfl, ?_⟩
    simp only [h, work, ByScheduler, if_true]
    omega
  all_goals try (refine ⟨rfl, ?_⟩; simp only [‹s.tpc = _›, work, ByScheduler, if_true]; omega)
  all_goals (refine ⟨?_, ?_⟩ <;> simp [ByScheduler, hp])

/-- C46, third part: no spinning. Once the scheduler has looked at its slot and found the tasks `p` due, it
reaches the end of the iteration within `8 * p.length` actions of its own, however the other threads
interfere. -/
theorem C46_no_spin {env : Env} : ∀ (ls : List Label) {s s' : St} {p : List Nat}, s.tpc = .batch p →
    run env s ls = some s' → .tLapse ∉ ls → (ls.filter ByScheduler).length ≤ 8 * p.length := by
  suffices H : ∀ (ls : List Label) {s s' : St}, past s.tpc = true → run env s ls = some s' → .tLapse ∉ ls →
      (ls.filter ByScheduler).length ≤ work s.tpc by
    intro ls s s' p hp hr hl
    have := H ls (by rw [hp]; rfl) hr hl
    rw [hp] at this; exact this
  intro ls
  induction ls with
  | nil => intros; simp
  | cons l ls ih =>
    intro s s' hp hr hl
    simp only [run] at hr
    cases hs : step env s l with
    | none => rw [hs] at hr; cases hr
    | some s1 =>
      rw [hs] at hr
      simp only [List.mem_cons, not_or] at hl
      obtain ⟨h1, h2⟩ := work_step (step_act hs) hp (fun h => hl.1 h.symm)
      have h3 := ih h1 hr hl.2
      cases hb : ByScheduler l <;> simp [hb] at h2 ⊢ <;> omega

/-- C46, fourth part: and it is never stuck. From every state the timer can get into, if the tasks handed in
cannot make the scheduler thread panic, it can, unless it has been stopped or a closure has panicked, complete its
iteration and any number of further ones by itself. (Without overflow checks every task is safe.) -/
theorem C46_goes_on {env : Env} {pre : List Label} {s : St} (hr : run env (init env) pre = some s)
    (n : Nat)
    (hsafe : ∀ k, ∀ t ∈ handed k pre, Safe env ((attempts k s.log).length + n + 3) t)
    (hm : s.motivation = true) (hh : s.tpc ≠ .halted) (hp : s.tpc ≠ .panicked) :
    ∃ ls s', (∀ l ∈ ls, ByScheduler l = true) ∧ run env s ls = some s' ∧ s'.ticks = s.ticks + (n + 1) := by
  obtain ⟨s', ⟨ls, h1, h2, _⟩, _, h3⟩ := finish_ticks n (sound_of_handed hr hsafe) hm hh hp
  refine ⟨ls, s', fun l hl => ?_, h1, h3⟩
  have := h2 l hl
  cases l <;> first | rfl | exact this.elim

/-- Two tasks are due in the same tick; one is removed by the event thread meanwhile. -/
example : ∃ s s' ls, Reachable Ex.env0 s ∧ s.tpc = .batch [1, 2] ∧ run Ex.env0 s ls = some s' ∧
    .tLapse ∉ ls ∧ (ls.filter ByScheduler).length = 8 ∧ s'.tpc = .batch [] ∧ s.secondHand = 4 := by
  refine ⟨Ex.play Ex.env0 (Ex.add (Ex.every 1 103 5) ++ Ex.add (Ex.every 2 103 5) ++ Ex.idles 4 ++
      [.tLoad, .tStore, .tArrive]), _,
    [.tPop 1, .tCheck 0, .tSpawn false, .uSend (.remove 2), .eRecv, .eNext, .tAppend, .tGate, .tSlot, .tMark] ++ [.tPop 2],
    Ex.play_reachable (by decide +kernel), rfl, rfl, by simp, by decide, rfl, rfl⟩

end DelayTimer
