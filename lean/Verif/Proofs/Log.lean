import Verif.Proofs.Due

/-! What the helper functions write to the log, and when attempts and starts are recorded. -/

namespace DelayTimer
open Spec

theorem notifyMark_log (s : St) (id : Nat) (m : TaskMark) (mt : Maintainer) (rec : Int) (st : Nat) :
    (notifyMark s id m mt rec st).2.log = s.log ∨
    ∃ h o, (notifyMark s id m mt rec st).2.log = .stateSet h o st :: s.log := by
  unfold notifyMark
  split
  · left; simp
  · split
    · left; rfl
    · split
      · left; rfl
      · right; exact ⟨_, _, rfl⟩

theorem cancelTask_log (env : Env) (b : Bool) (s : St) (id : Nat) (rec : Int) (st : Nat) :
    (cancelTask env b s id rec st).2.log = s.log ∨
    (cancelTask env b s id rec st).2.log = .stopped id rec :: s.log ∨
    ∃ h o, (cancelTask env b s id rec st).2.log = .stateSet h o st :: .stopped id rec :: s.log := by
  unfold cancelTask
  split
  · left; rfl
  · right
    dsimp only
    split
    · left; rfl
    · split
      · left; rfl
      · rename_i l hl _ m hm _ mt hmt
        have := notifyMark_log
          { s with trace := set s.trace id l, log := .stopped id rec :: s.log } id
          { m with parallelRunnableNum := m.parallelRunnableNum - 1 } mt rec st
        split
        · rename_i h; rw [h] at this; exact this
        · rename_i h; rw [h] at this; exact this

theorem finishTask_log (env : Env) (s : St) (id : Nat) (rec : Int) :
    (finishTask env s id rec).2.log = s.log ∨
    (finishTask env s id rec).2.log = .stopped id rec :: s.log ∨
    ∃ h o, (finishTask env s id rec).2.log = .stateSet h o COMPLETED :: .stopped id rec :: s.log := by
  unfold finishTask
  split
  · left; rfl
  · right
    dsimp only
    split
    · left; rfl
    · split
      · left; rfl
      · rename_i l hl _ m hm _ mt hmt
        have := notifyMark_log
          { s with trace := set s.trace id l, log := .stopped id rec :: s.log } id m mt rec COMPLETED
        split
        · rename_i h; rw [h] at this; exact this
        · rename_i h; rw [h] at this; exact this

theorem attempts_step {env : Env} {s : St} {l : Label} {s' : St} (k : Nat) (h : Act env s l s') :
    attempts k s'.log = attempts k s.log ∨
    (l = .tPop k ∧ ∃ p t, s'.tpc = .check p t ∧ t.taskId = k ∧ s'.log = .attempted k s.ticks :: s.log) := by
  cases h
  case pop_hit pending id sl u h hmem hw hr =>
    by_cases hk : id = k
    · subst hk; exact Or.inr ⟨rfl, _, _, rfl, (removeTask_some hr).2, rfl⟩
    · left; simp [attempts, hk]
  case recv_cancel id rec rest he hc =>
    left
    rcases cancelTask_log env true { s with chan := rest } id rec CANCELLED with h | h | ⟨_, _, h⟩ <;>
      simp [h, attempts]
  case recv_timeout id rec rest he hc =>
    left
    rcases cancelTask_log env false { s with chan := rest } id rec TIMEOUT with h | h | ⟨_, _, h⟩ <;>
      simp [h, attempts]
  case recv_finish b rest he hc =>
    left
    rcases finishTask_log env { s with chan := rest } b.taskId b.recordId with h | h | ⟨_, _, h⟩ <;>
      simp [h, attempts]
  all_goals first | exact Or.inl rfl | (left; simp [attempts])

theorem starts_step {env : Env} {s : St} {l : Label} {s' : St} (k : Nat) (h : Act env s l s') :
    (startTicks k s'.log = startTicks k s.log ∧ startRoutines k s'.log = startRoutines k s.log) ∨
    (l = .tSpawn false ∧ ∃ p t rec box, s.tpc = .spawn p t rec ∧ s'.tpc = .append p t box ∧
      t.taskId = k ∧ s'.log = .started k t.routine rec s.ticks (env.clock s.ticks) :: s.log) := by
  cases h
  case spawn pending t rec h =>
    by_cases hk : t.taskId = k
    · subst hk; exact Or.inr ⟨rfl, _, _, _, _, h, rfl, rfl, rfl⟩
    · left; simp [startTicks, startRoutines, hk]
  case recv_cancel id rec rest he hc =>
    left
    rcases cancelTask_log env true { s with chan := rest } id rec CANCELLED with h | h | ⟨_, _, h⟩ <;>
      simp [h, startTicks, startRoutines]
  case recv_timeout id rec rest he hc =>
    left
    rcases cancelTask_log env false { s with chan := rest } id rec TIMEOUT with h | h | ⟨_, _, h⟩ <;>
      simp [h, startTicks, startRoutines]
  case recv_finish b rest he hc =>
    left
    rcases finishTask_log env { s with chan := rest } b.taskId b.recordId with h | h | ⟨_, _, h⟩ <;>
      simp [h, startTicks, startRoutines]
  all_goals first | exact Or.inl ⟨rfl, rfl⟩ | (left; simp [startTicks, startRoutines])

end DelayTimer
