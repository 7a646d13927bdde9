import Verif.Proofs.Start

/-! Concrete executions, used to show that the hypotheses of the theorems can be met and to refute
properties the code does not have. -/

namespace DelayTimer.Ex
open Spec

/-- A clock that starts at 100 and is in step with the wheel. -/
def env0 : Env where
  clock := fun n => 100 + n
  boot := 100
  overflowChecks := false
  statusReport := true
  nightly := false

/-- Task `id` with alarms at `first`, `first + p`, … -/
def every (id first p : Nat) : Task where
  taskId := id
  routine := id
  frequency := .secondsRepeated (.new first p)
  maximumRunningTime := none
  cylinderLine := 0
  valid := true
  maximumParallelRunnableNum := none

/-- The same with a count-down of `n`. -/
def times (n id first p : Nat) : Task :=
  { every id first p with frequency := .secondsCountDown n (.new first p) }

def play (env : Env) (ls : List Label) : St := (run env (init env) ls).getD (init env)

theorem play_run {env : Env} {ls : List Label} (h : (run env (init env) ls).isSome) :
    run env (init env) ls = some (play env ls) := by
  unfold play
  cases hr : run env (init env) ls with
  | none => rw [hr] at h; cases h
  | some s => rfl

theorem play_reachable {env : Env} {ls : List Label} (h : (run env (init env) ls).isSome) :
    Reachable env (play env ls) := ⟨ls, play_run h⟩

/-- An iteration of the scheduler without a task to run. -/
def idle : List Label := [.tLoad, .tStore, .tArrive, .tLapse]

/-- `n` such iterations. -/
def idles : Nat → List Label
  | 0 => []
  | n + 1 => idle ++ idles n

/-- The beginning of an iteration that runs `id`, up to re-arming. -/
def pop (id : Nat) (rec : Int) : List Label :=
  [.tLoad, .tStore, .tArrive, .tPop id, .tCheck rec, .tSpawn false, .tAppend, .tGate]

/-- An iteration that runs and re-arms `id`. -/
def fire (id : Nat) (rec : Int) : List Label := pop id rec ++ [.tSlot, .tMark, .tLapse]

/-- `add_task` called and processed at once. -/
def add (t : Task) : List Label := [.uSend (.add t), .eRecv, .eNext, .eNext, .eNext]

/-- `insert_task` called and processed at once. -/
def ins (t : Task) : List Label := [.uInsert t, .eRecv, .eNext, .eNext, .eNext]

/-- Looks for `k` in all slots. -/
def scan (k : Nat) (s : St) : Bool :=
  (List.range 3600).any fun i =>
    match s.wheel i with
    | some sl => sl.any (fun t => t.taskId == k)
    | none => false

theorem not_waiting {env : Env} {k : Nat} {s : St} (hr : Reachable env s) (h : scan k s = false) :
    ¬ Waiting k s := by
  rintro ⟨i, sl, t, h1, h2, h3⟩
  have hi : i < 3600 := by
    have := ((wheelOk hr).shape.1 i).1 (by rw [h1]; rfl)
    exact this
  simp only [scan, List.any_eq_false, List.mem_range] at h
  have := h i hi
  rw [h1] at this
  simp only [Bool.not_eq_true, List.any_eq_false, beq_iff_eq] at this
  exact this t h2 h3

/-- Looks for copies of `k` in all slots but `i`. -/
def elsewhere (k i : Nat) (s : St) : Bool :=
  (List.range 3600).any fun j => j != i &&
    match s.wheel j with
    | some sl => sl.any (fun t => t.taskId == k)
    | none => false

theorem only_at {env : Env} {k i : Nat} {s : St} (hr : Reachable env s) (h : elsewhere k i s = false) :
    ∀ j sl t, s.wheel j = some sl → t ∈ sl → t.taskId = k → j = i := by
  intro j sl t h1 h2 h3
  have hj : j < 3600 := ((wheelOk hr).shape.1 j).1 (by rw [h1]; rfl)
  simp only [elsewhere, List.any_eq_false, List.mem_range] at h
  have := h j hj
  rw [h1] at this
  simp only [Bool.and_eq_true, bne_iff_ne, ne_eq, List.any_eq_true, beq_iff_eq, not_and, not_exists] at this
  cases Nat.decEq j i with
  | isTrue h => exact h
  | isFalse h => exact absurd h3 (this h t h2)

end DelayTimer.Ex
