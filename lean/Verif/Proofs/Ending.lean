import Verif.Proofs.Runs

/-! The three ways to end an instance, in one relation. -/

namespace DelayTimer
open Spec

/-- Kinds of end events. -/
inductive EndKind where
  | cancel | timeout | finish
deriving DecidableEq

/-- The state the instance gets. -/
def EndKind.state : EndKind → Nat
  | .cancel => CANCELLED
  | .timeout => TIMEOUT
  | .finish => COMPLETED

/-- The result when the run is not in the books. -/
def EndKind.missRes : EndKind → Option Bool
  | .timeout => some false
  | _ => none

/-- The result when the task is unknown. -/
def EndKind.noMarkRes : EndKind → Option Bool
  | .cancel => none
  | .timeout => some false
  | .finish => some true

/-- The event. -/
def EndKind.tag : EndKind → Nat → Int → Tag
  | .cancel => .cancel
  | .timeout => .timeout
  | .finish => .finish

/-- The parallel count when the notification fails. -/
def EndKind.failNum (k : EndKind) (n : Nat) : Nat :=
  match k with
  | .finish => n
  | _ => n - 1

/-- Processing an end event for run `rec` of task `id`: result and new state. -/
inductive Ending (env : Env) (s : St) (k : EndKind) (id : Nat) (rec : Int) : Option Bool → St → Prop
  | miss (hq : quitOne env (s.trace id) rec = none) : Ending env s k id rec k.missRes s
  | nomark (l : List HandlerBox) (hq : quitOne env (s.trace id) rec = some l) (hf : s.flags id = none) :
      Ending env s k id rec k.noMarkRes
        { s with trace := set s.trace id l, log := .stopped id rec :: s.log }
  | nochain (l : List HandlerBox) (m : TaskMark) (hq : quitOne env (s.trace id) rec = some l)
      (hf : s.flags id = some m) (hm : m.maintainer = none) :
      Ending env s k id rec (some true)
        { s with
          trace := set s.trace id l, log := .stopped id rec :: s.log
          flags := set s.flags id (some { m with parallelRunnableNum := m.parallelRunnableNum - 1 }) }
  | dropped (l : List HandlerBox) (m : TaskMark) (mt : Maintainer)
      (hq : quitOne env (s.trace id) rec = some l) (hf : s.flags id = some m) (hm : m.maintainer = some mt)
      (hd : s.chainState mt.chain = DROPPED) :
      Ending env s k id rec none
        { s with
          trace := set s.trace id l, log := .stopped id rec :: s.log
          chainState := set s.chainState mt.chain ABANDONED
          flags := set s.flags id
            (some { m with parallelRunnableNum := k.failNum m.parallelRunnableNum, maintainer := none }) }
  | unlisted (l : List HandlerBox) (m : TaskMark) (mt : Maintainer)
      (hq : quitOne env (s.trace id) rec = some l) (hf : s.flags id = some m) (hm : m.maintainer = some mt)
      (hd : s.chainState mt.chain ≠ DROPPED) (hi : ∀ i ∈ mt.innerList, i.recordId ≠ rec) :
      Ending env s k id rec none
        { s with
          trace := set s.trace id l, log := .stopped id rec :: s.log
          flags := set s.flags id (some { m with parallelRunnableNum := k.failNum m.parallelRunnableNum }) }
  | found (l : List HandlerBox) (m : TaskMark) (mt : Maintainer) (a : List Instance) (i : Instance)
      (b : List Instance) (hq : quitOne env (s.trace id) rec = some l) (hf : s.flags id = some m)
      (hm : m.maintainer = some mt) (hd : s.chainState mt.chain ≠ DROPPED)
      (hl : mt.innerList = a ++ i :: b) (hi : i.recordId = rec) :
      Ending env s k id rec (some true)
        { s with
          trace := set s.trace id l
          hdrState := set s.hdrState i.hdr k.state
          waiters := fun w => if s.waiters w = .listening i.hdr then .woken i.hdr else s.waiters w
          log := .stateSet i.hdr (s.hdrState i.hdr) k.state :: .stopped id rec :: s.log
          flags := set s.flags id (some { m with
            parallelRunnableNum := m.parallelRunnableNum - 1
            maintainer := some { mt with innerList := a ++ b } }) }

theorem findIdx?_split {α : Type} {p : α → Bool} {l : List α} {k : Nat} (h : l.findIdx? p = some k) :
    ∃ x r, l.drop k = x :: r ∧ l = l.take k ++ x :: r ∧ p x = true := by
  rw [List.findIdx?_eq_some_iff_getElem] at h
  obtain ⟨hk, h1, _⟩ := h
  have h2 : l.drop k = l[k] :: l.drop (k + 1) := by simp
  exact ⟨l[k], l.drop (k + 1), h2, by rw [← h2]; simp, h1⟩

theorem set_set {α : Type} (f : Nat → α) (k : Nat) (v w : α) : set (set f k v) k w = set f k w := by
  funext x; simp only [set]; split <;> rfl

theorem set_self {α : Type} (f : Nat → α) (k : Nat) : set f k (f k) = f := by
  funext x; simp only [set]; split
  · rename_i h; rw [h]
  · rfl

/-- The three outcomes of a notification. -/
theorem notifyMark_cases (s : St) (id : Nat) (m : TaskMark) (mt : Maintainer) (rec : Int) (st : Nat) :
    (s.chainState mt.chain = DROPPED ∧ notifyMark s id m mt rec st =
      (false, { s with
        chainState := set s.chainState mt.chain ABANDONED
        flags := set s.flags id (some { m with maintainer := none }) })) ∨
    (s.chainState mt.chain ≠ DROPPED ∧ (∀ i ∈ mt.innerList, i.recordId ≠ rec) ∧ notifyMark s id m mt rec st =
      (false, { s with flags := set s.flags id (some m) })) ∨
    (s.chainState mt.chain ≠ DROPPED ∧ ∃ a i b, mt.innerList = a ++ i :: b ∧ i.recordId = rec ∧
      notifyMark s id m mt rec st = (true, { s with
        hdrState := set s.hdrState i.hdr st
        waiters := fun w => if s.waiters w = .listening i.hdr then .woken i.hdr else s.waiters w
        log := .stateSet i.hdr (s.hdrState i.hdr) st :: s.log
        flags := set s.flags id (some { m with maintainer := some { mt with innerList := a ++ b } }) })) := by
  by_cases hd : s.chainState mt.chain = DROPPED
  · left; refine ⟨hd, ?_⟩; simp [notifyMark, hd, dropMaintainer]
  · right
    cases hi : mt.innerList.findIdx? (fun i => i.recordId == rec) with
    | none =>
      left
      rw [List.findIdx?_eq_none_iff] at hi
      refine ⟨hd, fun i h => by simpa using hi i h, ?_⟩
      have hi' : mt.innerList.findIdx? (fun i => i.recordId == rec) = none := by
        rw [List.findIdx?_eq_none_iff]; exact hi
      simp [notifyMark, hd, hi']
    | some k =>
      right
      obtain ⟨x, r, h1, h2, h3⟩ := findIdx?_split hi
      refine ⟨hd, mt.innerList.take k, x, r, h2, by simpa using h3, ?_⟩
      simp only [notifyMark, if_neg hd, hi, h1]
      rfl

theorem Ending.of_cancel (env : Env) (s : St) (id : Nat) (rec : Int) :
    Ending env s .cancel id rec (DelayTimer.cancelTask env true s id rec CANCELLED).1
      (DelayTimer.cancelTask env true s id rec CANCELLED).2 := by
  unfold DelayTimer.cancelTask
  cases hq : quitOne env (s.trace id) rec with
  | none => exact .miss hq
  | some l =>
    simp only
    cases hf : s.flags id with
    | none => exact .nomark l hq hf
    | some m =>
      simp only
      cases hm : m.maintainer with
      | none =>
        have := Ending.nochain (env := env) (k := .cancel) (rec := rec) l m hq hf hm
        simpa only [hm] using this
      | some mt =>
        simp only
        rcases notifyMark_cases { s with trace := set s.trace id l, log := .stopped id rec :: s.log } id
          { m with parallelRunnableNum := m.parallelRunnableNum - 1 } mt rec CANCELLED with
          ⟨h1, h2⟩ | ⟨h1, h3, h2⟩ | ⟨h1, a, i, b, h3, h4, h2⟩ <;> simp only [hm] at h2 ⊢ <;> rw [h2]
        · exact .dropped l m mt hq hf hm h1
        · exact hm ▸ .unlisted l m mt hq hf hm h1 h3
        · exact .found l m mt a i b hq hf hm h1 h3 h4

theorem Ending.of_timeout (env : Env) (s : St) (id : Nat) (rec : Int) :
    Ending env s .timeout id rec (DelayTimer.cancelTask env false s id rec TIMEOUT).1
      (DelayTimer.cancelTask env false s id rec TIMEOUT).2 := by
  unfold DelayTimer.cancelTask
  cases hq : quitOne env (s.trace id) rec with
  | none => exact .miss hq
  | some l =>
    simp only
    cases hf : s.flags id with
    | none => exact .nomark l hq hf
    | some m =>
      simp only
      cases hm : m.maintainer with
      | none =>
        have := Ending.nochain (env := env) (k := .timeout) (rec := rec) l m hq hf hm
        simpa only [hm] using this
      | some mt =>
        simp only
        rcases notifyMark_cases { s with trace := set s.trace id l, log := .stopped id rec :: s.log } id
          { m with parallelRunnableNum := m.parallelRunnableNum - 1 } mt rec TIMEOUT with
          ⟨h1, h2⟩ | ⟨h1, h3, h2⟩ | ⟨h1, a, i, b, h3, h4, h2⟩ <;> simp only [hm] at h2 ⊢ <;> rw [h2]
        · exact .dropped l m mt hq hf hm h1
        · exact hm ▸ .unlisted l m mt hq hf hm h1 h3
        · exact .found l m mt a i b hq hf hm h1 h3 h4

theorem Ending.of_finish (env : Env) (s : St) (id : Nat) (rec : Int) :
    Ending env s .finish id rec (DelayTimer.finishTask env s id rec).1
      (DelayTimer.finishTask env s id rec).2 := by
  unfold DelayTimer.finishTask
  cases hq : quitOne env (s.trace id) rec with
  | none => exact .miss hq
  | some l =>
    simp only
    cases hf : s.flags id with
    | none => exact .nomark l hq hf
    | some m =>
      simp only
      cases hm : m.maintainer with
      | none =>
        have := Ending.nochain (env := env) (k := .finish) (rec := rec) l m hq hf hm
        simpa only [hm] using this
      | some mt =>
        simp only
        rcases notifyMark_cases { s with trace := set s.trace id l, log := .stopped id rec :: s.log } id
          m mt rec COMPLETED with
          ⟨h1, h2⟩ | ⟨h1, h3, h2⟩ | ⟨h1, a, i, b, h3, h4, h2⟩ <;> simp only at h2 ⊢ <;> rw [h2]
        · exact .dropped l m mt hq hf hm h1
        · exact .unlisted l m mt hq hf hm h1 h3
        · simp only [set_set, set_same, Option.map_some]
          exact .found l m mt a i b hq hf hm h1 h3 h4

end DelayTimer
