import Verif.Proofs.Log

/-! Marks (`task_flag_map`) under the helper functions and under steps. -/

namespace DelayTimer
open Spec

/-- What the bookkeeping of runs may change in a mark. -/
def SameMark (a b : Option TaskMark) : Prop :=
  match a, b with
  | none, none => True
  | some a, some b => a.taskId = b.taskId ∧ a.slotMark = b.slotMark
  | _, _ => False

theorem SameMark.refl (a : Option TaskMark) : SameMark a a := by
  cases a <;> simp [SameMark]

theorem SameMark.of_eq {a b : Option TaskMark} (h : a = b) : SameMark a b := h ▸ SameMark.refl a

theorem SameMark.trans {a b c : Option TaskMark} (h1 : SameMark a b) (h2 : SameMark b c) :
    SameMark a c := by
  cases a <;> cases b <;> cases c <;> simp_all [SameMark]

theorem SameMark.isNone {a b : Option TaskMark} (h : SameMark a b) : a = none ↔ b = none := by
  cases a <;> cases b <;> simp_all [SameMark]

theorem sameMark_set {f : Nat → Option TaskMark} {id : Nat} {m m' : TaskMark} (hf : f id = some m)
    (h : m'.taskId = m.taskId ∧ m'.slotMark = m.slotMark) (x : Nat) :
    SameMark (set f id (some m') x) (f x) := by
  rw [set_apply]
  split
  · subst x; rw [hf]; exact h
  · exact SameMark.refl _

theorem notifyMark_flags (s : St) (id : Nat) (m m0 : TaskMark) (mt : Maintainer) (rec : Int) (st : Nat)
    (hf : s.flags id = some m0) (h : m.taskId = m0.taskId ∧ m.slotMark = m0.slotMark) (x : Nat) :
    SameMark ((notifyMark s id m mt rec st).2.flags x) (s.flags x) := by
  unfold notifyMark
  split
  · exact sameMark_set (m' := { m with maintainer := none }) hf h x
  · split
    · exact sameMark_set hf h x
    · split
      · exact sameMark_set hf h x
      · show SameMark (set s.flags id (some _) x) _
        refine sameMark_set hf ?_ x
        exact h

theorem cancelTask_flags (env : Env) (b : Bool) (s : St) (id : Nat) (rec : Int) (st : Nat) (x : Nat) :
    SameMark ((cancelTask env b s id rec st).2.flags x) (s.flags x) := by
  unfold cancelTask
  split
  · exact SameMark.refl _
  · dsimp only
    split
    · exact SameMark.refl _
    · rename_i l hl _ m hm
      split
      · exact sameMark_set (m' := { m with parallelRunnableNum := m.parallelRunnableNum - 1 }) hm ⟨rfl, rfl⟩ x
      · rename_i _ mt hmt
        have := notifyMark_flags
          { s with trace := set s.trace id l, log := .stopped id rec :: s.log } id
          { m with parallelRunnableNum := m.parallelRunnableNum - 1 } m mt rec st hm ⟨rfl, rfl⟩ x
        split
        · rename_i h; rw [h] at this; exact this
        · rename_i h; rw [h] at this; exact this

theorem finishTask_flags (env : Env) (s : St) (id : Nat) (rec : Int) (x : Nat) :
    SameMark ((finishTask env s id rec).2.flags x) (s.flags x) := by
  unfold finishTask
  split
  · exact SameMark.refl _
  · dsimp only
    split
    · exact SameMark.refl _
    · rename_i l hl _ m hm
      split
      · exact sameMark_set (m' := { m with parallelRunnableNum := m.parallelRunnableNum - 1 }) hm ⟨rfl, rfl⟩ x
      · rename_i _ mt hmt
        have := notifyMark_flags
          { s with trace := set s.trace id l, log := .stopped id rec :: s.log } id m m mt rec COMPLETED
          hm ⟨rfl, rfl⟩ x
        split
        · rename_i s' h
          rw [h] at this
          refine SameMark.trans ?_ this
          dsimp only
          rw [set_apply]
          split
          · subst x
            cases h2 : s'.flags id <;> simp [SameMark]
          · exact SameMark.refl _
        · rename_i h; rw [h] at this; exact this

theorem registerInstance_flags (s : St) (id : Nat) (rec : Int) (x : Nat) :
    SameMark ((registerInstance s id rec).flags x) (s.flags x) := by
  unfold registerInstance
  split
  · exact SameMark.refl _
  · rename_i m hm
    split
    · exact SameMark.refl _
    · rename_i mt hmt
      split
      · exact sameMark_set (m' := { m with maintainer := none }) hm ⟨rfl, rfl⟩ x
      · show SameMark (set s.flags id (some _) x) _
        refine sameMark_set hm ?_ x
        exact ⟨rfl, rfl⟩

theorem maintainTaskStatus_flags (s : St) (id : Nat) (box : HandlerBox) (x : Nat) :
    SameMark ((maintainTaskStatus s id box).flags x) (s.flags x) :=
  registerInstance_flags s id box.recordId x

/-- A mark is not lost unless its task is removed. -/
theorem marked_step {env : Env} {k : Nat} {s : St} {l : Label} {s' : St} (hq : l = .eNext → ¬ BusyWith k s.epc)
    (hf : s.flags k ≠ none) (h : Act env s l s') : s'.flags k ≠ none := by
  cases h
  all_goals try (exact hf)
  all_goals try (simpa using hf)
  case mark_some pending id slot upd m h hf' =>
    show set s.flags id _ k ≠ none
    rw [set_apply]; split <;> simp [hf]
  case recv_cancel id rec rest he hc =>
    rw [done_flags, Ne, (cancelTask_flags env true { s with chan := rest } id rec CANCELLED k).isNone]
    exact hf
  case recv_timeout id rec rest he hc =>
    rw [done_flags, Ne, (cancelTask_flags env false { s with chan := rest } id rec TIMEOUT k).isNone]
    exact hf
  case recv_finish b rest he hc =>
    rw [done_flags, Ne, (finishTask_flags env { s with chan := rest } b.taskId b.recordId k).isNone]
    exact hf
  case recv_append id box rest he hc =>
    rw [done_flags, Ne, (maintainTaskStatus_flags { s with chan := rest } id box k).isNone]
    exact hf
  case next_add3 tag m he =>
    show set s.flags m.taskId _ k ≠ none
    rw [set_apply]; split <;> simp [hf]
  case next_remove id ok he =>
    have hk : id ≠ k := by have := hq rfl; rw [he] at this; exact this
    show set s.flags id _ k ≠ none
    rw [set_other _ _ _ (fun h => hk h.symm)]; exact hf

end DelayTimer
