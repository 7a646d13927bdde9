import Verif.Proofs.Act

/-!
# Slots, wheel contents and the shape of the wheel
-/

namespace DelayTimer

/-! ## Slots -/

theorem mem_map_replace (sl : Slot) (t u : Task) (hex : ∃ x ∈ sl, x.taskId = t.taskId) :
    u ∈ sl.map (fun x => if x.taskId = t.taskId then t else x) ↔
      u = t ∨ (u ∈ sl ∧ u.taskId ≠ t.taskId) := by
  simp only [List.mem_map]
  constructor
  · rintro ⟨x, hx, rfl⟩
    split
    · exact Or.inl rfl
    · exact Or.inr ⟨hx, ‹_›⟩
  · rintro (rfl | ⟨h1, h2⟩)
    · obtain ⟨x, hx, hid⟩ := hex
      exact ⟨x, hx, if_pos hid⟩
    · exact ⟨u, h1, if_neg h2⟩

theorem mem_addTask (sl : Slot) (t u : Task) :
    u ∈ sl.addTask t ↔ u = t ∨ (u ∈ sl ∧ u.taskId ≠ t.taskId) := by
  unfold Slot.addTask
  split
  · rename_i h
    simp only [List.any_eq_true, beq_iff_eq] at h
    exact mem_map_replace sl t u h
  · rename_i h
    simp only [List.any_eq_true, beq_iff_eq, not_exists, not_and] at h
    simp only [List.mem_append, List.mem_singleton]
    constructor
    · rintro (h1 | h1)
      · exact Or.inr ⟨h1, h u h1⟩
      · exact Or.inl h1
    · rintro (h1 | h1)
      · exact Or.inr h1
      · exact Or.inl h1.1

theorem mem_updateTask (sl : Slot) (t u : Task) :
    u ∈ sl.updateTask t ↔ u = t ∨ (u ∈ sl ∧ u.taskId ≠ t.taskId) := by
  unfold Slot.updateTask
  split
  · rename_i x hx
    have h1 := List.mem_of_find?_eq_some hx
    have h2 := List.find?_some hx
    exact mem_map_replace sl t u ⟨x, h1, by simpa using h2⟩
  · exact mem_addTask sl t u

theorem mem_removeTask (sl : Slot) (id : Nat) (u : Task) :
    u ∈ (sl.removeTask id).2 ↔ u ∈ sl ∧ u.taskId ≠ id := by
  simp [Slot.removeTask]

theorem removeTask_some {sl : Slot} {id : Nat} {t : Task} (h : (sl.removeTask id).1 = some t) :
    t ∈ sl ∧ t.taskId = id := by
  simp only [Slot.removeTask] at h
  exact ⟨List.mem_of_find?_eq_some h, by simpa using List.find?_some h⟩

theorem removeTask_none {sl : Slot} {id : Nat} (h : (sl.removeTask id).1 = none) :
    ∀ t ∈ sl, t.taskId ≠ id := by
  simp only [Slot.removeTask, List.find?_eq_none, beq_iff_eq] at h
  exact h

theorem mem_arrival (sl : Slot) (u : Task) :
    u ∈ sl.arrivalTimeTasks.2 ↔ ∃ t ∈ sl, u = t.checkArrived.2 := by
  simp only [Slot.arrivalTimeTasks, List.mem_map]
  constructor
  · rintro ⟨t, h, rfl⟩; exact ⟨t, h, rfl⟩
  · rintro ⟨t, h, rfl⟩; exact ⟨t, h, rfl⟩

theorem mem_arrival_ids (sl : Slot) (id : Nat) :
    id ∈ sl.arrivalTimeTasks.1 ↔ ∃ t ∈ sl, t.taskId = id ∧ t.cylinderLine = 0 ∧ t.valid = true := by
  simp only [Slot.arrivalTimeTasks, List.mem_map, List.mem_filter]
  constructor
  · rintro ⟨t, ⟨h1, h2⟩, rfl⟩
    refine ⟨t, h1, rfl, ?_⟩
    simp only [Task.checkArrived] at h2
    split at h2
    · refine ⟨‹_›, ?_⟩
      simp only [Task.isCanRunning] at h2
      cases hv : t.valid with
      | true => rfl
      | false => rw [hv] at h2; simp at h2
    · simp at h2
  · rintro ⟨t, h1, h2, h3, h4⟩
    exact ⟨t, ⟨h1, by simp [Task.checkArrived, h3, h4, Task.isCanRunning, Task.isAlready]⟩, h2⟩

@[simp] theorem checkArrived_taskId (t : Task) : t.checkArrived.2.taskId = t.taskId := by
  unfold Task.checkArrived; split <;> rfl

theorem checkArrived_zero {t : Task} (h : t.cylinderLine = 0) : t.checkArrived.2 = t := by
  unfold Task.checkArrived; rw [if_pos h]

theorem checkArrived_pos {t : Task} (h : t.cylinderLine ≠ 0) :
    t.checkArrived.2 = { t with cylinderLine := t.cylinderLine - 1 } := by
  unfold Task.checkArrived; rw [if_neg h]

/-! Each id occurs at most once in a slot. -/

theorem nodup_replace (sl : Slot) (t : Task) (h : (sl.map (·.taskId)).Nodup) :
    ((sl.map (fun x => if x.taskId = t.taskId then t else x)).map (·.taskId)).Nodup := by
  have : (sl.map (fun x => if x.taskId = t.taskId then t else x)).map (·.taskId) =
      sl.map (·.taskId) := by
    rw [List.map_map]
    apply List.map_congr_left
    intro x _
    simp only [Function.comp]
    split
    · rename_i h; exact h.symm
    · rfl
  rw [this]; exact h

theorem nodup_addTask (sl : Slot) (t : Task) (h : (sl.map (·.taskId)).Nodup) :
    ((sl.addTask t).map (·.taskId)).Nodup := by
  unfold Slot.addTask
  split
  · exact nodup_replace sl t h
  · rename_i hn
    simp only [List.any_eq_true, beq_iff_eq, not_exists, not_and] at hn
    rw [List.map_append, List.nodup_append]
    refine ⟨h, by simp, ?_⟩
    intro a ha b hb
    simp only [List.mem_map] at ha
    obtain ⟨x, hx, rfl⟩ := ha
    simp only [List.map_cons, List.map_nil, List.mem_singleton] at hb
    subst hb
    exact hn x hx

theorem nodup_updateTask (sl : Slot) (t : Task) (h : (sl.map (·.taskId)).Nodup) :
    ((sl.updateTask t).map (·.taskId)).Nodup := by
  unfold Slot.updateTask
  split
  · exact nodup_replace sl t h
  · exact nodup_addTask sl t h

theorem nodup_removeTask (sl : Slot) (id : Nat) (h : (sl.map (·.taskId)).Nodup) :
    (((sl.removeTask id).2).map (·.taskId)).Nodup :=
  h.sublist (List.filter_sublist.map _)

theorem nodup_arrival (sl : Slot) (h : (sl.map (·.taskId)).Nodup) :
    ((sl.arrivalTimeTasks.2).map (·.taskId)).Nodup := by
  simp only [Slot.arrivalTimeTasks, List.map_map]
  have : (fun t : Task => t.taskId) ∘ (fun t : Task => t.checkArrived.2) = fun t => t.taskId := by
    funext t; simp
  rw [show (sl.map ((fun t : Task => t.taskId) ∘ fun t => t.checkArrived.2)) = sl.map (·.taskId) by
    rw [this]]
  exact h

theorem nodup_arrival_ids (sl : Slot) (h : (sl.map (·.taskId)).Nodup) :
    sl.arrivalTimeTasks.1.Nodup := h.sublist (List.filter_sublist.map _)

theorem eq_of_nodup_ids {sl : Slot} (h : (sl.map (·.taskId)).Nodup) {t u : Task} (ht : t ∈ sl)
    (hu : u ∈ sl) (hid : t.taskId = u.taskId) : t = u := by
  induction sl with
  | nil => cases ht
  | cons x sl ih =>
    rw [List.map_cons, List.nodup_cons] at h
    rcases List.mem_cons.1 ht with h1 | h1
    · rcases List.mem_cons.1 hu with h2 | h2
      · rw [h1, h2]
      · subst h1; exact absurd (List.mem_map.2 ⟨u, h2, hid.symm⟩) h.1
    · rcases List.mem_cons.1 hu with h2 | h2
      · subst h2; exact absurd (List.mem_map.2 ⟨t, h1, hid⟩) h.1
      · exact ih h.2 h1 h2

/-! ## Point updates -/

@[simp] theorem set_same {α : Type} (f : Nat → α) (k : Nat) (v : α) : set f k v k = v := by simp [set]

theorem set_other {α : Type} (f : Nat → α) (k : Nat) (v : α) {x : Nat} (h : x ≠ k) :
    set f k v x = f x := by simp [set, h]

theorem set_apply {α : Type} (f : Nat → α) (k : Nat) (v : α) (x : Nat) :
    set f k v x = if x = k then v else f x := rfl

@[simp] theorem setI_same {α : Type} (f : Int → α) (k : Int) (v : α) : setI f k v k = v := by
  simp [setI]

theorem setI_other {α : Type} (f : Int → α) (k : Int) (v : α) {x : Int} (h : x ≠ k) :
    setI f k v x = f x := by simp [setI, h]

theorem setI_apply {α : Type} (f : Int → α) (k : Int) (v : α) (x : Int) :
    setI f k v x = if x = k then v else f x := rfl

/-! ## Shape of the wheel -/

/-- A wheel has exactly the slots 0 … 3599, each holding each id at most once. -/
def WheelShape (w : Nat → Option Slot) : Prop :=
  (∀ i, (w i).isSome = true ↔ i < 3600) ∧ ∀ i sl, w i = some sl → (sl.map (·.taskId)).Nodup

theorem WheelShape.set {w : Nat → Option Slot} (h : WheelShape w) {i : Nat} {sl sl' : Slot}
    (hi : w i = some sl) (hn : (sl.map (·.taskId)).Nodup → (sl'.map (·.taskId)).Nodup) :
    WheelShape (set w i (some sl')) := by
  constructor
  · intro j
    rw [set_apply]
    split
    · subst j
      rw [← h.1 i, hi]; simp
    · exact h.1 j
  · intro j sl2 hj
    rw [set_apply] at hj
    split at hj
    · cases hj; exact hn (h.2 i sl hi)
    · exact h.2 j sl2 hj

/-- The wheel keeps its shape and the hand is the number of ticks modulo 3600. -/
structure WheelOk (s : St) : Prop where
  shape : WheelShape s.wheel
  hand : s.secondHand = s.ticks % 3600

theorem WheelOk.hand_lt {s : St} (h : WheelOk s) : s.secondHand < 3600 := by
  rw [h.hand]; exact Nat.mod_lt _ (by decide)

theorem wheelOk_step {env : Env} {s : St} {l : Label} {s' : St} (hs : WheelOk s)
    (h : Act env s l s') : WheelOk s' := by
  obtain ⟨h1, h2⟩ := hs
  cases h <;>
  first
  | exact ⟨h1, h2⟩
  | (constructor <;> simpa using (by assumption))
  | exact ⟨h1.set ‹_› (nodup_arrival _), h2⟩
  | exact ⟨h1.set ‹_› (nodup_removeTask _ _), h2⟩
  | exact ⟨h1.set ‹_› (nodup_addTask _ _), h2⟩
  | exact ⟨h1.set ‹_› (nodup_updateTask _ _), h2⟩
  | exact ⟨h1, by show (s.secondHand + 1) % 3600 = (s.ticks + 1) % 3600; omega⟩

theorem wheelOk {env : Env} {s : St} (h : Reachable env s) : WheelOk s := by
  refine Reachable.induct WheelOk ?_ (fun s l s' _ hs h => wheelOk_step hs h) s h
  refine ⟨⟨?_, ?_⟩, rfl⟩
  · intro i
    simp only [init]
    split <;> simp_all
  · intro i sl hi
    simp only [init] at hi
    split at hi
    · cases hi; exact List.nodup_nil
    · cases hi

end DelayTimer
