import Verif.Model.Frequency

/-!
# Slots of the wheel

Model of `/repo/src/timer/slot.rs`.
-/

namespace DelayTimer

/-- `Slot`, src/timer/slot.rs:8-13: a `HashMap<u64, Task>` keyed by the task's own id, modelled as the
list of its values.  The list order stands for the unspecified iteration order; nothing below
depends on it except the order of the result of `arrivalTimeTasks`, and the scheduler model lets
the environment pick any order from that result. -/
abbrev Slot := List Task

/-- `Slot::add_task`, src/timer/slot.rs:22-24 (`HashMap::insert`: replaces the value of an existing
key). -/
def Slot.addTask (sl : Slot) (t : Task) : Slot :=
  if sl.any (fun x => x.taskId == t.taskId) then
    sl.map (fun x => if x.taskId = t.taskId then t else x)
  else sl ++ [t]

/-- `Slot::update_task`, src/timer/slot.rs:26-35: swap in place when present, else insert. The
returned old task is ignored by the only caller. -/
def Slot.updateTask (sl : Slot) (t : Task) : Slot :=
  match sl.find? (fun x => x.taskId == t.taskId) with
  | some _ => sl.map (fun x => if x.taskId = t.taskId then t else x)
  | none => sl.addTask t

/-- `Slot::remove_task`, src/timer/slot.rs:37-39. -/
def Slot.removeTask (sl : Slot) (id : Nat) : Option Task × Slot :=
  (sl.find? (fun x => x.taskId == id), sl.filter (fun x => !(x.taskId == id)))

/-- `Slot::arrival_time_tasks`, src/timer/slot.rs:43-53: runs `check_arrived` on every task of the
slot, collecting the ids for which it returned true. -/
def Slot.arrivalTimeTasks (sl : Slot) : List Nat × Slot :=
  (((sl.filter (fun t => t.checkArrived.1)).map (fun t => t.taskId)),
   sl.map (fun t => t.checkArrived.2))

end DelayTimer
