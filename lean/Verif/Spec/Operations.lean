import Verif.Spec.Schedule

/-! Specification vocabulary for operations on tasks: add, insert, update, advance, remove, stop. -/

namespace DelayTimer.Spec

/-- The call adds or inserts a task with id `k`. -/
def Adds (k : Nat) : Label → Prop
  | .uSend (.add t) => t.taskId = k
  | .uInsert t => t.taskId = k
  | _ => False

instance (k : Nat) (l : Label) : Decidable (Adds k l) := by
  unfold Adds; split <;> infer_instance

/-- The event adds or inserts a task with id `k`. -/
def EventAdds (k : Nat) : TimerEvent → Prop
  | .addTask t => t.taskId = k
  | .insertTask t _ => t.taskId = k
  | _ => False

/-- The event thread is adding a task with id `k`: it has not put it into the wheel yet. -/
def Adding (k : Nat) : EPC → Prop
  | .add1 t _ _ => t.taskId = k
  | .add2 t _ _ _ _ => t.taskId = k
  | _ => False

/-- The scheduler is in the middle of handling `k`: it is going to look for it in the current slot, has
taken it out, or has put it back without having noted the new slot. -/
def InHand (k : Nat) (p : TPC) : Prop :=
  Handling k p ∨ ∃ q i u, p = .mark q k i u

/-- The timer's record of where `k` waits is right. -/
def RecordAccurate (k : Nat) (s : St) : Prop :=
  ∀ i sl t, s.wheel i = some sl → t ∈ sl → t.taskId = k → ∃ m, s.flags k = some m ∧ m.slotMark = i

/-- `k` is scheduled at most once. -/
def AtMostOnce (k : Nat) (s : St) : Prop :=
  (∀ i sl t j sl' u, s.wheel i = some sl → t ∈ sl → t.taskId = k →
    s.wheel j = some sl' → u ∈ sl' → u.taskId = k → i = j ∧ t = u) ∧
  (Waiting k s → ∀ p t, (s.tpc = .check p t ∨ (∃ r, s.tpc = .spawn p t r) ∨ (∃ b, s.tpc = .append p t b) ∨
    (∃ r, s.tpc = .gate p t r) ∨ (∃ b, s.tpc = .rearm p t b)) → t.taskId ≠ k)

/-- `t`, with id `k`, waits in slot `i`, as the timer's record says, and the scheduler is not about to handle
it. -/
structure Waits (k : Nat) (t : Task) (i : Nat) (s : St) : Prop where
  slot : ∃ sl, s.wheel i = some sl ∧ t ∈ sl
  id : t.taskId = k
  valid : t.valid = true
  record : RecordAccurate k s
  free : ¬ Handling k s.tpc

/-- `n` is the tick of the first visit of slot `i` that is still to come. -/
def NextVisit (s : St) (i n : Nat) : Prop :=
  n % 3600 = i ∧ (if BeforeLook s.tpc then s.ticks else s.ticks + 1) ≤ n ∧
    n < (if BeforeLook s.tpc then s.ticks else s.ticks + 1) + 3600

/-- `k` is not scheduled and no add of it is on its way. -/
structure Unscheduled (k : Nat) (s : St) : Prop where
  absent : Absent k s
  chan : ∀ e ∈ s.chan, ¬ EventAdds k e
  epc : ¬ Adding k s.epc

/-- The event thread does not meet the scheduler on task `k`: while the scheduler is handling `k`, the
event thread is neither about to take a removal of `k` nor about to record a newly added `k`. -/
def Calm (k : Nat) (s : St) : Prop :=
  InHand k s.tpc →
    ¬ (s.epc = .idle ∧ s.chan.head? = some (.removeTask k)) ∧ ∀ tag m, s.epc = .add3 tag m → m.taskId ≠ k

/-- Plain use of id `k`: it is added only while it is not scheduled, and never updated or advanced. -/
def PlainCall (k : Nat) (l : Label) (s : St) : Prop :=
  (Adds k l → Unscheduled k s) ∧ (∀ t, l = .uSend (.update t) → t.taskId ≠ k) ∧ l ≠ .uSend (.advance k)

/-- `P` holds in every state of the execution `ls` from `s`. -/
def Throughout (env : Env) (s : St) (ls : List Label) (P : St → Prop) : Prop :=
  ∀ ls1 ls2 s', ls = ls1 ++ ls2 → run env s ls1 = some s' → P s'

/-- Whenever a call `l` of the execution is made, `P l` holds of the state it is made in. -/
def WheneverCalled (env : Env) (s : St) (ls : List Label) (P : Label → St → Prop) : Prop :=
  ∀ ls1 l ls2 s', ls = ls1 ++ l :: ls2 → run env s ls1 = some s' → P l s'

end DelayTimer.Spec
