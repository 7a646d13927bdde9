import Verif.Spec.Operations

/-!
A timetable on paper: what a timer is for one task, without wheel, slots, marks or threads. A sheet has
at most one line, the waiting task with the tick of its next run; time passes tick by tick, and the four
operations are carried out one after the other between two ticks.

`place` is where the timer would look for the task (a position on the dial of 3600); it is part of the
sheet because the operations go wrong when it is not where the task is.

Whether a run of a task with a parallel limit is left out depends on when the bodies end, which is nobody's
plan: on the sheet it is an input, the event `skip`.
-/

namespace DelayTimer.Spec

/-- A waiting task: what it runs, how many runs are left (`none`: no end), whether it has a parallel limit, the
alarms after the pending one, and the tick of its next run. -/
structure Line where
  routine : Nat
  left : Option Nat
  limited : Bool
  alarms : Nat → Option Nat
  due : Nat

structure Sheet where
  now : Nat
  line : Option Line
  place : Option Nat
  /-- the runs so far, oldest first: tick and routine -/
  runs : List (Nat × Nat)

/-- The empty sheet. -/
def Sheet.blank : Sheet := ⟨0, none, none, []⟩

/-- What becomes of a line when its turn has come at tick `n`; `skip`: it was left out this time, which does not
count as a run. -/
def Line.next (clock : Nat → Nat) (n : Nat) (skip : Bool) (e : Line) : Option Line :=
  if skip = false ∧ e.left = some 1 then none
  else match e.alarms 0 with
    | none => none
    | some a => some ⟨e.routine, if skip then e.left else e.left.map (· - 1), e.limited, fun j => e.alarms (j + 1),
        rearm clock n a⟩

/-- The line, if it is due now, is run, or left out. A limited task whose place is not known is struck off
instead. -/
def Sheet.fire (clock : Nat → Nat) (skip : Bool) (P : Sheet) : Sheet :=
  match P.line with
  | none => P
  | some e =>
    if e.due = P.now then
      if e.limited = true ∧ P.place = none then { P with line := none }
      else
        let runs := if skip then P.runs else P.runs ++ [(P.now, e.routine)]
        match e.next clock P.now skip with
        | none => { P with line := none, runs := runs }
        | some e' => { P with line := some e', place := P.place.map (fun _ => e'.due % 3600), runs := runs }
    else P

/-- A tick in which nothing is left out. -/
def Sheet.turn (clock : Nat → Nat) (P : Sheet) : Sheet := { P with now := P.now + 1 }.fire clock false

/-- The next tick after `n` at which the dial is at `i`. -/
def visit (n i : Nat) : Nat := n + 1 + (i + 3600 - (n + 1) % 3600) % 3600

inductive SheetOp
  | add (t : Task)
  | update (t : Task)
  | remove
  | advance

/-- An operation on task `k` between two ticks. `none`: not covered — `k` would be scheduled twice. -/
def Sheet.apply (clock : Nat → Nat) (k : Nat) (P : Sheet) : SheetOp → Option Sheet
  | .add t =>
    match alarm 0 t, P.line with
    | none, _ => some P
    | some _, some _ => none
    | some a, none =>
      let d := firstDue P.now (if clock P.now ≤ a then a - clock P.now else k % 3600) false
      some { P with line := some ⟨t.routine, runsLeft t, t.maximumParallelRunnableNum.isSome, fun j => alarm (j + 1) t, d⟩, place := some (d % 3600) }
  | .update t =>
    match P.place, P.line with
    | none, _ => some P
    | some i, none => some { P with line := some ⟨t.routine, runsLeft t, t.maximumParallelRunnableNum.isSome, fun j => alarm j t, visit P.now i⟩ }
    | some i, some e =>
      if e.due % 3600 = i then
        some { P with line := some ⟨t.routine, runsLeft t, t.maximumParallelRunnableNum.isSome, fun j => alarm j t, visit P.now i⟩ }
      else none
  | .remove =>
    match P.line with
    | none => some { P with place := none }
    | some e => some { P with line := if P.place = some (e.due % 3600) then none else some e, place := none }
  | .advance =>
    match P.line with
    | none => some P
    | some e =>
      if P.place = some (e.due % 3600) then
        some { P with line := if P.now % 3600 = 3599 then none else some { e with due := P.now + 1 } }
      else some P

/-- The sheet after `j` ticks. -/
def Sheet.turns (clock : Nat → Nat) : Nat → Sheet → Sheet
  | 0, P => P
  | j + 1, P => Sheet.turns clock j (P.turn clock)

inductive SheetEv
  | tick
  /-- the run that is due now is left out -/
  | skip
  | op (o : SheetOp)

/-- The sheet after a history. A run that is due is written down when the next thing happens, for it may yet be
left out. -/
def Sheet.play (clock : Nat → Nat) (k : Nat) : Sheet → List SheetEv → Option Sheet
  | P, [] => some P
  | P, .tick :: es => { P.fire clock false with now := P.now + 1 }.play clock k es
  | P, .skip :: es => (P.fire clock true).play clock k es
  | P, .op o :: es =>
    match (P.fire clock false).apply clock k o with
    | none => none
    | some Q => Q.play clock k es

/-- The sheet at the end of a history from the blank one, the run that is due now written down. -/
def Sheet.after (clock : Nat → Nat) (k : Nat) (es : List SheetEv) : Option Sheet :=
  (Sheet.blank.play clock k es).map (·.fire clock false)

/-- A task as the builder makes it, with at least one run to go. -/
structure Built (t : Task) : Prop where
  valid : t.valid = true
  cylinder : t.cylinderLine = 0
  runs : runsLeft t ≠ some 0

def SheetEv.Built : SheetEv → Prop
  | .op (.add t) => Spec.Built t
  | .op (.update t) => Spec.Built t
  | _ => True

/-- Nothing of parallel limits in it. -/
def SheetEv.Unlimited : SheetEv → Prop
  | .skip => False
  | .op (.add t) => t.maximumParallelRunnableNum = none
  | .op (.update t) => t.maximumParallelRunnableNum = none
  | _ => True

def SheetEv.Plain (ev : SheetEv) : Prop := ev.Built ∧ ev.Unlimited

/-- The operation on `k` that the event thread begins when it takes `e` out of the channel. -/
def opOf (k : Nat) : TimerEvent → List SheetEv
  | .addTask t => if t.taskId = k then [.op (.add t)] else []
  | .insertTask t _ => if t.taskId = k then [.op (.add t)] else []
  | .updateTask t => if t.taskId = k then [.op (.update t)] else []
  | .removeTask id => if id = k then [.op .remove] else []
  | .advanceTask id => if id = k then [.op .advance] else []
  | _ => []

/-- As many runs of the task are counted as in progress as its parallel limit allows. -/
def Full (s : St) (t : Task) : Bool :=
  match t.maximumParallelRunnableNum, s.flags t.taskId with
  | some m, some r => decide (m ≤ r.parallelRunnableNum)
  | _, _ => false

/-- What the action `l` in state `s` is on the sheet of `k`. -/
def sheetEvs (k : Nat) (s : St) : Label → List SheetEv
  | .tLapse => [.tick]
  | .tCheck _ => match s.tpc with
    | .check _ t => if t.taskId = k ∧ Full s t then [.skip] else []
    | _ => []
  | .eRecv => match s.chan with
    | [] => []
    | e :: _ => opOf k e
  | _ => []

/-- The history of `k` in the execution `ls` from `s`. -/
def history (env : Env) (k : Nat) : St → List Label → List SheetEv
  | _, [] => []
  | s, l :: ls =>
    match step env s l with
    | none => []
    | some s' => sheetEvs k s l ++ history env k s' ls

/-- The event thread is in the middle of an operation on `k`. -/
def Engaged (k : Nat) : EPC → Prop
  | .add3 _ m => m.taskId = k
  | p => BusyWith k p

/-- Operations on `k` are carried out between two ticks: each begins while the scheduler sleeps, and the
scheduler does not wake up before it is done. -/
def BetweenTicks (env : Env) (k : Nat) : St → List Label → Prop
  | _, [] => True
  | s, l :: ls =>
    (l = .eRecv → ∀ e rest, s.chan = e :: rest → EventTouches k e → s.tpc = .batch []) ∧
    (l = .tLapse → ¬ Engaged k s.epc) ∧
    ∀ s', step env s l = some s' → BetweenTicks env k s' ls

/-- The execution `ls` from a new timer ends in `s`; every operation on `k` in it is carried out between
two ticks, with tasks as the builder makes them; and `Q` is the sheet after the history of `k`. -/
structure OnPaper (env : Env) (k : Nat) (ls : List Label) (s : St) (Q : Sheet) : Prop where
  run : DelayTimer.run env (init env) ls = some s
  between : BetweenTicks env k (init env) ls
  built : ∀ ev ∈ history env k (init env) ls, ev.Built
  sheet : Sheet.after env.clock k (history env k (init env) ls) = some Q

/-- The sheet looks for its task where it is. -/
def Right (P : Sheet) : Prop := (∀ i, P.place = some i → i < 3600) ∧ ∀ e, P.line = some e → P.place = some (e.due % 3600)

end DelayTimer.Spec
