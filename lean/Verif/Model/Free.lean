/-!
# Memory of candy strings

Model of who owns the cron string of a `TaskBuilder`: `set_frequency_by_candy`, the cron-string and
seconds setters, `Copy` of the builder, `spawn` and `free`,
`/repo/src/timer/task.rs:663-680, 702-750, 775-825, 828-868`. Every candy string is taken to be an
allocation of its own (an empty one is not, and releasing it twice is harmless).
-/

namespace DelayTimer

/-- A `&'a str` held by a builder: a box leaked by `Box::leak`, or the caller's own string. -/
inductive StrRef where
  | leaked (n : Nat)
  | foreign (n : Nat)
deriving DecidableEq, Repr

/-- The two relevant fields of `TaskBuilder` (it is `Copy`, src/timer/task.rs:663). `str` is the
string of a cron frequency, `none` for a seconds frequency. -/
structure FreeBuilder where
  str : Option StrRef
  candy : Bool
deriving DecidableEq, Repr

/-- All builders (by variable number), the number of leaked boxes, the arguments of the
`Box::from_raw` drops so far, newest first, and the strings that were read after they were dropped. -/
structure Mem where
  builders : Nat → FreeBuilder
  next : Nat
  freed : List StrRef
  dangling : List StrRef

def Mem.init : Mem :=
  { builders := fun _ => { str := none, candy := false }, next := 0, freed := [], dangling := [] }

inductive FreeOp where
  /-- `set_frequency_by_candy`, src/timer/task.rs:728-750 -/
  | candy (b : Nat)
  /-- a cron-string setter (or `set_frequency`) with a string of the caller, task.rs:706-709,845-868 -/
  | cronStr (b s : Nat)
  /-- a seconds, minutes, hours, days or timestamp setter, task.rs:874-1027 -/
  | seconds (b : Nat)
  /-- `let dst = src` (`Copy`) -/
  | copy (dst src : Nat)
  /-- `free`, task.rs:828-842 -/
  | free (b : Nat)
  /-- `spawn*`: reads the cron string, task.rs:775-825 -/
  | spawn (b : Nat)
deriving DecidableEq, Repr

def Mem.setB (m : Mem) (b : Nat) (v : FreeBuilder) : Nat → FreeBuilder :=
  fun x => if x = b then v else m.builders x

/-- Effect of an operation. `free` drops the string as a box whenever the candy flag is set and the
frequency is a cron one; it does not reset anything. -/
def Mem.op (m : Mem) : FreeOp → Mem
  | .candy b =>
    { m with builders := m.setB b { str := some (.leaked m.next), candy := true }, next := m.next + 1 }
  | .cronStr b s => { m with builders := m.setB b { m.builders b with str := some (.foreign s) } }
  | .seconds b => { m with builders := m.setB b { m.builders b with str := none } }
  | .copy dst src => { m with builders := m.setB dst (m.builders src) }
  | .free b =>
    if (m.builders b).candy then
      match (m.builders b).str with
      | some r => { m with freed := r :: m.freed }
      | none => m
    else m
  | .spawn b =>
    match (m.builders b).str with
    | some r => if r ∈ m.freed then { m with dangling := r :: m.dangling } else m
    | none => m

def Mem.run (m : Mem) (ops : List FreeOp) : Mem := ops.foldl Mem.op m

end DelayTimer
