import Verif.Model.ProcessTask
import Verif.Model.System

/-!
# The processes of a running pipeline

What happens between `parse_and_run` and the end of `unblock_process_task_fn`, `/repo/src/utils/convenience.rs:35-60`:
the processes of the pipeline run side by side, connected by pipes of bounded capacity.

* The standard output of each process is a pipe that the next one reads, src/utils/parse.rs:279-294, 312-325; that of the
  last one is the redirect file or a pipe, src/utils/parse.rs:305-325.
* The standard error of every process is a pipe, src/utils/parse.rs:301.
* `status()` of the smol child, which is what `ChildUnify::wait` awaits (src/utils/parse.rs:124-137), closes the standard
  input and does not read the other two. The read ends of the pipes of the last process stay open in the future, those
  of the error pipes of the other processes in their guards: nobody reads them before the last process has ended.

Assumptions about the outside: a pipe takes `cap` bytes and then blocks the writer (Linux: 65536 for large writes); a
reader gets what is in the pipe, waits while it is empty and a writer is left, and then gets end of file; writing to a pipe
whose reader has ended kills the writer (`SIGPIPE`, which the standard library restores to its default in children).
Bytes are written and read one at a time: larger calls are sequences of these. Processes do not start others that
outlive them. The standard input of the timer's own process, inherited by the first one, holds `input` and then ends.
A process that is started later than another one is one that takes its steps later.
-/

namespace DelayTimer

/-- What a process does next. -/
inductive ProcAct (σ : Type) where
  | exit
  /-- something that does not concern the pipes -/
  | think (k : σ)
  | out (b : Nat) (k : σ)
  | err (k : σ)
  /-- reads its standard input: a byte or end of file -/
  | read (k : Option Nat → σ)

/-- A pipeline that has been started: the number of processes, whether the output of the last one goes to a file,
the capacity of pipes, and what is on the inherited standard input. -/
structure Pipeline where
  count : Nat
  toFile : Bool
  cap : Nat
  input : List Nat

structure PipeSt (σ : Type) where
  /-- the processes; `none`: has ended -/
  st : Nat → Option σ
  /-- the rest of the inherited standard input -/
  inLeft : List Nat
  /-- contents of the pipe at the standard output of each process -/
  pipe : Nat → List Nat
  /-- number of bytes in the pipe at the standard error of each process -/
  errPipe : Nat → Nat
  /-- ghost: everything a process has written to its standard output -/
  written : Nat → List Nat

def PipeSt.init {σ : Type} (P : Pipeline) (start : Nat → σ) : PipeSt σ where
  st := fun i => if i < P.count then some (start i) else none
  inLeft := P.input
  pipe := fun _ => []
  errPipe := fun _ => 0
  written := fun _ => []

/-- Process `i` goes on by one action; `none`: it has ended or is blocked. -/
def PipeSt.step {σ : Type} (P : Pipeline) (next : Nat → σ → ProcAct σ) (c : PipeSt σ) (i : Nat) : Option (PipeSt σ) :=
  match c.st i with
  | none => none
  | some s =>
    match next i s with
    | .exit => some { c with st := set c.st i none }
    | .think k => some { c with st := set c.st i (some k) }
    | .err k =>
      if c.errPipe i < P.cap then
        some { c with st := set c.st i (some k), errPipe := set c.errPipe i (c.errPipe i + 1) }
      else none
    | .out b k =>
      if i + 1 = P.count ∧ P.toFile = true then
        some { c with st := set c.st i (some k), written := set c.written i (c.written i ++ [b]) }
      else if i + 1 < P.count ∧ (c.st (i + 1)).isNone = true then some { c with st := set c.st i none }
      else if (c.pipe i).length < P.cap then
        some { c with
          st := set c.st i (some k)
          pipe := set c.pipe i (c.pipe i ++ [b])
          written := set c.written i (c.written i ++ [b]) }
      else none
    | .read k =>
      match i with
      | 0 =>
        match c.inLeft with
        | b :: rest => some { c with st := set c.st 0 (some (k (some b))), inLeft := rest }
        | [] => some { c with st := set c.st 0 (some (k none)) }
      | j + 1 =>
        match c.pipe j with
        | b :: rest => some { c with st := set c.st (j + 1) (some (k (some b))), pipe := set c.pipe j rest }
        | [] => if (c.st j).isNone = true then some { c with st := set c.st (j + 1) (some (k none)) } else none

/-- The processes take actions in the given order. -/
def PipeSt.run {σ : Type} (P : Pipeline) (next : Nat → σ → ProcAct σ) (c : PipeSt σ) : List Nat → Option (PipeSt σ)
  | [] => some c
  | i :: is =>
    match c.step P next i with
    | some c' => c'.run P next is
    | none => none

/-- The standard output of a process that was started. -/
def ShEffect.stdout? : ShEffect → Option Stdout
  | .spawned _ _ _ _ o => some o
  | _ => none

/-- Is this a file? -/
def Stdout.isFile : Option Stdout → Bool
  | some (.file _ _) => true
  | _ => false

/-- The pipeline that `parse_and_run` has started: its processes, and whether the last one has a file at its standard
output. -/
def Pipeline.of (es : List ShEffect) (cap : Nat) (input : List Nat) : Pipeline where
  count := (es.filterMap ShEffect.stdout?).length
  toFile := Stdout.isFile (es.filterMap ShEffect.stdout?).getLast?
  cap := cap
  input := input

end DelayTimer
