/-!
# Exit status, waiting and output files of child processes

Model of `ChildUnify::wait` and `create_stdio_file`, `/repo/src/utils/parse.rs:90-208, 387-401`.
-/

namespace DelayTimer

/-! ## Exit status (unix) -/

/-- How a process ended. -/
inductive ProcEnd where
  | exited (code : Nat)
  | signalled (sig : Nat)
deriving DecidableEq, Repr

/-- The wait status the kernel reports (as the low 16 bits of a non-negative `i32`). -/
def ProcEnd.raw : ProcEnd → Nat
  | .exited c => c * 256
  | .signalled s => s

/-- `ExitStatus::code` of `ExitStatus::from_raw(raw)`: `WIFEXITED` tests the low seven bits,
`WEXITSTATUS` is bits 8-15. `raw` is the unsigned reading of the `i32`. -/
def codeOfRaw (raw : Nat) : Option Nat :=
  if raw % 128 = 0 then some (raw / 256 % 256) else none

/-- `ExitStatusExt::signal` of `ExitStatus::from_raw(raw)`: `WIFSIGNALED` wants the low seven bits, the number of the
signal, neither 0 nor 127. -/
def signalOfRaw (raw : Nat) : Option Nat :=
  if raw % 128 ≠ 0 ∧ raw % 128 ≠ 127 then some (raw % 128) else none

/-- `-1i32` read as unsigned. -/
def MINUS_ONE_I32 : Nat := 4294967295

/-- The supported process libraries, src/utils/parse.rs:105-173. -/
inductive ChildKind where
  | std | smol | tokio
deriving DecidableEq, Repr

/-- `<SmolChild as ChildUnify>::wait` on unix, src/utils/parse.rs:124-137: the *code* (or -1) of the
library's status is passed to `ExitStatus::from_raw`, which expects a wait status. The result is the
raw status of the returned `ExitStatus`. -/
def smolWaitRaw (e : ProcEnd) : Nat :=
  match codeOfRaw e.raw with
  | some c => c
  | none => MINUS_ONE_I32

/-! ## Which `wait` is called -/

/-- Receiver of a method candidate. -/
inductive Recv where
  | byValue | byRef | byMutRef
deriving DecidableEq, Repr

/-- A method named `wait` visible for a type. -/
structure Candidate where
  inherent : Bool
  recv : Recv
deriving DecidableEq, Repr

/-- The methods called `wait` of the three child types: the inherent ones of the libraries
(`std::process::Child::wait(&mut self)`, `tokio::process::Child::wait(&mut self)`; the smol child has
none, only `status`), and `ChildUnify::wait(self)`. -/
def waitCandidates : ChildKind → List Candidate
  | .std => [{ inherent := true, recv := .byMutRef }, { inherent := false, recv := .byValue }]
  | .tokio => [{ inherent := true, recv := .byMutRef }, { inherent := false, recv := .byValue }]
  | .smol => [{ inherent := false, recv := .byValue }]

/-- Rust method probing for a receiver expression of type `Child` (owned): by value first, then by
reference, then by mutable reference; at each step inherent methods before trait methods. -/
def resolve (cs : List Candidate) : Option Candidate :=
  let at' (r : Recv) : Option Candidate :=
    match cs.find? (fun c => c.recv == r && c.inherent) with
    | some c => some c
    | none => cs.find? (fun c => c.recv == r)
  match at' .byValue with
  | some c => some c
  | none =>
    match at' .byRef with
    | some c => some c
    | none => at' .byMutRef

/-- The body of `<K as ChildUnify>::wait`: either it asks the library, or it calls a method `wait` on
the owned child (src/utils/parse.rs:107,124-137,159). -/
inductive WaitBody where
  | library
  | callWait
deriving DecidableEq, Repr

def waitBody : ChildKind → WaitBody
  | .std => .callWait
  | .smol => .library
  | .tokio => .callWait

/-- Big-step evaluation of `<K as ChildUnify>::wait` for a process that ends as `e`: `WaitEval k e raw`
means that the call returns a status with raw value `raw`. A call resolved to the trait method is a
recursive call. -/
inductive WaitEval : ChildKind → ProcEnd → Nat → Prop
  | library {k : ChildKind} {e : ProcEnd} (h : waitBody k = .library) : WaitEval k e (smolWaitRaw e)
  | inherent {k : ChildKind} {e : ProcEnd} {c : Candidate} (h : waitBody k = .callWait)
      (hr : resolve (waitCandidates k) = some c) (hi : c.inherent = true) : WaitEval k e e.raw
  | trait {k : ChildKind} {e : ProcEnd} {c : Candidate} {raw : Nat} (h : waitBody k = .callWait)
      (hr : resolve (waitCandidates k) = some c) (hi : c.inherent = false)
      (hrec : WaitEval k e raw) : WaitEval k e raw

/-! ## Output files -/

/-- The redirect operator: `>` or `>>`. -/
inductive OpenMode where
  | write | append
deriving DecidableEq, Repr

/-- The `std::fs::OpenOptions` that matter here. -/
structure OpenFlags where
  append : Bool
  truncate : Bool
  create : Bool
deriving DecidableEq, Repr

/-- `create_stdio_file`, src/utils/parse.rs:387-401: `write(true).create(true)`, for `>>` also `append(true)`. -/
def openFlags : OpenMode → OpenFlags
  | .write => { append := false, truncate := false, create := true }
  | .append => { append := true, truncate := false, create := true }

/-- An open file: its content and the offset of the descriptor. -/
structure OpenFile where
  flags : OpenFlags
  content : List Nat
  offset : Nat
deriving DecidableEq, Repr

/-- `open(2)`: `O_CREAT` makes a missing file, `O_TRUNC` empties an existing one; the offset is 0. `none`: no such
file. -/
def openFile (flags : OpenFlags) : Option (List Nat) → Option OpenFile
  | none => if flags.create then some { flags := flags, content := [], offset := 0 } else none
  | some old => some { flags := flags, content := if flags.truncate then [] else old, offset := 0 }

/-- `write(2)`: with `O_APPEND` the offset is first moved to the end; the bytes from the offset on are overwritten, the
file grows if necessary. Nobody else moves the end of the file meanwhile. -/
def OpenFile.write (f : OpenFile) (bytes : List Nat) : OpenFile :=
  let o := if f.flags.append then f.content.length else f.offset
  { f with
    content := f.content.take o ++ bytes ++ f.content.drop (o + bytes.length)
    offset := o + bytes.length }

/-- Content of a file (`none`: there is no such file) after a process was given it as its standard output and has
written `chunks`, one after the other. -/
def writeFile (mode : OpenMode) (old : Option (List Nat)) (chunks : List (List Nat)) : Option (List Nat) :=
  (openFile (openFlags mode) old).map fun f => (chunks.foldl OpenFile.write f).content

end DelayTimer
