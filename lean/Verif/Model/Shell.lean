import Verif.Model.Process

/-!
# Running shell pipelines

Model of `parse_and_run` and its helpers, `/repo/src/utils/parse.rs:246-401`. Strings are lists of
characters. `ws` is Rust's `char::is_whitespace` (Unicode `White_Space`), a parameter of which only
`ws ' '`, `¬ ws '|'` and `¬ ws '>'` are used.
-/

namespace DelayTimer

abbrev Str := List Char

/-- `str::trim`. -/
def trim (ws : Char → Bool) (s : Str) : Str := ((s.dropWhile ws).reverse.dropWhile ws).reverse

/-- Put a character in front of the first piece. -/
def consHead (c : Char) : List Str → List Str
  | [] => [[c]]
  | p :: ps => (c :: p) :: ps

/-- `str::split(" | ")`: leftmost, non-overlapping. -/
def splitPipe : Str → List Str
  | ' ' :: '|' :: ' ' :: rest => [] :: splitPipe rest
  | c :: rest => consHead c (splitPipe rest)
  | [] => [[]]

/-- `str::split_whitespace`; the accumulator is the word being read. -/
def splitWsAux (ws : Char → Bool) : Str → Str → List Str
  | [], [] => []
  | [], acc => [acc]
  | c :: rest, acc =>
    if ws c then
      match acc with
      | [] => splitWsAux ws rest []
      | acc => acc :: splitWsAux ws rest []
    else splitWsAux ws rest (acc ++ [c])

def splitWhitespace (ws : Char → Bool) (s : Str) : List Str := splitWsAux ws s []

/-- Text after the last (rightmost) occurrence of `pat`. -/
def afterLast (pat : Str) : Str → Option Str
  | [] => none
  | c :: rest =>
    match afterLast pat rest with
    | some x => some x
    | none => if pat.isPrefixOf (c :: rest) then some ((c :: rest).drop pat.length) else none

/-- The redirect operator of a stage, src/utils/parse.rs:345-352: `">>"` if it occurs anywhere, else
`">"` if that occurs. -/
def angleOf (cmd : Str) : Option OpenMode :=
  if (afterLast ['>', '>'] cmd).isSome then some .append
  else if (afterLast ['>'] cmd).isSome then some .write
  else none

def angleStr : OpenMode → Str
  | .append => ['>', '>']
  | .write => ['>']

/-- `command.trim().rsplit(angle_bracket).next()`, src/utils/parse.rs:354-358. -/
def lastPiece (pat s : Str) : Str :=
  match afterLast pat s with
  | some x => x
  | none => s

/-- `str::split_inclusive(angle_bracket)`: leftmost, non-overlapping; pieces include their terminator and there is no
empty last piece. The second argument is the piece being read. -/
def splitInclusive : OpenMode → Str → Str → List Str
  | _, [], [] => []
  | _, acc, [] => [acc]
  | .append, acc, '>' :: '>' :: rest => (acc ++ ['>', '>']) :: splitInclusive .append [] rest
  | .write, acc, '>' :: rest => (acc ++ ['>']) :: splitInclusive .write [] rest
  | m, acc, c :: rest => splitInclusive m (acc ++ [c]) rest

/-- `command.trim().split_inclusive(angle_bracket).rev().next()`, src/utils/parse.rs:372-377. There is a piece, because
the stage contains an operator. -/
def lastPieceInclusive (m : OpenMode) (s : Str) : Str := (splitInclusive m [] s).getLast?.getD []

/-- `_has_redirect_file`, src/utils/parse.rs:344-378, as the open mode and the (trimmed,
src/utils/parse.rs:397) name of the file to open. `incl`: compiled with `SPLIT_INCLUSIVE_COMPATIBLE`. -/
def redirectOf (ws : Char → Bool) (incl : Bool) (cmd : Str) : Option (OpenMode × Str) :=
  match angleOf cmd with
  | none => none
  | some m =>
    let piece := if incl then lastPieceInclusive m (trim ws cmd)
      else lastPiece (angleStr m) (trim ws cmd)
    some (m, trim ws piece)

/-- `_remove_angle_bracket_command`, src/utils/parse.rs:381-386. -/
def removeAngle (ws : Char → Bool) (cmd : Str) : Str := (trim ws cmd).takeWhile (· != '>')

/-- Where a stage's stdin comes from. -/
inductive Stdin where
  | inherit
  | pipeFrom (proc : Nat)
deriving DecidableEq, Repr

/-- Where its stdout goes. -/
inductive Stdout where
  | piped
  | file (mode : OpenMode) (name : Str)
deriving DecidableEq, Repr

/-- What a pipeline does to the outside world. Processes are numbered in the order of their start. -/
inductive ShEffect where
  | opened (mode : OpenMode) (name : Str) (ok : Bool)
  | spawned (proc : Nat) (program : Str) (args : List Str) (stdin : Stdin) (stdout : Stdout)
  | spawnFailed (program : Str)
  | killed (proc : Nat)
deriving DecidableEq, Repr

/-- Answers of the operating system. -/
structure OS where
  /-- does opening this file work -/
  openOk : OpenMode → Str → Bool
  /-- does spawning the i-th process work -/
  spawnOk : Nat → Bool
  /-- can the piped stdout of process i be turned into a `Stdio` (`stdout_to_stdio`) -/
  pipeOk : Nat → Bool

/-- Dropping the list of guards: `LinkedList` drops front to back and every `ChildGuard` kills its
child, src/utils/parse.rs:222-230. -/
def killAll (n : Nat) : List ShEffect := (List.range n).map .killed

/-- Standard input of the n-th process, src/utils/parse.rs:279-294: the parent's for the first one, the
previous process' stdout for the others, falling back to the parent's if that could not be converted. -/
def stdinOf (os : OS) : Nat → Stdin
  | 0 => .inherit
  | k + 1 => if os.pipeOk k then .pipeFrom k else .inherit

/-- The stage loop of `parse_and_run`, src/utils/parse.rs:263-338. `n` processes were started so far.
The boolean is "returned `Ok`". -/
def runStages (ws : Char → Bool) (incl : Bool) (os : OS) : Nat → List Str → List ShEffect × Bool
  | _, [] => ([], true)
  | n, cmd :: rest =>
    let redirect := redirectOf ws incl cmd
    -- the file is opened before anything else
    let opened : List ShEffect := match redirect with
      | some (m, name) => [.opened m name (os.openOk m name)]
      | none => []
    let cmd' := if redirect.isSome then removeAngle ws cmd else cmd
    match splitWhitespace ws cmd' with
    | [] => (opened ++ killAll n, false)
    | program :: args =>
      let stdin := stdinOf os n
      match redirect with
      | some (m, name) =>
        if os.openOk m name then
          if os.spawnOk n then
            (opened ++ [.spawned n program args stdin (.file m name)], true)
          else (opened ++ .spawnFailed program :: killAll n, false)
        else (opened ++ killAll n, false)
      | none =>
        if os.spawnOk n then
          let (es, ok) := runStages ws incl os (n + 1) rest
          (opened ++ .spawned n program args stdin .piped :: es, ok)
        else (opened ++ .spawnFailed program :: killAll n, false)

/-- `parse_and_run`, src/utils/parse.rs:246-339. -/
def parseAndRun (ws : Char → Bool) (incl : Bool) (os : OS) (input : Str) : List ShEffect × Bool :=
  runStages ws incl os 0 (splitPipe (trim ws input))

end DelayTimer
