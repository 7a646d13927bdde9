import Verif.Model.Shell

/-!
# Runs of shell commands as task bodies

Model of `unblock_process_task_fn` and `tokio_unblock_process_task_fn`, `/repo/src/utils/convenience.rs:35-99`, with
the future `parse_and_run` taken apart at its suspension points. Cancelling or timing out a run drops its future at the
suspension point it is at (smol `Task::cancel`, tokio `abort`; src/timer/runtime_trace/task_handle.rs:270-291).
-/

namespace DelayTimer

/-- What a run does to the outside world. -/
inductive RunEffect where
  | sh (e : ShEffect)
  /-- the end of this process was awaited -/
  | waited (proc : Nat)
deriving DecidableEq, Repr

/-- A body, step by step. `drop` is what the destructors do when the future is dropped there. -/
inductive BodyStep where
  | act (e : ShEffect)
  /-- suspension point -/
  | await (drop : List ShEffect)
  /-- suspension point: until `ChildUnify::wait` of the process returns -/
  | wait (proc : Nat) (drop : List ShEffect)

/-- The stage loop of `parse_and_run` (src/utils/parse.rs:263-338) as in `runStages`, with the suspension point at
`stdout_to_stdio().await` (src/utils/parse.rs:287), where the guards of the processes started so far are alive. Second
component: the number of processes in the returned list, `none` for `Err`. -/
def stageSteps (ws : Char → Bool) (incl : Bool) (os : OS) : Nat → List Str → List BodyStep × Option Nat
  | n, [] => ([], some n)
  | n, cmd :: rest =>
    let redirect := redirectOf ws incl cmd
    let opened : List BodyStep := match redirect with
      | some (m, name) => [.act (.opened m name (os.openOk m name))]
      | none => []
    let cmd' := if redirect.isSome then removeAngle ws cmd else cmd
    let kills : List BodyStep := (killAll n).map .act
    match splitWhitespace ws cmd' with
    | [] => (opened ++ kills, none)
    | program :: args =>
      let stdin := stdinOf os n
      let convert : List BodyStep := if n = 0 then [] else [.await (killAll n)]
      match redirect with
      | some (m, name) =>
        if os.openOk m name then
          if os.spawnOk n then
            (opened ++ convert ++ [.act (.spawned n program args stdin (.file m name))], some (n + 1))
          else (opened ++ convert ++ .act (.spawnFailed program) :: kills, none)
        else (opened ++ convert ++ kills, none)
      | none =>
        if os.spawnOk n then
          let (es, k) := stageSteps ws incl os (n + 1) rest
          (opened ++ convert ++ .act (.spawned n program args stdin .piped) :: es, k)
        else (opened ++ convert ++ .act (.spawnFailed program) :: kills, none)

/-- The body, src/utils/convenience.rs:35-99: it may be dropped before it is polled at all; when the pipeline has been
started the last guard is taken out of the list and `ChildGuard::wait` takes the child out of that guard
(src/utils/parse.rs:206-214), so while it waits only the guards of the other processes are alive; they are dropped at
the end. -/
def processTask (ws : Char → Bool) (incl : Bool) (os : OS) (input : Str) : List BodyStep :=
  let (steps, k) := stageSteps ws incl os 0 (splitPipe (trim ws input))
  .await [] :: steps ++
    match k with
    | some (j + 1) => .wait j (killAll j) :: (killAll j).map .act
    | _ => []

/-- Runs of a body: the effects and whether the body came to its end (otherwise it was dropped). `kind` is the process
library, `e` how the process that is waited for ends; waiting is over only if `ChildUnify::wait` returns. -/
inductive Exec (kind : ChildKind) (e : ProcEnd) : List BodyStep → List RunEffect → Bool → Prop
  | done : Exec kind e [] [] true
  | act {a : ShEffect} {rest es b} (h : Exec kind e rest es b) : Exec kind e (.act a :: rest) (.sh a :: es) b
  | resume {d : List ShEffect} {rest es b} (h : Exec kind e rest es b) : Exec kind e (.await d :: rest) es b
  | drop {d : List ShEffect} {rest} : Exec kind e (.await d :: rest) (d.map .sh) false
  | waited {p : Nat} {d : List ShEffect} {rest es b} (hw : ∃ raw, WaitEval kind e raw)
      (h : Exec kind e rest es b) : Exec kind e (.wait p d :: rest) (.waited p :: es) b
  | dropWait {p : Nat} {d : List ShEffect} {rest} : Exec kind e (.wait p d :: rest) (d.map .sh) false

end DelayTimer
