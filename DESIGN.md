# Formal model of delay-timer: design

The subject is the crate in `/repo` (delay-timer) at the pinned commit, read as text.
Everything here is Lean 4.33.0; the model lives in `lean/Verif/Model`, the specifications
in `lean/Verif/Spec`, helper lemmas in `lean/Verif/Proofs` and the property theorems in
`lean/Verif/Props`.

## Shape of the model

Two kinds of model are used.

1. **Pure function models** of self-contained code: frequency iterators and builder
   (`Model/Frequency`, `Model/Builder`), cron cache (`Model/CronCache`), the shell command
   parser and process life cycle (`Model/Shell`, `Model/Process`), tick clocks
   (`Model/Clock`), lock programs (`Model/Locks`), memory of `TaskBuilder::free`
   (`Model/Free`), cron expressions through the cache to alarms (`Model/Cron`), a shell command
   run as a sequence of actions with await points (`Model/ProcessTask`), the timer builder
   (`Model/Launch`), the processes of a pipeline running side by side over bounded pipes
   (`Model/Pipes`, a transition system of its own, parametrised by the programs).

2. **A transition system** for the running timer (`Model/System`): a state `St`, a
   finite set of labels (one per atomic action of a thread) and a total function
   `step : Env -> St -> Label -> Option St` (`none` = action not enabled). An execution is
   any list of labels; all theorems quantify over all lists, i.e. over all interleavings of

   * the scheduler thread (`Timer::async_schedule`, `maintain_task`, `handle_task`), split at
     every access to a structure shared with another thread,
   * the event thread (`EventHandle::handle_event` / `event_dispatch`), split the same way,
   * the bodies of running instances (`Routine::spawn_by_*`, `TaskContext::finish_task`),
   * the sweeper (`RecyclingBins::recycle`, `add_recycle_unit`),
   * any number of API callers (`DelayTimer::*`, `TaskInstancesChain::*`, `TaskInstance::*`).

   `Env` carries what is outside the crate: the reading of `timestamp()` at every scheduler
   iteration (an arbitrary function of the iteration number), whether integer overflow
   checks are compiled in, whether status reporting is on, the runtime (smol or tokio) and which
   bodies are synchronous. A panic of a body, of a closure called on the scheduler thread, and of
   overflow-checked arithmetic there are actions of their own.
   `Model/Wait` refines the `next*` calls on a chain into the check of its state and the reception
   from its channel, with any number of callers waiting.
   `Model/Body` puts a program behind every body and has the runtime execute it move by move.
   `Model/Fleet` puts any number of these systems side by side, with the status channel
   they share.
   A ghost `log` records observable effects (a body was started, a handler was stopped,
   an API call was made, an event was dispatched with a result, ...). Specifications are
   written over that log and never over model helpers.

### Granularity argument

`DashMap` guards are modelled as atomic accesses. Where the code holds a guard of
`task_flag_map` while touching the wheel (`update_task`, `remove_task`, first half of
`advance_task`) the pair is one atomic step: nobody else can change that mark in between, so
the pair is equivalent to a single action at the time of the wheel access.
`cancel_task`, `finish_task` and `maintain_task_status` touch the event thread's private
`TaskTrace` and then one mark; they are one step at the time of the mark access.
`advance_task`'s later accesses are separate steps; holding its guard over them only removes
interleavings (so theorems stay sound; negative witnesses do not use the removed ones).

This argument is itself proved (C82): `Model/Fine` has every access of the event thread as a step of its own and the guards
as explicit state, with an arbitrary assignment of keys to shards; `C82_refines` maps each of its executions to one of
`Model/System` with the same history. What `Model/Fine` still merges: several writes to one value under one `RefMut`; the
drop of a mark that `remove` or `insert` takes out; the ghost entries, which are made at the access the dispatch commits to.
The steps of the scheduler are single accesses in both models, with the guard of `maintain_task` and `handle_task` dropped in
a step of its own.

## Trusted base

* Lean's kernel. Axioms: only `propext`, `Classical.choice`, `Quot.sound` (each property file
  ends with `#print axioms`-clean theorems; no `sorry`, no `native_decide`, no own axioms).
* The hand translation of the Rust source into the definitions (each cites file and lines).
* Assumptions about code outside the crate:
  * channels (`smol::channel`) are unbounded FIFO queues that never lose messages;
  * `DashMap`, `HashMap`, `LinkedList`, `BinaryHeap`, `LruCache` implement their contracts;
    iteration order of `HashMap` and tie order of `BinaryHeap` are left unspecified (the label
    chooses);
  * the generator (snowflake) never returns a record id twice; only nightly builds, whose search for a run
    relies on the order, are modelled with increasing ids (`freshId`, and `C37_unsorted_differs` for what
    happens otherwise);
  * `cron_clock` iteration is a deterministic function of (schedule, time zone, previous time);
  * aborting an instance may or may not stop it before it sends its finish event; in `Model/Body.lean`, where bodies are
    programs, it is refined: tokio `abort` and smol `cancel` mark a task, a marked task is not polled again and is dropped
    when it is not being polled; a blocking job runs on its own thread and is not interrupted, and smol drops it if it is
    cancelled before it was begun (documentation of tokio 1.x and async-task);
  * sequentially consistent atomics;
  * pipes of the operating system hold a fixed number of bytes and block writers beyond it, writers without a
    reader are killed, and `status()` of the smol child does not read the child's pipes (its documented contract;
    the library's source is not part of the crate).
* Fairness, only in C70–C76, C79, C81 and C84–C88, and there as explicit hypotheses (`Spec/Fair.lean`): a thread or run that can go on
  all the time does go on (the OS and the runtimes do not starve it); the sweeper's two coroutines share an
  async lock, and the one that takes in deadlines gets it if it is free again and again (`smol::lock::Mutex`
  is eventually fair); the clocks get past the deadline in question. Only C84 assumes that
  bodies end when left to themselves (`Halts`), and that a runtime goes on with a body that is not waiting and the
  world with one that is (`Spec/BodyFair.lean`).
* `u64`/`i64` are modelled by `Nat`/`Int` without wrap-around, except where a value chosen by the
  user can overflow: builder unit setters, all alarms of tasks with a period, count-down decrement,
  running time limit. A panic on overflow ends the scheduler thread or the event thread; a dead thread
  is one whose steps are disabled for ever (C63, C64). After the death of the event thread the channel
  of the real program is closed; `Model/System.lean` goes on queueing events that nobody will look at, and
  `Model/Death.lean` adds what is visible of it: failing calls and the handles dropped by the unwinding (C77, C78).

## What is not modelled

Tracing/logging, Debug impls, memory layout, the tokio and smol
runtimes themselves, the OS process API (only its contract), how
`update_id_generator_conf` and the wall clock determine record ids (the source of the generator is not part of
the crate; any ids that do not repeat are allowed).

## Plan per property

| id | modelled / proved how |
|----|-----------------------|
| C01 | `StepBy<RangeFrom>` iterator modelled with its internal state; induction on alarm index; exact 64-bit law, violated beyond `u64::MAX` |
| C02 | setters in u64 arithmetic with overflow mode; law for all n, exact overflow boundary |
| C03 | function model; violated at x = now (build error): negation + `_partial` |
| C04 | invariant over all executions linking the stored count to the number of logged starts; n = 0 violates (wrap): negation |
| C05 | invariant "due tick" preserved by every step of every thread |
| C06 | violated (wrap-around): negation with reachable witness + `_partial` |
| C07 | same due-tick invariant at re-arm |
| C08 | invariant over all executions with a steady clock |
| C09 | from the due-tick laws and the pace assumption |
| C10 | re-arm law for overdue alarms + iterator law |
| C11 | due-tick invariance under every label not about the id; violated by panics on the scheduler thread (closure, limit, alarm): negations |
| C12 | "no token" invariant; violated by in-flight and stale-mark windows: negations + `_partial` |
| C13 | state equality for every state and unknown id |
| C14 | due-tick law for the advance step; violated at hand 3599: negation + `_partial` |
| C15 | law of the advance step on the stored task |
| C16 | law of the update step; violated for first start: negation + `_partial` |
| C17 | invariant: stopped scheduler is absorbing; starts need the scheduler |
| C18 | token-uniqueness invariant for ids added once; violated for reused ids: negation + `_partial` |
| C19 | invariant: every registered instance is RUNNING, headers are distinct |
| C20 | history invariant linking state changes to logged causes; violated for COMPLETED by a panicking synchronous body on tokio: negation |
| C21 | queue = registration order, invariant |
| C22 | function law for every state |
| C23 | violated (lost wake-up): negation + `_partial` (if listening before the event is processed) |
| C24 | violated after remove / chain drop: negation + `_partial` |
| C25 | invariant on chain state |
| C26 | history invariant over all interleavings |
| C27 | counting invariant over all interleavings, ids added once; violated on id reuse: negation |
| C28 | violated twice (race with increment; chain dropped): negations + `_partial` |
| C29 | law of the skip path |
| C30 | history invariant over sweeper and event thread; violated by limits that overflow: negation |
| C31 | history invariant; sweep loop laws |
| C32 | violated (sleeps until the smallest deadline known when it fell asleep): negation + `_partial` |
| C33 | law: if record not traced, dispatch leaves state and reports unchanged |
| C34 | history invariant over reports |
| C35 | refinement: cached function = uncached function, for all histories |
| C36 | invariant by induction over histories |
| C37 | invariant: trace lists are strictly sorted while the generator's ids increase; equivalence on sorted lists; witness that the nightly version loses a run when an id is smaller than an earlier one |
| C38 | round trip parse (render p) = p for all pipelines |
| C39 | parser laws for all strings |
| C40 | effect-trace law by induction on stages |
| C41 | file model; violated for `>` (no truncate): negation + `_partial` |
| C42 | wait-status encoding model; violated: negation + `_partial` |
| C43 | allocation model; violated (double free, foreign free, use after free): negations + ownership discipline that is sound and, without spawns, exact |
| C44 | generic ordered-locking theorem + instance for the lock programs of all threads |
| C45 | decision table + system consequence; violated for async / smol: negation + `_partial` |
| C46 | invariant |
| C47 | induction on ticks |
| C48 | function law |
| C49 | fuel-free semantics of the recursive call: divergence for two of three kinds, negation + `_partial` |
| C50 | violated: marks are kept; negation + `_partial` |
| C51 | FIFO invariant over the channel and the ghost log; progress lemma for the event thread; violated after the addition of a task whose first alarm overflows: negation + `_partial` |
| C52 | origin invariant over wheel, channel and threads |
| C53 | `nth` of the cron iterator against "k-th element of a set of instants"; cache refinement of C35 underneath |
| C54 | stepwise body with await points, dropped at any of them; violated for the last process: negation for all pipelines + `_partial` |
| C55 | same body, run to its end; refinement to the parser model of C40 |
| C56 | product of any number of timers with the one static channel; conservation invariant per timer; violated with two reporting timers: negation + `_partial` |
| C57 | function model of the builder with object identities; induction on the chain of calls and on the sequence of builds |
| C58 | induction on the chain of calls, on top of the laws of C01, C02 and C53 |
| C59 | time table of C05/C07 composed from the API call on; progress of the scheduler for existence |
| C60 | refinement of the chain to waiting callers; invariant: handed out = prefix of what was put on the chain |
| C61 | FIFO of the event channel (what is queued is a prefix of what will be dispatched) + frame conditions of the end events (`OnlyEnded`) |
| C62 | network of processes with bounded pipes; invariant against the one-after-the-other semantics, decreasing measure, absence of deadlock; violated when unread output exceeds a pipe: negations + `_partial`; for arbitrary programs (`Props/PipesLazy.lean`) an invariant against runs taken as far as needed, persistence of enabledness, fair turns, and conversely every ending execution read off as such runs |
| C63 | inversion: in every state but four the scheduler has a next step; origin and count of alarms asked (`Asked`) link the fatal tasks to those handed in; progress measure for any number of iterations |
| C64 | same for the event thread; FIFO position of the fatal addition bounds what is ever dispatched |
| C65 | life of a task (C05/C07/C29) from the processed request on, with the mark as part of the invariant; tally of attempts, starts and skips; every state in which the mark is missing loses the task |
| C66 | reverse of C30: every dispatched registration of a run with a limit has its unit among swept, heap and channel (`DeadlineOk`); a round that counts sweeps the unit or 200 no later ones, and swept units are distinct started runs |
| C67 | tables against the log (`traceOk`, `instOk`): entries are exactly the runs `Underway`; the heap is not: an execution is built in which a repeating task runs, every run is cancelled, and all deadlines stay |
| C68 | `job_step`: what one step of the whole system can do to one body; a marked future is never polled again, so only the stretch it is in remains; the negations run `goes_on` from states after a stop; `reports`: completions are reported by the future alone, and a dropped one stays dropped |
| C69 | `bodyOk`: the effects of a run lead its program from its start to where it is (`At`), over all steps of the system; `goes_on` executes the rest by steps of the runtime alone |
| C70 | unending executions (`Course`); weak fairness + decreasing measure (`leads`): what is left on the channel before the last event accepted |
| C71 | measure: rest of the iteration (`work`), then the time table of C05/C07 up to any tick; the continuation by turns (`fair_course`) shows that fair executions exist |
| C72 | chain of leads-to steps: gate, registration, heap (strong fairness of the lock), sweep (runs started by the deadline are finitely many, each round sweeps one no later), time-out event |
| C73 | chain: gate, report or stop, finish event |
| C74 | C70 for the cancel event, then C24 and C23 from that moment on |
| C75 | measure: instances before it on the chain; gate and C70 for the registration |
| C76 | `Low`/`High` bounds of the counter: at zero when all runs are over, so the next due time starts one; the leak of the counter is an invariant |
| C77 | the unwinding of the event thread added to the system with bodies; equivalence with end events while it lives, exact sets of stopped and unstoppable runs after |
| C78 | same model; a refused call implies the closed channel, that implies C64's cause |
| C79 | a simulation (`Sim`) between the system and the sequential sheet of `Spec/Sheet.lean`, step by step; conversely every history is built as an execution; and liveness on top of it (`Props/SheetLive.lean`), from C71 and the fact that the sheet never dates a run later than now. The sheet writes a due run down when the next thing happens, because a parallel limit may still leave it out (event `skip`) |
| C80 | induction on the number of calls (`Props/Counting.lean`); the unit tests of the crate are instances |
| C81 | the life invariant of C07 with the weaker premise that the task has no record (`Proofs/Forgotten.lean`, `Props/Ghost.lean`) |
| C82 | refinement: the state seen through a patch that undoes what a dispatch has begun (`Proofs/Fine.lean`), step by step; the converse by running each dispatch to its end |
| C83 | a rank of the positions inside of a dispatch (`Props/FineGuards.lean`) |
| C84 | the system inside of an unending execution with bodies is a `Course`, so C71 and C04 count the starts; each body by induction on `Halts`, with fairness of its own steps; no stop without a cause (C61) |
| C85 | the story of a task handed in once (on its way, living by its time table, removed or advanced) as an invariant; the first removal taken either finds the only copy (`Single`), after which no copy can appear, or leaves the life invariant of C81 (`Proofs/Removal.lean`, `Props/Removal.lean`) |
| C86 | the same story; an advance that finds the task leaves it with the event thread alone (`Borne`), put back it waits as before, except that the scheduler may still have its id in its list (`Overtaken`), for a slot in which it no longer is (`Proofs/Advancement.lean`, `Props/Advancement.lean`) |
| C87 | the same story; an update puts the new task where the mark points, and every mark points into the wheel (`MarksLow`); if no other copy is left, the new task waits like any other (`Proofs/Updating.lean`, `Props/Updating.lean`) |
| C88 | the count of a mark exceeds the runs going on by at most two (`Covered`): an end is lost for lack of a counted run only while the count is zero, and an end that cannot be passed on takes the chain, and with it the maintainer, away (`Proofs/Slots.lean`, `Props/Slots.lean`) |
| C89 | the part of a state that concerns a set of ids (`part`), and a simulation: each action is either the same action on the part or leaves the part as it is; all chains are on one side (`Lone`), and all deadlines are on one side (`Units`) (`Proofs/Part.lean`, `PartEvents.lean`, `PartRuns.lean`, `Props/Part.lean`) |
| C90 | the simulation of C89 along an unending execution, one moment after the other; fairness carries over because what the event thread, the scheduler, the sweeper and the runs achieve in the original (C70, C71) can be seen in the part (`Proofs/PartCourse.lean`, `Props/PartCourse.lean`) |
| C91 | where the sweeper is after a sweep and what it knows then (`Napping`), kept by every action, along the history of an execution; and an execution with two limits in which one task's deadline wakes the sweeper for the other (`Props/Nap.lean`, `Spec/Nap.lean`) |
| C92 | the deadlines on their way to the sweeper (`onWay`: with the scheduler, in the event channel, in the sweeper's channel) are in order up to the difference of the limits, so are those in the heap to them, and the sweeper sleeps past none by more than that (`Prompt`) (`Proofs/Prompt.lean`, `Props/Prompt.lean`) |
| C93 | a removal called is in the channel, in the hands of the event thread, or done, and then the id has no mark (`Struck`); without a mark a task with a limit is dropped at its next attempt, and nothing but an addition makes a mark (`Winding`); the due ticks of the copies left in the wheel have a bound, which no action raises (`Fading`) (`Props/Certain.lean`, `Props/Fading.lean`, `Spec/Certain.lean`) |
| C94 | invariant between the table of marks and the log (`recorded`); an addition called is in the channel, in the hands of the event thread, or done, and then the id has a mark until a removal is called (`Filed`, `Lodged`); for the growth of the table a fair execution in which N tasks with one run each are handed in (`Props/Record.lean`, `Props/Leak.lean`, `Spec/Record.lean`) |
