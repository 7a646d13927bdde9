{"id": "C01", "title": "Second-based schedules are exact arithmetic progressions", "statement": "A task built at time t with set_frequency_{once,repeated,count_down}_by_seconds(s), s > 0, has as its k-th alarm (k = 0,1,2,...) exactly t + (k+1)*s; no alarm is skipped, repeated or reordered. With s = 0 the build is rejected.", "quantifier": "every build time, every period, every alarm index", "why_tests_cant": "a test samples the first few alarms of a few periods; the claim is about every index of an endless iterator", "anchors": ["src/timer/task.rs:FrequencyInner::try_from", "src/timer/task.rs:FrequencyInner::next_alarm_timestamp", "src/timer/task.rs:Task::get_next_exec_timestamp"]}
{"id": "C02", "title": "Minutes, hours and days are exact multiples of seconds", "statement": "set_frequency_*_by_minutes/hours/days(n) behaves exactly as the seconds setter with 60*n, 3600*n and 86400*n for every n whose product fits in u64; n = 0 is rejected at build time.", "quantifier": "every n : u64 and every unit", "why_tests_cant": "2^64 inputs per setter, and the interesting ones are at the overflow boundary", "anchors": ["src/timer/task.rs:TaskBuilder::set_frequency_once_by_minutes", "src/timer/task.rs:TaskBuilder::set_frequency_repeated_by_hours", "src/timer/task.rs:TaskBuilder::set_frequency_count_down_by_days", "src/prelude.rs:ONE_DAY"]}
{"id": "C03", "title": "One-shot by absolute timestamp", "statement": "A task built with set_frequency_once_by_timestamp_seconds(x) builds successfully for every x, its single alarm is x when x is in the future, and one second from now when x is not in the future.", "quantifier": "every x, every current time", "why_tests_cant": "the failing point is the single second x = now, which a test can only hit by racing the clock", "anchors": ["src/timer/task.rs:TaskBuilder::set_frequency_once_by_timestamp_seconds", "src/timer/task.rs:FrequencyInner::try_from"]}
{"id": "C04", "title": "A count-down task starts at most its count", "statement": "A task built with a count-down of n is started at most n times over the whole life of the timer (once: at most 1), however starts, skips, cancellations, advances and other tasks' operations interleave.", "quantifier": "every n, every history of operations and every thread interleaving", "why_tests_cant": "needs all histories; tests run n=3 once", "anchors": ["src/timer/task.rs:FrequencyInner::down_count", "src/timer/task.rs:Task::down_count_and_set_vaild", "src/timer/timer_core.rs:Timer::maintain_task"]}
{"id": "C05", "title": "Exact first start of an added task", "statement": "If add_task/insert_task is processed while the wheel stands at hand position h and the first alarm lies d seconds after the wheel's clock, then (absent later operations on that id) the first start attempt happens exactly d+1 ticks later when (d mod 3600)+h+1 < 3600, and exactly d+1+3600 ticks later otherwise (except that for d mod 3600 = 3599 it is d+1 ticks if the wheel has not looked at its current slot yet). No start attempt happens before, and the wheel cannot pass that tick without attempting the start.", "quantifier": "every hand position, every delay d (including many wheel revolutions), every interleaving of other threads' work", "why_tests_cant": "3600 positions times unbounded delays times interleavings", "anchors": ["src/timer/event_handle.rs:EventHandle::add_task", "src/timer/slot.rs:Slot::arrival_time_tasks", "src/timer/task.rs:Task::check_arrived", "src/timer/timer_core.rs:Timer::async_schedule"]}
{"id": "C06", "title": "First start is not late", "statement": "A newly added task whose first alarm is d seconds ahead is started within d+1 ticks of being added, whatever the current position of the wheel.", "quantifier": "every wheel position and delay", "why_tests_cant": "fails only when the delay crosses the wheel's wrap-around, i.e. depends on how long the process has been up", "anchors": ["src/timer/event_handle.rs:EventHandle::add_task", "src/timer/timer_core.rs:DEFAULT_TIMER_SLOT_COUNT"]}
{"id": "C07", "title": "Exact re-arming after a run", "statement": "When a task has been started (or skipped by its parallel limit) at tick n with wheel clock c and its next alarm is a, then the next start attempt happens exactly max(a-c, 0)+1 ticks later if a >= c, and exactly 2 ticks later if a < c, for delays of any number of wheel revolutions and from any wheel position.", "quantifier": "every wheel position, every alarm, every interleaving", "why_tests_cant": "the wrap-around and revolution counting cases are unbounded", "anchors": ["src/timer/timer_core.rs:Timer::handle_task", "src/timer/slot.rs:Slot::arrival_time_tasks", "src/timer/task.rs:Task::check_arrived"]}
{"id": "C08", "title": "No drift under a steady clock", "statement": "Under a clock that advances one second per tick, a repeating task of period s with no parallel limit starts exactly every s ticks after its first start, forever: the j-th start is exactly j*s ticks after the first.", "quantifier": "every period, every number of repetitions, every interleaving with other tasks and API calls on other ids", "why_tests_cant": "forever is not testable; drift only shows over long runs", "anchors": ["src/timer/timer_core.rs:Timer::handle_task", "src/timer/timer_core.rs:Timer::async_schedule", "src/timer/task.rs:FrequencyInner::next_alarm_timestamp"]}
{"id": "C09", "title": "Never early", "statement": "As long as the wheel never ticks faster than the wall clock (any n ticks take at least n-1 seconds), no scheduled start happens before its alarm time, for first starts and for re-armed starts.", "quantifier": "every clock function satisfying the pace assumption, every wheel position, every alarm", "why_tests_cant": "quantifies over all clocks", "anchors": ["src/timer/event_handle.rs:EventHandle::add_task", "src/timer/timer_core.rs:Timer::handle_task"]}
{"id": "C10", "title": "Overdue alarms are caught up, not dropped", "statement": "If the clock jumps forward past several alarms of a repeating task, every missed alarm still produces its own start attempt, one every two ticks, until the schedule has caught up.", "quantifier": "every jump size, every period, times below 2^63 seconds", "why_tests_cant": "depends on arbitrary clock jumps", "anchors": ["src/timer/timer_core.rs:Timer::handle_task", "src/timer/task.rs:FrequencyInner::next_alarm_timestamp"]}
{"id": "C11", "title": "Tasks do not disturb each other", "statement": "Operations on other task ids (add, insert, update, remove, advance, cancel, finish, time-out) and runs of other tasks never change the tick at which a given task will be started.", "quantifier": "every pair of ids, every operation sequence, every interleaving", "why_tests_cant": "non-interference over all histories", "anchors": ["src/timer/event_handle.rs:EventHandle::event_dispatch", "src/timer/slot.rs:Slot", "src/timer/timer_core.rs:Timer::async_schedule"]}
{"id": "C12", "title": "A removed task never starts again", "statement": "Once remove_task(id) has been processed, no further start of that task ever happens unless it is added again.", "quantifier": "every history and every interleaving of scheduler thread and event thread", "why_tests_cant": "the failing window is a few instructions wide", "anchors": ["src/timer/event_handle.rs:EventHandle::remove_task", "src/timer/timer_core.rs:Timer::maintain_task", "src/timer/timer_core.rs:Timer::handle_task"]}
{"id": "C13", "title": "Operations on unknown ids are harmless", "statement": "remove_task, advance_task, update_task and cancel_task on an id (or record) that the timer does not know change nothing: no task is added, removed, rescheduled, started or stopped.", "quantifier": "every state and every unknown id", "why_tests_cant": "all reachable states", "anchors": ["src/timer/event_handle.rs:EventHandle::remove_task", "src/timer/event_handle.rs:EventHandle::advance_task", "src/timer/event_handle.rs:EventHandle::update_task", "src/timer/event_handle.rs:EventHandle::cancel_task"]}
{"id": "C14", "title": "advance_task runs the task at the next tick", "statement": "advance_task(id) on a waiting task causes it to be started at the very next tick of the wheel, whatever its remaining delay and whatever the wheel position; the task is never lost.", "quantifier": "every wheel position and every remaining delay", "why_tests_cant": "fails at exactly one of 3600 wheel positions", "anchors": ["src/timer/event_handle.rs:EventHandle::advance_task", "src/timer/task.rs:Task::clear_cylinder_line"]}
{"id": "C15", "title": "advance_task keeps the rest of the schedule", "statement": "Advancing a task neither changes its remaining count-down, its parallel limit, its time limit nor its future alarms: the advanced run stands in for the pending alarm and the alarm after it is unaffected.", "quantifier": "every task and every state", "why_tests_cant": "all task configurations", "anchors": ["src/timer/event_handle.rs:EventHandle::advance_task", "src/timer/timer_core.rs:Timer::handle_task"]}
{"id": "C16", "title": "update_task replaces the task in place", "statement": "After update_task(t) is processed for a waiting task, the previous body is never started again, and the new body is first started according to its own frequency.", "quantifier": "every waiting task, every wheel position, every new frequency", "why_tests_cant": "depends on the remaining revolutions of the replaced task", "anchors": ["src/timer/event_handle.rs:EventHandle::update_task", "src/timer/slot.rs:Slot::update_task"]}
{"id": "C17", "title": "stop_delay_timer stops scheduling and nothing else", "statement": "After the scheduler has observed a processed stop_delay_timer, no task is ever started again; running instances are unaffected: their completion, cancellation and time-out are still processed and their final states still reported.", "quantifier": "every history and interleaving after stop", "why_tests_cant": "all continuations", "anchors": ["src/entity.rs:DelayTimer::stop_delay_timer", "src/timer/event_handle.rs:EventHandle::event_dispatch", "src/timer/timer_core.rs:Timer::async_schedule"]}
{"id": "C18", "title": "One id, one scheduled task", "statement": "At every moment a task id is scheduled at most once in the timer (so it cannot be started twice for one alarm), and the timer's own record of where it is waiting is accurate whenever the scheduler is not in the middle of handling that id.", "quantifier": "every history, every interleaving", "why_tests_cant": "global invariant over all reachable states", "anchors": ["src/timer/event_handle.rs:EventHandle::record_task_mark", "src/timer/slot.rs:Slot::add_task", "src/timer/timer_core.rs:Timer::handle_task", "src/timer/task.rs:TaskMark::set_slot_mark"]}
{"id": "C19", "title": "Instance states are final", "statement": "TaskInstance::get_state starts as RUNNING, leaves RUNNING at most once, and once it has returned COMPLETED, CANCELLED or TIMEOUT it returns that same value forever.", "quantifier": "every instance, every history and interleaving", "why_tests_cant": "forever / every schedule", "anchors": ["src/timer/runtime_trace/task_instance.rs:Instance::notify_cancel_finish", "src/timer/task.rs:TaskMark::notify_cancel_finish", "src/timer/event_handle.rs:EventHandle::cancel_task", "src/timer/event_handle.rs:EventHandle::finish_task"]}
{"id": "C20", "title": "Instance states tell the truth", "statement": "An instance is COMPLETED only if its body ran to its end, CANCELLED only if a cancel request for exactly that (task id, record id) was made, and TIMEOUT only if its task has a maximum running time and the clock had reached start time + maximum running time.", "quantifier": "every instance, every history and interleaving", "why_tests_cant": "causality over all schedules", "anchors": ["src/timer/event_handle.rs:EventHandle::event_dispatch", "src/timer/runtime_trace/sweeper.rs:RecyclingBins::recycle", "src/timer/task.rs:TaskContext::finish_task"]}
{"id": "C21", "title": "The instance chain delivers each run once, in order", "statement": "TaskInstancesChain::next yields the instances of the task's runs in the order the runs were started, each at most once, and each is RUNNING when first put on the chain.", "quantifier": "every history and interleaving", "why_tests_cant": "ordering over all schedules", "anchors": ["src/timer/runtime_trace/task_instance.rs:TaskInstancesChainMaintainer::push_instance", "src/timer/runtime_trace/task_instance.rs:TaskInstancesChain::next", "src/timer/event_handle.rs:EventHandle::maintain_task_status"]}
{"id": "C22", "title": "Cancelling an ended instance is refused", "statement": "cancel_with_wait/cancel_with_wait_timeout/cancel_with_async_wait on an instance that is COMPLETED, CANCELLED or TIMEOUT returns DisCancel and sends nothing to the timer.", "quantifier": "every instance state", "why_tests_cant": "every state value, including states reached by races", "anchors": ["src/timer/runtime_trace/task_instance.rs:TaskInstance::cancel"]}
{"id": "C23", "title": "cancel_with_wait returns", "statement": "A cancel_with_wait call on an instance that subsequently ends (by this cancellation or otherwise) is woken and returns the instance's final state.", "quantifier": "every interleaving of the caller with the event thread", "why_tests_cant": "the lost-wake-up window is between two adjacent statements", "anchors": ["src/timer/runtime_trace/task_instance.rs:TaskInstance::cancel_with_wait", "src/timer/runtime_trace/task_instance.rs:Instance::notify_cancel_finish"]}
{"id": "C24", "title": "Every stopped instance is reported as stopped", "statement": "Whenever the timer stops or retires a running instance (cancel, time-out or completion) whose handle was obtained from the instance chain, that handle leaves the RUNNING state.", "quantifier": "every history, including removal of the task and dropping of the chain while instances run", "why_tests_cant": "depends on operation order", "anchors": ["src/timer/event_handle.rs:EventHandle::cancel_task", "src/timer/event_handle.rs:EventHandle::finish_task", "src/timer/task.rs:TaskMark::notify_cancel_finish"]}
{"id": "C25", "title": "Chain expiry", "statement": "After its task has been removed or replaced, every TaskInstancesChain::next* call returns Expired; while the task is known to the timer and the chain is alive it never does.", "quantifier": "every history", "why_tests_cant": "all histories", "anchors": ["src/timer/runtime_trace/task_instance.rs:TaskInstancesChain::get_timer_event_sender", "src/timer/runtime_trace/task_instance.rs:TaskInstancesChainMaintainer::drop", "src/timer/task.rs:TaskMark::get_task_instances_chain_maintainer"]}
{"id": "C26", "title": "Run registration precedes completion", "statement": "For every run, however fast its body finishes, the event that registers the run is queued before the event that reports its completion; so a completion never finds its run unregistered.", "quantifier": "every interleaving of the scheduler, the body and the event thread", "why_tests_cant": "issue #45 was exactly such a race", "anchors": ["src/timer/timer_core.rs:Timer::maintain_task", "src/timer/task.rs:TaskContext::finish_task"]}
{"id": "C27", "title": "Parallel limit is respected", "statement": "A task with maximum_parallel_runnable_num = m never has more than m instances running at the same time.", "quantifier": "every m, every history, every interleaving of starts and ends", "why_tests_cant": "race-dependent bound over unbounded histories", "anchors": ["src/timer/timer_core.rs:Timer::maintain_task", "src/timer/task.rs:TaskMark::inc_parallel_runnable_num", "src/timer/task.rs:TaskMark::dec_parallel_runnable_num"]}
{"id": "C28", "title": "Ended instances give their parallel slot back", "statement": "When no instance of a task is running and all end events have been processed, the task's parallel limit never causes a run to be skipped: an ended instance always releases its slot.", "quantifier": "every history and interleaving, including dropping the chain while an instance runs", "why_tests_cant": "two different few-instruction races / orderings", "anchors": ["src/timer/event_handle.rs:EventHandle::finish_task", "src/timer/task.rs:TaskMark::dec_parallel_runnable_num", "src/timer/timer_core.rs:Timer::handle_task"]}
{"id": "C29", "title": "A skipped run costs nothing", "statement": "When a run is skipped because of the parallel limit, no body is started, the count-down is not consumed, and the task is re-armed for its next alarm.", "quantifier": "every task with a limit, every state", "why_tests_cant": "all states", "anchors": ["src/timer/timer_core.rs:Timer::maintain_task", "src/timer/timer_core.rs:Timer::handle_task"]}
{"id": "C30", "title": "Time-outs never come early", "statement": "A time-out event for an instance is produced only when the clock has reached the instance's start time plus its maximum running time, and never for tasks without a maximum running time.", "quantifier": "every instance, every clock reading, every interleaving", "why_tests_cant": "all clocks", "anchors": ["src/timer/runtime_trace/sweeper.rs:RecyclingBins::recycle", "src/timer/event_handle.rs:EventHandle::maintain_task_status", "src/timer/task.rs:Task::get_maximum_running_time"]}
{"id": "C31", "title": "Sweeper is exactly-once and deadline-ordered", "statement": "Each registered deadline produces at most one time-out event; within a sweep the events come in non-decreasing deadline order; a sweep removes every expired deadline up to 200 and nothing that has not expired.", "quantifier": "every multiset of deadlines, every tie-breaking of the heap", "why_tests_cant": "unbounded heaps and all tie orders", "anchors": ["src/timer/runtime_trace/sweeper.rs:RecyclingBins::recycle", "src/timer/runtime_trace/sweeper.rs:RecycleUnit::cmp"]}
{"id": "C32", "title": "Sweeper is prompt", "statement": "An expired deadline is noticed at most three seconds after it expires (or after it was registered), provided fewer than 200 deadlines expire together.", "quantifier": "every multiset of deadlines and arrival order", "why_tests_cant": "depends on the largest deadline in the heap", "anchors": ["src/timer/runtime_trace/sweeper.rs:RecyclingBins::recycle", "src/timer/runtime_trace/sweeper.rs:RecyclingBins::yield_for_while"]}
{"id": "C33", "title": "End events for ended instances are inert", "statement": "A time-out, cancel or finish event for an instance that has already ended changes no task, no count, no instance state, stops nothing and is not reported as a public event.", "quantifier": "every state, every ended record", "why_tests_cant": "all late arrivals", "anchors": ["src/timer/event_handle.rs:EventHandle::cancel_task", "src/timer/event_handle.rs:EventHandle::finish_task", "src/timer/runtime_trace/task_handle.rs:TaskTrace::quit_one_task_handler"]}
{"id": "C34", "title": "Public events tell one consistent story per run", "statement": "With status reporting on, every run is reported as running exactly once before any other report about it, and at most one of finish/time-out is reported for it; every reported time-out really stopped a running instance.", "quantifier": "every history and interleaving", "why_tests_cant": "ordering over all schedules", "anchors": ["src/timer/event_handle.rs:EventHandle::handle_event", "src/utils/status_report.rs:PublicEvent::try_from"]}
{"id": "C35", "title": "The cron cache is transparent", "statement": "Building a task from a cron expression yields the same schedule iterator, based at the current time and in the requested time zone, whether or not the expression was cached, for any sequence of earlier builds in the thread.", "quantifier": "every sequence of expressions, time zones and times", "why_tests_cant": "cache contents depend on the entire history", "anchors": ["src/timer/task.rs:DelayTimerScheduleIteratorOwned::analyze_cron_expression", "src/timer/task.rs:CRON_EXPRESSION_CACHE"]}
{"id": "C36", "title": "The cron cache is bounded and only holds valid entries", "statement": "The cron cache never holds more than 256 entries, never two for the same key, and a failed parse leaves no entry and is reported as an error every time.", "quantifier": "every history of builds", "why_tests_cant": "histories longer than any test", "anchors": ["src/timer/task.rs:CRON_EXPRESSION_CACHE", "src/timer/task.rs:DelayTimerScheduleIteratorOwned::analyze_cron_expression"]}
{"id": "C37", "title": "Stable and nightly builds agree", "statement": "The nightly and stable implementations of stopping one instance have the same effect and the same success/failure result in every state the timer can reach.", "quantifier": "every reachable state, every (task id, record id)", "why_tests_cant": "the nightly version is wrong on unsorted lists; needs the invariant that lists are sorted", "anchors": ["src/timer/runtime_trace/task_handle.rs:TaskTrace::quit_one_task_handler"]}
{"id": "C38", "title": "Shell pipelines are parsed faithfully", "statement": "For every non-empty pipeline of commands whose words contain no blank and no '>' and which contain no bare '|' word, the string obtained by joining words with blanks and commands with ' | ' is run as exactly that list of programs and arguments, in order, each stage's stdin connected to the previous stage's stdout and the first stage inheriting stdin.", "quantifier": "every pipeline length, every word", "why_tests_cant": "unbounded strings", "anchors": ["src/utils/parse.rs:parse_and_run"]}
{"id": "C39", "title": "Redirect rule", "statement": "A stage with '>' or '>>' redirects its output to the file named after the last redirect operator, runs the command text before the first one, and ends the pipeline: later stages are not run.", "quantifier": "every command string", "why_tests_cant": "unbounded strings", "anchors": ["src/utils/parse.rs:_has_redirect_file", "src/utils/parse.rs:_remove_angle_bracket_command", "src/utils/parse.rs:create_stdio_file"]}
{"id": "C40", "title": "A failed pipeline leaves no process behind", "statement": "If starting a pipeline fails at any stage (bad redirect, empty stage, spawn failure), every process already started for it is killed exactly once; if it succeeds none is killed and all are returned in order.", "quantifier": "every pipeline, every failure point", "why_tests_cant": "every crash point", "anchors": ["src/utils/parse.rs:parse_and_run", "src/utils/parse.rs:ChildGuard::drop"]}
{"id": "C41", "title": "'>' replaces the file, '>>' appends to it", "statement": "Redirecting with '>' leaves the file holding exactly the command's output; redirecting with '>>' leaves the old content followed by the output.", "quantifier": "every old content and every output", "why_tests_cant": "all content lengths; wrong only when the new output is shorter than the old file", "anchors": ["src/utils/parse.rs:create_stdio_file"]}
{"id": "C42", "title": "Exit status is reported faithfully", "statement": "Awaiting a child process through ChildGuard::wait yields an exit status with the same exit code as the process.", "quantifier": "every exit code / signal", "why_tests_cant": "wrong for some codes only", "anchors": ["src/utils/parse.rs:ChildUnify for SmolChild::wait"]}
{"id": "C43", "title": "TaskBuilder::free is memory safe", "statement": "For every sequence of builder calls, free releases only a string the builder itself allocated, never releases the same string twice, and no task is spawned from a string that was released.", "quantifier": "every sequence of builder calls and copies", "why_tests_cant": "undefined behaviour may pass tests silently", "anchors": ["src/timer/task.rs:TaskBuilder::free", "src/timer/task.rs:TaskBuilder::set_frequency_by_candy", "src/timer/task.rs:TaskBuilder::spawn_async_routine"]}
{"id": "C44", "title": "No deadlock between scheduler and event threads", "statement": "The locks taken by the scheduler thread, the event thread, the sweeper and API callers are always acquired in a consistent order, so no reachable combination of lock holders can be stuck waiting for each other.", "quantifier": "every interleaving, every pair of operations", "why_tests_cant": "deadlocks need particular interleavings", "anchors": ["src/timer/event_handle.rs:EventHandle::advance_task", "src/timer/event_handle.rs:EventHandle::update_task", "src/timer/timer_core.rs:Timer::handle_task", "src/timer/runtime_trace/sweeper.rs:RecyclingBins::recycle"]}
{"id": "C45", "title": "A panicking body does not block its task", "statement": "If the body of a run panics, the run still ends in the timer's books, i.e. its completion is reported and its parallel slot is released.", "quantifier": "every task kind and runtime", "why_tests_cant": "needs all combinations of kinds, runtimes and outcomes in all states", "anchors": ["src/timer/task.rs:Routine for AsyncFn", "src/timer/task.rs:Routine for SyncFn"]}
{"id": "C46", "title": "The wheel never spins", "statement": "The scheduler always finds its current wheel slot, the hand is always in [0,3600) and each tick moves it by exactly one position modulo 3600.", "quantifier": "every history and interleaving", "why_tests_cant": "all histories", "anchors": ["src/timer/timer_core.rs:Timer::async_schedule", "src/entity.rs:SencondHand::next", "src/timer/event_handle.rs:EventHandle::init_task_wheel"]}
{"id": "C47", "title": "Tick times do not drift", "statement": "The n-th tick of the smol clock is due exactly n periods after the clock's creation, and of the tokio clock n-1 periods, no matter how late individual ticks are served.", "quantifier": "every n, every pattern of late wake-ups", "why_tests_cant": "unbounded n", "anchors": ["src/timer/timer_core.rs:SmolClock::tick", "src/timer/timer_core.rs:TokioClock::new"]}
{"id": "C48", "title": "Candy frequencies mean what they say", "statement": "set_frequency_by_candy(kind, candy) builds the same task as the corresponding set_frequency_*_by_cron_str with the candy's expression, for every candy and every count.", "quantifier": "every candy conversion and every u32 count", "why_tests_cant": "user-defined conversions are unbounded", "anchors": ["src/timer/task.rs:TaskBuilder::set_frequency_by_candy", "src/utils/convenience.rs:CandyCron"]}
{"id": "C49", "title": "Waiting for any child terminates", "statement": "Awaiting ChildGuard::wait for a process that exits returns, for each of the supported process libraries.", "quantifier": "every child kind", "why_tests_cant": "non-termination cannot be observed in bounded time", "anchors": ["src/utils/parse.rs:ChildUnify for TokioChild::wait", "src/utils/parse.rs:ChildUnify for StdChild::wait"]}
{"id": "C50", "title": "Finished count-down tasks are forgotten", "statement": "After a count-down task's last run has ended the timer keeps no record of it, so its instance chain reports expiry instead of blocking forever.", "quantifier": "every count-down, every history", "why_tests_cant": "absence of a state after all histories", "anchors": ["src/timer/timer_core.rs:Timer::maintain_task", "src/timer/event_handle.rs:EventHandle::finish_task"]}
{"id": "C51", "title": "Accepted requests are processed once, in order", "statement": "Every request accepted by the API and every internal event is dispatched by the event thread exactly once, in the order in which they were accepted, and the event thread can always get through all of them on its own.", "quantifier": "every history and interleaving of callers, scheduler, sweeper, bodies and event thread", "why_tests_cant": "all interleavings of concurrent senders", "anchors": ["src/timer/event_handle.rs:EventHandle::handle_event", "src/entity.rs:DelayTimer::seed_timer_event"]}
{"id": "C52", "title": "Only handed-in bodies are ever started", "statement": "Every body the timer starts for an id is the body of a task that was handed in under that id (add_task, insert_task or update_task) before the start; nothing else is ever executed, and never under another id.", "quantifier": "every history and interleaving", "why_tests_cant": "Tasks are moved between slots, channel and threads by several operations; a mix-up of ids or copies would need a particular interleaving.", "anchors": ["src/timer/timer_core.rs:296-353", "src/timer/event_handle.rs:266-375", "src/timer/slot.rs"]}
{"id": "C53", "title": "Cron tasks ring exactly at the matching instants", "statement": "For a task built with a cron expression (repeated, count-down or once) the k-th alarm is the k-th instant after the moment of building that matches the expression in the time zone of the builder: none is skipped, none is repeated, and neither earlier builds in the same thread (with other expressions, zones or at other times) nor earlier runs of the task change it. An expression that cannot be parsed makes the build fail.", "quantifier": "every expression, zone, build time, earlier sequence of builds in the thread, and alarm index", "why_tests_cant": "unbounded alarm sequences after arbitrary histories of the per-thread cron cache", "anchors": ["src/timer/task.rs:DelayTimerScheduleIteratorOwned", "src/timer/task.rs:TaskBuilder::spawn", "src/utils/convenience.rs"]}
{"id": "C54", "title": "Stopping a shell command run stops its processes", "statement": "When a run of a body made by unblock_process_task_fn or tokio_unblock_process_task_fn is cancelled or timed out, every process that the run has started has been waited for or is killed.", "quantifier": "every command line, every behaviour of the operating system and every point at which the run is stopped", "why_tests_cant": "The run can be stopped at every await point of an arbitrarily long pipeline.", "anchors": ["src/utils/convenience.rs:unblock_process_task_fn", "src/utils/convenience.rs:tokio_unblock_process_task_fn", "src/timer/runtime_trace/task_handle.rs", "src/utils/parse.rs:parse_and_run"]}
{"id": "C55", "title": "A finished shell command run leaves no process behind", "statement": "When a run of a shell command body ends by itself, the last process of the pipeline has been waited for and every other process that was started has been killed, each exactly once and none before the last process has ended; nothing is killed or waited for that the run did not start.", "quantifier": "every command line, every behaviour of the operating system, every failure to spawn or to open a file", "why_tests_cant": "arbitrary pipelines with failures at every stage", "anchors": ["src/utils/convenience.rs:unblock_process_task_fn", "src/utils/parse.rs:parse_and_run", "src/utils/parse.rs:ChildGuard"]}
{"id": "C56", "title": "A status reporter yields the public events of its timer", "statement": "The public events obtained through a timer (get_public_event, or the status reporter taken from it, or clones of either) are exactly the public events of that timer: each is handed out once, in order, none is lost, and none of another timer is handed out.", "quantifier": "every number of timers in the process, every configuration and history of each, every number of consumers, every interleaving", "why_tests_cant": "several timers, their threads and any number of consumers interleave freely", "anchors": ["src/utils/status_report.rs:GLOBAL_STATUS_REPORTER", "src/utils/status_report.rs:StatusReporter", "src/entity.rs:DelayTimer::get_public_event", "src/entity.rs:DelayTimer::take_status_reporter", "src/timer/event_handle.rs:EventHandle::handle_event"]}
{"id": "C57", "title": "A timer is put together as configured", "statement": "For every chain of calls on a DelayTimerBuilder, build starts exactly one scheduler and one event thread; they share one event channel and one set of shared data with the handle and with no other timer; threads, sweeper, clock and bodies run on the runtime chosen by the last of the runtime calls (a tokio runtime of its own by default); public events are reported iff enable_status_report was called. Building fails only if a tokio runtime is needed and cannot be created.", "quantifier": "every chain of builder calls, every sequence of timers built in a process", "why_tests_cant": "all chains of calls in all orders, and any number of timers", "anchors": ["src/entity.rs:DelayTimerBuilder::build", "src/entity.rs:DelayTimerBuilder::init_delay_timer", "src/entity.rs:DelayTimerBuilder::lauch", "src/timer/event_handle.rs:EventHandleBuilder::build"]}
{"id": "C58", "title": "Builder settings are independent and the last one counts", "statement": "For every chain of setter calls on a TaskBuilder, in any order, the task that is built has the id, the limits, the time zone and the schedule of the last call of each sort and the defaults (id 0, no limits, local zone, once in a minute) where there was none; no call disturbs a setting of another sort. With overflow checks a chain panics exactly if some call asks for more seconds than a u64 holds.", "quantifier": "every chain of setter calls, build time and history of the cron cache", "why_tests_cant": "unboundedly many orders and repetitions of some twenty setters", "anchors": ["src/timer/task.rs:TaskBuilder"]}
{"id": "C59", "title": "Due runs do come", "statement": "A task without parallel limit that was added or inserted once (and whose id nothing else concerns) is started as often as it was asked to be: with enough ticks of the wheel a count-down task of n >= 1 has been started exactly n times and a repeating task more often than any given number, whatever other tasks, bodies and API calls do, unless a panic kills the scheduler thread.", "quantifier": "every task, every history before and after, every clock", "why_tests_cant": "liveness over unbounded executions and interleavings", "anchors": ["src/timer/timer_core.rs:Timer::async_schedule", "src/timer/timer_core.rs:Timer::maintain_task", "src/timer/task.rs:Task::down_count_and_set_vaild"]}
{"id": "C60", "title": "Waiting for an instance ends with a run or with the task", "statement": "Callers may wait at the same time in next_with_wait / next_with_async_wait on one chain. A waiting call returns the first registered run nobody has got yet; runs are handed out in the order of their starts, none twice, none left out. It can go on exactly when such a run exists or the task was removed or replaced; from the removal on every waiting call can return whatever else happens, with the runs left over first and then with InternalChannelAnomaly, never with Expired. A call made after the removal returns Expired at once, even if runs are left over.", "quantifier": "every task, every number of callers, every interleaving of their calls with all other actions", "why_tests_cant": "needs all interleavings of the check of the chain state, the reception and the removal, with any number of callers", "anchors": ["src/timer/runtime_trace/task_instance.rs:TaskInstancesChain::next_with_wait", "src/timer/runtime_trace/task_instance.rs:TaskInstancesChain::next_with_async_wait", "src/timer/runtime_trace/task_instance.rs:TaskInstancesChain::get_timer_event_sender", "src/timer/runtime_trace/task_instance.rs:TaskInstancesChainMaintainer::drop"]}
{"id": "C61", "title": "Ending a run ends exactly that run", "statement": "A registered run is stopped exactly when the first of its end events (cancel request, time-out, its own completion) after its registration is processed, and only once. A cancel request for a run that was obtained from a chain or from the status reports, like a time-out sent by the sweeper and a completion, has stopped the run as soon as the events queued up to then have been processed, which takes the event thread only (as long as that lives, see C64). Processing an end event of a run that goes on stops that run and nothing else: the wheel, the scheduler, all other tasks' marks, all other runs and the states of all other instances stay as they are, and the task's slot is kept. A cancel request processed before the run is registered is lost.", "quantifier": "every reachable state, every run, every interleaving", "why_tests_cant": "concerns all interleavings of registration, completion, cancellation and time-out of any number of runs, and absence of side effects on everything else", "anchors": ["src/timer/event_handle.rs:EventHandle::cancel_task", "src/timer/event_handle.rs:EventHandle::finish_task", "src/timer/runtime_trace/task_handle.rs:TaskTrace::quit_one_task_handler", "src/timer/runtime_trace/task_handle.rs:TaskTrace::insert"]}
{"id": "C62", "title": "A shell pipeline gets through, with the output of its stages one after the other", "statement": "When unblock_process_task_fn runs a pipeline, then however its processes are interleaved the last one writes what it would write if each program were run, on the output of the one before, as far as the next one needs it; and if it would end then, the run comes to its end, also if other programs would go on for ever (yes | head). (Violated: standard error of all processes and the unredirected output of the last one go into pipes nobody reads, so the run hangs for ever once more is written than a pipe takes.)", "quantifier": "every command line, every number and behaviour of programs, every pipe capacity and every interleaving", "why_tests_cant": "depends on the amount of output, the capacity of pipes and the interleaving of any number of processes", "anchors": ["src/utils/parse.rs:parse_and_run", "src/utils/parse.rs:ChildUnify::wait", "src/utils/convenience.rs:unblock_process_task_fn"]}
{"id": "C63", "title": "The scheduler thread ends only by a stop or by what users gave it", "statement": "The thread that moves the wheel never ends unless stop_delay_timer was called, a closure it calls panicked, or, in a build with overflow checks, it started a task that was handed in with a count of zero, a running time limit that cannot be added to the time of the start, or alarms that do not fit 64 bits. As long as none of these is the case, it can always complete any number of further iterations by itself, whatever the users, the event thread, the sweeper and the runs do or fail to do.", "quantifier": "every history of API calls, every interleaving, every task and every number of iterations", "why_tests_cant": "absence of a fatal state over all histories", "anchors": ["src/timer/timer_core.rs:Timer::async_schedule", "src/timer/timer_core.rs:Timer::maintain_task", "src/timer/task.rs:Task::get_maximum_running_time", "src/timer/task.rs:FrequencyInner::down_count"]}
{"id": "C64", "title": "The event thread ends only on a first alarm that overflows", "statement": "The thread that processes requests and events never ends unless, in a build with overflow checks, a task is added whose first alarm (or the second after it) does not fit 64 bits. If such a task is added, neither that request nor any event accepted after it is ever processed.", "quantifier": "every history of API calls, every interleaving, every task", "why_tests_cant": "absence of a fatal state over all histories, and absence of any later effect", "anchors": ["src/timer/event_handle.rs:EventHandle::handle_event", "src/timer/event_handle.rs:EventHandle::add_task", "src/timer/task.rs:FrequencyInner::next_alarm_timestamp"]}
{"id": "C65", "title": "A limit on parallel runs makes no run vanish", "statement": "A task with a limit on parallel runs that is handed in once, with an id nothing else concerns, keeps being attempted at the ticks of its time table until its count is used up; each attempt is a start, or a skip because the limit is reached. It is never dropped silently.", "quantifier": "every schedule with alarms, every positive limit, every interleaving of the threads, every history of the other tasks", "why_tests_cant": "the violation needs the scheduler to act between two adjacent statements of the event thread; its absence otherwise is over all interleavings and unboundedly many ticks", "anchors": ["src/timer/timer_core.rs:Timer::maintain_task", "src/timer/timer_core.rs:Timer::handle_task", "src/timer/event_handle.rs:EventHandle::add_task", "src/timer/event_handle.rs:EventHandle::record_task_mark"]}
{"id": "C66", "title": "Overlong runs are stopped", "statement": "Every registered run of a task with a running time limit has a deadline, start plus limit, that is never lost. Once the sweeper has made, at readings of that deadline or later, one round for every 200 runs started by then, the run has been timed out, and it is stopped as soon as the event thread has worked off what is queued. Sweeper and event thread can bring this about by themselves from every state.", "quantifier": "every limit that can be added to the start time in 64 bits, every number of other runs, every interleaving with the other threads, every clock", "why_tests_cant": "liveness over unboundedly many competing deadlines and all interleavings; the budget of 200 sweeps per round matters only beyond 200 runs", "anchors": ["src/timer/runtime_trace/sweeper.rs:RecyclingBins::recycle", "src/timer/runtime_trace/sweeper.rs:RecyclingBins::add_recycle_unit", "src/timer/event_handle.rs:EventHandle::maintain_task_status", "src/timer/event_handle.rs:EventHandle::cancel_task"]}
{"id": "C67", "title": "Ended runs leave nothing in memory", "statement": "What the timer keeps for its runs is bounded by the runs that are going on: the table of running bodies, the instances kept for notification, and the deadlines for the sweeper each hold at most one entry for every run that has been registered and not ended, and none for ended runs.", "quantifier": "every history of tasks, runs, cancellations and time-outs, every interleaving", "why_tests_cant": "a bound over histories of unbounded length; slow growth is invisible in short runs", "anchors": ["src/timer/runtime_trace/task_handle.rs:TaskTrace::quit_one_task_handler", "src/timer/event_handle.rs:EventHandle::maintain_task_status", "src/timer/event_handle.rs:EventHandle::handle_event", "src/timer/runtime_trace/sweeper.rs:RecyclingBins::add_recycle_unit"]}
{"id": "C68", "title": "Stopping a run stops its body", "statement": "When a run is cancelled or timed out, its body is stopped: a thread that is just executing it may go on to the next place where the body waits, and after that the body does nothing any more. Once the runtime has dropped its future, no completion of the run is reported.", "quantifier": "every body, both runtimes, synchronous and asynchronous functions, every interleaving of bodies, runtime and timer", "why_tests_cant": "whether a body does something after it was stopped depends on where it is and on when the runtime acts on the mark; a test sees single schedules of a single body", "anchors": ["src/timer/runtime_trace/task_handle.rs:DelayTaskHandler::quit", "src/timer/runtime_trace/task_handle.rs:TaskTrace::quit_one_task_handler", "src/timer/task.rs:AsyncFn::spawn_by_tokio", "src/timer/task.rs:AsyncFn::spawn_by_smol", "src/timer/task.rs:SyncFn::spawn_by_tokio", "src/timer/task.rs:SyncFn::spawn_by_smol"]}
{"id": "C69", "title": "A run does exactly what its body does", "statement": "What is seen of a run is at every moment a beginning of what its body does when executed alone: nothing left out, repeated or interchanged, however many runs of the same or other tasks there are. A run that came to its end has done all of it, a run is reported as finished only after that, and does nothing afterwards. A run that is not stopped can come to every end its body can come to, without any other thread having to act.", "quantifier": "every body, both runtimes, synchronous and asynchronous functions, every number of concurrent runs, every interleaving", "why_tests_cant": "refinement over arbitrary bodies and all interleavings of concurrent runs", "anchors": ["src/timer/task.rs:AsyncFn::spawn_by_tokio", "src/timer/task.rs:AsyncFn::spawn_by_smol", "src/timer/task.rs:SyncFn::spawn_by_tokio", "src/timer/task.rs:SyncFn::spawn_by_smol", "src/timer/task.rs:TaskContext::finish_task"]}
{"id": "C70", "title": "Whatever is accepted is processed sooner or later", "statement": "In every unending execution in which the event thread is not held up forever and does not die (C64), every accepted request and every report of a run is processed sooner or later, in the order of acceptance. If from some moment on no call concerns the scheduling of an id, then from some later moment on nothing about it is under way any more.", "quantifier": "every unending execution that is fair to the event thread, whatever the other threads, bodies and callers do", "why_tests_cant": "liveness over unending executions under a fairness assumption; a test observes finite executions", "anchors": ["src/timer/event_handle.rs:EventHandle::lauch", "src/timer/event_handle.rs:EventHandle::handle_event", "src/timer/event_handle.rs:EventHandle::event_dispatch"]}
{"id": "C71", "title": "The wheel turns, due runs come, and stopping stops it", "statement": "In every unending execution in which the scheduler and the event thread are not held up forever and do not end, every tick is reached; a task without parallel limit that was handed in, and whose id no other call concerns, is started at every entry of its time table (up to its count), each at its tick; a repeating one is started again and again. After a call of stop_delay_timer the scheduler thread has ended sooner or later.", "quantifier": "every unending fair execution, every task, whatever the other tasks, bodies and callers do", "why_tests_cant": "liveness over unending executions under a fairness assumption; a test observes finite executions", "anchors": ["src/timer/timer_core.rs:Timer::async_schedule", "src/timer/timer_core.rs:Timer::maintain_task", "src/timer/event_handle.rs:EventHandle::lauch", "src/entity.rs:DelayTimer::stop_delay_timer"]}
{"id": "C72", "title": "An overlong run is stopped sooner or later", "statement": "A run of a task with a running time limit is over sooner or later, by itself or stopped by the timer, even if its body never ends and however many other runs are started, in every unending execution in which nobody is held up forever, the clocks get past its deadline, no deadline overflows, and neither the event thread (C64) nor the scheduler has died of an overflow; also after the timer was stopped.", "quantifier": "every unending fair execution, every run of every task with a limit, any number of other runs", "why_tests_cant": "liveness over unending executions with unboundedly many concurrent runs and a lock shared by two coroutines", "anchors": ["src/timer/runtime_trace/sweeper.rs:RecyclingBins::recycle", "src/timer/runtime_trace/sweeper.rs:RecyclingBins::add_recycle_unit", "src/timer/event_handle.rs:EventHandle::maintain_task_status", "src/timer/timer_core.rs:Timer::maintain_task"]}
{"id": "C73", "title": "A run whose body has ended is over sooner or later", "statement": "A run whose body has come to its end is recorded as over sooner or later: its completion is reported and processed, or it has been stopped before, in every unending execution in which the scheduler, the event thread and the reporting run are not held up forever and the two threads have not died of an overflow; also after the timer was stopped.", "quantifier": "every unending fair execution, every run", "why_tests_cant": "liveness over unending executions under a fairness assumption; the report waits for the scheduler to open a gate", "anchors": ["src/timer/task.rs:TaskContext::finish_task", "src/timer/timer_core.rs:Timer::maintain_task", "src/timer/event_handle.rs:EventHandle::event_dispatch"]}
{"id": "C74", "title": "A cancelled run ends, its handle says so, and the waiting caller returns", "statement": "In every unending execution in which the event thread is not held up forever and does not die (C64): a run for which a cancel request is made after its registration was accepted has ended and been stopped sooner or later. The handle of such a run is not RUNNING any more from some moment on, if its chain is held and the task neither removed nor replaced. A caller of cancel_with_wait that comes to listen before the run is over returns the final state sooner or later.", "quantifier": "every unending execution that is fair to the event thread and the waiting caller, every run, whatever the body, the other tasks and callers do", "why_tests_cant": "liveness over unending executions; the request, the registration, the end of the run and the waiting race with each other", "anchors": ["src/timer/runtime_trace/task_instance.rs:TaskInstance::cancel_with_wait", "src/timer/event_handle.rs:EventHandle::event_dispatch", "src/timer/event_handle.rs:EventHandle::cancel_task"]}
{"id": "C75", "title": "Whoever goes on asking a chain gets every run", "statement": "In every unending execution in which somebody goes on calling next* on a chain that is held and whose task is neither removed nor replaced, every registered run of the task is handed out sooner or later; if moreover the scheduler and the event thread are not held up forever and do not die, every run that has been started and is registered during that time is handed out sooner or later.", "quantifier": "every unending execution that is fair to the two threads and the caller, every chain, every run", "why_tests_cant": "liveness over unending executions with unboundedly many runs", "anchors": ["src/timer/runtime_trace/task_instance.rs:TaskInstancesChain::next_with_wait", "src/timer/event_handle.rs:EventHandle::maintain_task_status"]}
{"id": "C76", "title": "A limit on parallel runs does not hold a repeating task back for good", "statement": "A repeating task with a limit on parallel runs of at least one, handed in once and neither removed nor replaced, all of whose runs end sooner or later, is started again and again without end, in every unending execution in which the scheduler is not held up forever and neither thread dies: whenever all of its runs so far are over, another one is started sooner or later.", "quantifier": "every unending execution that is fair to the scheduler, every repeating task, every limit of at least one, whatever the other tasks and callers do", "why_tests_cant": "liveness over unending executions; the counter of running instances is written by both threads and only wrong for certain interleavings", "anchors": ["src/timer/timer_core.rs:Timer::async_schedule", "src/timer/event_handle.rs:EventHandle::event_dispatch", "src/timer/task.rs:Task::check_arrived"]}
{"id": "C77", "title": "A run is stopped only for a reason", "statement": "A run is told to stop (its future is aborted or cancelled) only if it was cancelled, exceeded its running time limit, or has reported its end, after it was registered. Violated when the event thread ends (C64): its unwinding drops the handles of all registered runs, which aborts them, and every run started after that is aborted as soon as the scheduler fails to register it; runs whose registration was on its way at that moment can never be stopped any more.", "quantifier": "every body, both runtimes, every history and interleaving", "why_tests_cant": "whether a run is ever stopped without a reason is a statement about all interleavings of registration, ending and the death of a thread", "anchors": ["src/timer/runtime_trace/task_handle.rs:DelayTaskHandlerBox::drop", "src/timer/runtime_trace/task_handle.rs:TaskTrace::quit_one_task_handler", "src/timer/timer_core.rs:Timer::send_timer_event", "src/timer/event_handle.rs:EventHandle::add_task"]}
{"id": "C78", "title": "Calls of the API fail only after the event thread has ended", "statement": "Adding, inserting, updating, removing, advancing and cancelling tasks and stopping the timer never return an error unless, in a build with overflow checks, a task was accepted before whose first alarm (or the second after it) does not fit 64 bits; after the first error nothing is processed any more, every later call fails too, and a call that fails changes nothing.", "quantifier": "every history of API calls, every interleaving, every task", "why_tests_cant": "absence of errors over all histories", "anchors": ["src/entity.rs:DelayTimer::seed_timer_event", "src/timer/event_handle.rs:EventHandle::handle_event", "src/timer/runtime_trace/task_instance.rs:TaskInstance::cancel"]}
{"id": "C79", "title": "The timer is a timetable on paper", "statement": "For every task id, in every execution in which the operations on that id (add, insert, update, remove, advance) are each carried out between two ticks and never schedule the id twice, the timer agrees with a sheet of paper on which the same ticks and operations are written down one after the other, together with the runs that a parallel limit made the scheduler leave out: between ticks the bodies started are exactly the runs on the sheet (same routines, same ticks, same order), the wheel holds nothing of the id if the sheet has no line and exactly one copy at the due place if it has one, and the record says what the sheet says. A run is left out only when it is due, and never without a parallel limit; it is not counted as a run, and the task goes on with its next alarm. A task with a limit whose record is gone is struck off. As long as the id is not advanced, the only operation that could schedule it twice is adding it while it is scheduled, and a removal is final. Every sequence of ticks and operations without parallel limits is the history of some execution. In an execution without end whose scheduler is not held up for ever and leaves nothing out, every run on the sheet is started; and once nobody asks anything about the id any more, the starts of all time are exactly the runs of the sheet turned on and on. Every such sheet has such an execution.", "quantifier": "every history of any length, every unending continuation, every number of other tasks, every interleaving of the other threads, every clock", "why_tests_cant": "it is a refinement between two transition systems over unbounded histories", "anchors": ["src/timer/timer_core.rs:Timer::async_schedule", "src/timer/event_handle.rs:EventHandle::add_task", "src/timer/event_handle.rs:EventHandle::update_task", "src/timer/event_handle.rs:EventHandle::remove_task", "src/timer/event_handle.rs:EventHandle::advance_task"]}
{"id": "C80", "title": "A task object counts its runs and its revolutions exactly", "statement": "A task built for n+1 runs, by any number of seconds, minutes, hours or days or by a cron expression, answers true to the first n count-downs and false to the next one; a repeating task always answers true. A valid task with c revolutions of the wheel to go answers false to the next c visits of the second hand and is ready after exactly c of them, not before, and at every visit from then on; a task whose runs are used up is never ready. The same cron expression analysed at two times begins with the same instant if and only if no matching instant lies between the two times, whatever was analysed before. A count of zero is outside of this: the first count-down panics with overflow checks, and makes it 2^64-1 runs without.", "quantifier": "every count, period, unit, expression, number of revolutions, history of earlier analyses and pair of times", "why_tests_cant": "the crate's own tests try the counts 1, 3, 10 and 100, one revolution, and one expression five seconds apart", "anchors": ["src/timer/task.rs:Task::down_count_and_set_vaild", "src/timer/task.rs:Task::check_arrived", "src/timer/task.rs:Task::is_can_running", "src/timer/task.rs:Task::is_already", "src/timer/task.rs:DelayTimerScheduleIteratorOwned::analyze_cron_expression"]}
{"id": "C81", "title": "A removal that misses its task leaves it running for good", "statement": "A removal of a task without parallel limit that is taken by the event thread while the scheduler has the task in its hands, at any point from taking it out of the wheel to putting it back, changes nothing about its schedule. The same holds for a removal that is taken while the task waits in another slot than the recorded one, as it does after an advance. From then on the task is started exactly at the ticks of its time table as long as the scheduler lives, however often it is removed, updated or advanced, unless it is added again; in an unending execution with a turning wheel a repeating task is started again and again. A task with a parallel limit that has been left without a record is never started again.", "quantifier": "every reachable state in which such a removal is taken, every point of the scheduler's handling, every later sequence of calls short of adding the id again, every interleaving", "why_tests_cant": "the window is a few instructions wide, and what follows is unending", "anchors": ["src/timer/event_handle.rs:EventHandle::remove_task", "src/timer/event_handle.rs:EventHandle::update_task", "src/timer/event_handle.rs:EventHandle::advance_task", "src/timer/timer_core.rs:Timer::maintain_task", "src/timer/timer_core.rs:Timer::handle_task"]}
{"id": "C82", "title": "Splitting a dispatch into its memory accesses shows nothing new", "statement": "The event thread handles an event by several accesses to shared memory, most of them under a guard of the table of marks. However these accesses are interleaved with the scheduler, the sweeper, the runs and the callers, and whichever keys of the table share a shard, the history (starts, ends of bodies, reports of dispatches, cancellations, wake-ups, state changes) is one that also arises when every dispatch step is atomic, with the same calls made in the same order. So every property of all histories carries over, in particular the parallel limit. Conversely every atomic execution in which the scheduler does not look at a mark in the middle of an advance is an execution of the split system. Without the guard the parallel limit would not hold.", "quantifier": "every split execution, every assignment of keys to shards, every interleaving", "why_tests_cant": "the windows lie between single instructions of one thread, and that no interleaving shows a difference is a statement about all of them", "anchors": ["src/timer/event_handle.rs:EventHandle::handle_event", "src/timer/event_handle.rs:EventHandle::cancel_task", "src/timer/event_handle.rs:EventHandle::finish_task", "src/timer/event_handle.rs:EventHandle::maintain_task_status", "src/timer/event_handle.rs:EventHandle::update_task", "src/timer/event_handle.rs:EventHandle::advance_task", "src/timer/event_handle.rs:EventHandle::remove_task", "src/timer/timer_core.rs:Timer::handle_task", "src/timer/timer_core.rs:Timer::maintain_task", "src/timer/task.rs:TaskMark"]}
{"id": "C83", "title": "Whoever holds a guard of the table of marks goes on and drops it soon", "statement": "In every execution with the accesses of the event thread taken one by one, a thread that holds a guard of the table of marks is never waiting: the event thread can make its next access, the scheduler can drop its guard. The event thread drops a guard with its fifth access at the latest, whatever the contents of the tables, the state of the chain and the way the dispatch goes, and whatever the other threads do meanwhile.", "quantifier": "every reachable state of the split system, every continuation, every assignment of keys to shards", "why_tests_cant": "that a deadlock cannot happen and that no data make a guard last longer are statements about all executions", "anchors": ["src/timer/event_handle.rs:EventHandle::cancel_task", "src/timer/event_handle.rs:EventHandle::finish_task", "src/timer/event_handle.rs:EventHandle::maintain_task_status", "src/timer/event_handle.rs:EventHandle::advance_task", "src/timer/timer_core.rs:Timer::handle_task", "src/timer/timer_core.rs:Timer::maintain_task"]}
{"id": "C84", "title": "The work of a task gets done, as often as was asked for", "statement": "A task that is to run N times is handed in; it has no parallel limit and no limit on its running time, nobody touches or cancels it, its alarms exist, and its body comes to its end when left to itself, whatever the values it waits for. Then sooner or later exactly N runs of it have been started, each of them has done from beginning to end what the body does, and none does any more; if the body always does the same, every effect has happened exactly N times as often as the body has it. Of a repeating task, any number of runs is completed. In general a run whose body would come to its end does so unless it is stopped before, and it is stopped before only by a cancel call or a limit on the running time.", "quantifier": "every unending execution with bodies in which the event thread, the scheduler and the runtime's execution of each body are not held up for ever and the two threads do not end; every set of bodies, every task of the kind, every N", "why_tests_cant": "the tests of the crate (go_works, tests_countdown) count the effects of one task in one execution after a sleep; this is about all executions, bodies and counts, and about what never happens afterwards", "anchors": ["src/timer/timer_core.rs:Timer::handle_task", "src/timer/timer_core.rs:Timer::async_schedule", "src/timer/task.rs:Routine::spawn_by_tokio", "src/timer/task.rs:Routine::spawn_by_smol", "src/timer/task.rs:Task::down_count_and_set_vaild", "tests/simulation.rs:go_works", "tests/simulation.rs:tests_countdown"]}
{"id": "C85", "title": "Exactly when a removal works", "statement": "A task without parallel limit is handed in once and its removal is called once, at any time after that. Whether the removal works is decided by one thing: whether, at the moment the event thread takes it from the channel, the task waits in the slot that its record in the table of marks names. If it does, even if the scheduler has already found it due and is about to take it out, it is never started again, whatever is called for it short of adding it again. If it does not, as always when the scheduler has it in its hands, all its starts from the first to the last are those of its time table, as if the removal had not been called. In an unending execution the removal is taken at some moment, and a repeating task is then either never started again or started again and again for ever, as this decides.", "quantifier": "every task of the kind, every execution in which its id is otherwise not used, every moment of the removal call, every later sequence of calls short of adding the id again, every interleaving", "why_tests_cant": "the outcome depends on how two threads interleave at one moment, and both outcomes are statements about everything that follows", "anchors": ["src/timer/event_handle.rs:EventHandle::remove_task", "src/timer/timer_core.rs:Timer::handle_task", "src/timer/timer_core.rs:Timer::maintain_task", "src/timer/slot.rs:Slot::remove_task", "src/entity.rs:DelayTimer::remove_task"]}
{"id": "C86", "title": "Exactly what an advance does", "statement": "A task without parallel limit is handed in once and advance_task is called for it once, at any time after that. Its starts follow one time table until the event thread takes the advance from the channel. What follows is decided by two looks. First: does the task then wait in the slot that its record in the table of marks names? If not, as always when the scheduler has it in its hands, the advance changes nothing: its starts follow the time table ever after. If so, even if the scheduler has already found it due and is about to take it out, it is not started until it is put back. Second: where was the hand when the event thread read it? At the last slot of the wheel: the task is never started again. Anywhere else: its next start is at the next visit of the slot behind the hand that was read (so a task that was just due is put off, not brought forward), and after it come the alarms it would have had after the run that was replaced, with what is left of its count. In an unending execution the advance is taken and the task is put back at some moment, and a repeating task is then either never started again or started again and again for ever.", "quantifier": "every task of the kind, every execution in which its id is otherwise not used, every moment of the advance call, every position of the hand, every interleaving of the event thread and the scheduler during the advance", "why_tests_cant": "the outcome depends on the interleaving of two threads at two moments and on the position of the hand once an hour, and every outcome is a statement about everything that follows", "anchors": ["src/timer/event_handle.rs:EventHandle::advance_task", "src/timer/timer_core.rs:Timer::handle_task", "src/timer/slot.rs:Slot::remove_task", "src/timer/slot.rs:Slot::add_task", "src/entity.rs:DelayTimer::advance_task"]}
{"id": "C87", "title": "Exactly what an update in place does", "statement": "A task without parallel limit is handed in once and update_task is called once for its id, at any time after that. Its starts follow one time table until the event thread takes the update from the channel. If the task then waits in the slot that its record in the table of marks names, even if the scheduler has already found it due and is about to take it out, the old body is never started again; the new one is first started in this very tick if the scheduler has already listed it, otherwise at the next visit of that slot, which is when the old one would have been started or a number of whole revolutions earlier; after it come the alarms of the new task, as often as its own count says. If the old task is over, so that nothing of it is scheduled any more, its record is still there, and the update brings the id back to life: the new body is first started at the next visit of the slot that the record names. In an unending execution the update is taken at some moment, and in both cases a repeating new task is then started again and again for ever, and nothing else under this id.", "quantifier": "every old and new task of the kind, every execution in which the id is otherwise not used, every moment of the update call, every state of the scheduler in which the old task waits or is over", "why_tests_cant": "the outcome depends on where the scheduler is at the moment the event thread takes the update, and is a statement about everything that follows", "anchors": ["src/timer/event_handle.rs:EventHandle::update_task", "src/timer/slot.rs:Slot::update_task", "src/timer/timer_core.rs:Timer::handle_task", "src/entity.rs:DelayTimer::update_task"]}
{"id": "C88", "title": "At most two slots of a parallel limit can be lost, ever", "statement": "Each run of a task with a parallel limit takes a slot until it has ended, and a run that is due while all slots are taken is skipped. Slots can be lost: the end of a run that is processed before the run is counted does not free its slot, nor does the end of a run whose instance chain was dropped. But each of these happens at most once as long as the limit is held back: whenever a run of a task is skipped, and every task handed in under the id has a limit of at least m (or none), at least m - 2 runs of it are going on; at least m - 1 if no instance chain of it was dropped, in particular if it was never inserted, only added. So a limit of three or more never holds a task back for good: in every unending execution in which the scheduler is not held up and every run ends sooner or later, a repeating task with such a limit is started again and again without end. A limit of two is not enough: both slots can be lost, and then the task is never started again.", "quantifier": "every limit, every execution with any calls for the id at any time (for the skips); every task handed in once and every unending fair execution (for the starts)", "why_tests_cant": "the loss depends on how the threads interleave, and that it does not add up over time is a statement about all executions of any length", "anchors": ["src/timer/timer_core.rs:Timer::handle_task", "src/timer/task.rs:TaskMark::inc_parallel_runnable_num", "src/timer/event_handle.rs:EventHandle::maintain_task_status", "src/timer/event_handle.rs:EventHandle::handle_event"]}
{"id": "C89", "title": "Tasks do not get in each other's way", "statement": "Take any execution of a timer and any set of task ids. Leave out everything that has to do with the other ids: their calls and events, their runs and the bookkeeping for them. What remains is an execution of a timer that was only ever used for the ids in the set: the calls for them are the same in the same order, there is no call for others, and everything that can be seen of these ids is the same in the same order, namely starts with their record ids, routines, iterations and clock readings, skipped runs, ends of bodies, results of the calls, what instance chains deliver, states of instances, time-outs and public events. So a property of all histories of these tasks needs to be checked on a timer without other tasks only. This holds when not both the ids in the set and the others are inserted (else instance chains are numbered differently; when the chains are the others', they are left out too), and when not both the ids in the set and the others have running time limits (the sweeper they share handles 200 deadlines per round).", "quantifier": "every set of ids, every execution, every number of other tasks and calls for them, every interleaving", "why_tests_cant": "a test sees the tasks it sets up; the claim compares every execution with another one, for every set of other tasks", "anchors": ["src/timer/timer_core.rs:Timer::async_schedule", "src/timer/timer_core.rs:Timer::handle_task", "src/timer/event_handle.rs:EventHandle::handle_event", "src/entity.rs:SharedHeader"]}
{"id": "C90", "title": "Tasks do not hold each other up", "statement": "Take any unending execution of a timer in which nobody is held up forever (the event thread, the scheduler, the sweeper, runs that could report their end) and the two threads do not end, and any set of task ids. Leave out everything that has to do with the other ids. What remains is an unending execution of a timer that was only ever used for the ids in the set, in which again nobody is held up forever and the two threads do not end. At every moment the calls for these ids are the same, there is never a call for others, and everything that can be seen of these ids is the same. So whatever comes to pass in the end for some tasks on every timer without other tasks, such as that runs are started, removals take effect and ends are reported, also comes to pass on a timer that is used for others as well. The conditions are those of C89: not both the ids in the set and the others are inserted, and not both have running time limits.", "quantifier": "every set of ids, every fair unending execution, every number of other tasks and calls for them, at every moment", "why_tests_cant": "that something comes to pass in the end, for every set of other tasks and every order of events, cannot be seen in finitely many finite executions", "anchors": ["src/timer/timer_core.rs:Timer::async_schedule", "src/timer/timer_core.rs:Timer::lapse", "src/timer/event_handle.rs:EventHandle::handle_event", "src/timer/runtime_trace/sweeper.rs:RecyclingBins::recycle", "src/entity.rs:SharedHeader"]}
{"id": "C91", "title": "Between its rounds the sweeper sleeps", "statement": "Running time limits are enforced by a sweeper that works in rounds. After it has dealt with the deadline of some run at a time n, it deals with no further deadline before any time e of at most n + 3 seconds, if no run that was started before and has not been dealt with has its deadline before e. So when it has dealt with the deadlines of all runs started so far, it deals with none for three seconds, and a run that is started in the meantime is stopped for its limit no earlier, however short the limit is. A deadline of another task wakes it earlier: there is an execution in which a run is stopped in time only because another task has a deadline then, so that what is seen of the one task is not the history of any timer without the other. (Hence the condition of C89 and C90 that not both the ids in the set and the others have running time limits.)", "quantifier": "every execution, every pair of handled deadlines, every time e", "why_tests_cant": "a lower bound on times over all interleavings of runs, rounds and registrations, and the absence of any execution with a given history", "anchors": ["src/timer/runtime_trace/sweeper.rs:RecyclingBins::recycle", "src/timer/runtime_trace/sweeper.rs:RecyclingBins::yield_for_while", "src/timer/runtime_trace/sweeper.rs:RecyclingBins::add_recycle_unit"]}
{"id": "C92", "title": "The sweeper oversleeps by no more than the running time limits differ", "statement": "If the running time limits of all tasks that have one lie between lo and hi, and the clock neither goes back nor overflows, then deadlines get to the sweeper in order up to hi - lo, and it never sleeps past one by more than that: while a deadline has been registered and not yet dealt with, the sweeper gets up by hi - lo after that deadline or three seconds after its last round, whichever is later. With one limit for all it gets up by the deadline itself. So for every registered run of a task with a limit: its deadline has been dealt with, or the sweeper is in a round, or it can start a round at any time from hi - lo after the deadline on that is three seconds after its last round. And if the sweeper gets up no more than e late, every deadline it deals with in that round is dealt with no more than e after the later of hi - lo past the deadline and three seconds past the beginning of the round before. (The bound is exact: there is an execution with limits 1 and 1000 that oversleeps by 999 seconds. C32 is what this means for the promise of promptness; that the three seconds are needed is shown by C91.)", "quantifier": "every execution, every number of tasks, all limits between lo and hi, every registered run", "why_tests_cant": "the order of deadlines in the channels and the heap is an invariant of all interleavings of starts, registrations and rounds", "anchors": ["src/timer/runtime_trace/sweeper.rs:RecyclingBins::recycle", "src/timer/runtime_trace/sweeper.rs:RecyclingBins::yield_for_while", "src/timer/event_handle.rs:EventHandle::maintain_task_status", "src/timer/timer_core.rs:Timer::handle_task"]}
{"id": "C93", "title": "With a limit on parallel runs a removal is certain", "statement": "If every task handed in under an id has a limit on its parallel runs, then a removal of that id takes effect for good, also when it misses the task because the scheduler has it in its hands or it waits in another slot than the recorded one. From the moment on at which the event thread has worked off the removal, and as long as no task is added under the id again, the task is not started any more, whatever updates, advances, cancellations and further removals follow; at most one run that the scheduler has already let pass is still started, in the same tick. In an unending execution in which the event thread is not held up forever there is therefore a last start. If in addition the wheel turns, then from some moment on nothing is left of the task: no mark, no copy in the wheel, none in the hands of the scheduler. (C81 shows that without a limit such a removal has no effect.)", "quantifier": "every execution, every point at which the removal is called and worked off, every later sequence of calls short of adding the id again, every interleaving", "why_tests_cant": "the window in which a removal misses is a few instructions wide, and the claim is about all that follows", "anchors": ["src/timer/event_handle.rs:EventHandle::remove_task", "src/timer/event_handle.rs:EventHandle::event_dispatch", "src/timer/timer_core.rs:Timer::maintain_task", "src/timer/timer_core.rs:Timer::handle_task"]}
{"id": "C94", "title": "A task is on record from its addition to its removal", "statement": "At every moment there is an entry for an id in the table of marks exactly if, of its successful additions and its removals worked off so far, the last was an addition. Nothing else makes an entry or takes one out: not an update, an advance or a cancellation, and not the end of the task by its count or its time table. So a record is kept until a removal is called, and in an unending execution in which a task that has a first alarm is handed in and no removal of its id is called afterwards there is a record of it from some moment on, for ever, however long ago the task has come to its end. The table is thus not bounded by the number of tasks that are still to run: for every N there is an execution after which no task is scheduled anywhere and N tasks are on record. (C50 shows what that means for whoever waits for the next run; C93 is what follows a removal.)", "quantifier": "every execution, every moment, every id, every sequence of calls, every interleaving", "why_tests_cant": "the claim excludes any other way in or out of the table in all interleavings of calls, starts, ends and sweeps, and that the record is never given up is a statement about unending executions", "anchors": ["src/timer/event_handle.rs:EventHandle::record_task_mark", "src/timer/event_handle.rs:EventHandle::event_dispatch", "src/timer/event_handle.rs:EventHandle::cancel_task", "src/timer/event_handle.rs:EventHandle::finish_task", "src/timer/timer_core.rs:Timer::handle_task"]}
