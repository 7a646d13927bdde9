{
 "claims": [
  {
   "property": "C01",
   "status": "partial",
   "theorems": [
    "DelayTimer.C01_seconds_progression_partial",
    "DelayTimer.C01_u64",
    "DelayTimer.C01_fails",
    "DelayTimer.C01_zero_rejected"
   ],
   "note": "Proved for every index as long as the alarm is below u64::MAX (C01_u64 is the exact 64-bit law). Beyond that the alarm wraps around in release builds (C01_fails) and panics in debug builds."
  },
  {
   "property": "C02",
   "status": "proved",
   "theorems": [
    "DelayTimer.C02_units",
    "DelayTimer.C02_zero_rejected",
    "DelayTimer.C02_overflow"
   ],
   "note": ""
  },
  {
   "property": "C03",
   "status": "partial",
   "theorems": [
    "DelayTimer.C03_timestamp_law",
    "DelayTimer.C03_timestamp_partial",
    "DelayTimer.C03_now_rejected",
    "DelayTimer.C03_late_build"
   ],
   "note": "Proved when the task is built at the second the frequency was set; a build d seconds later makes the alarm d seconds late (C03_late_build), and the current second is rejected (C03_now_rejected)."
  },
  {
   "property": "C04",
   "status": "partial",
   "theorems": [
    "DelayTimer.C04_total_partial",
    "DelayTimer.C04_partial",
    "DelayTimer.C04_violated",
    "DelayTimer.C04_zero_panics"
   ],
   "note": "Proved for every history when the count is at least one, even when the id is handed in several times (the sum of the counts bounds the starts). A count of zero, which the builder accepts, wraps around in release builds (C04_violated) and kills the scheduler thread in debug builds: it is started at most once, and no tick comes after that (C04_zero_panics)."
  },
  {
   "property": "C05",
   "status": "proved",
   "theorems": [
    "DelayTimer.C05_any_gap",
    "DelayTimer.C05_first_start",
    "DelayTimer.C05_handed_in",
    "DelayTimer.C05_clock"
   ],
   "note": "Includes the corner case d mod 3600 = 3599 while the slot of the tick has not been looked at; C05_any_gap covers alarms already over and reads of the hand that are out of date."
  },
  {
   "property": "C06",
   "status": "partial",
   "theorems": [
    "DelayTimer.C06_partial",
    "DelayTimer.C06_violated",
    "DelayTimer.C06_negation",
    "DelayTimer.C06_clock_partial"
   ],
   "note": "Holds when the slot number does not wrap around; refuted at every wrapping hand position and gap."
  },
  {
   "property": "C07",
   "status": "proved",
   "theorems": [
    "DelayTimer.C07_next_attempt",
    "DelayTimer.C07_all_attempts"
   ],
   "note": ""
  },
  {
   "property": "C08",
   "status": "partial",
   "theorems": [
    "DelayTimer.C08_partial",
    "DelayTimer.C08_from_first_partial",
    "DelayTimer.C08_violated"
   ],
   "note": "Exact from the second start on, and from the first when the task is added within an iteration, as long as the clock is below 2^63; refuted for an add between two iterations."
  },
  {
   "property": "C09",
   "status": "partial",
   "theorems": [
    "DelayTimer.C09_rearmed",
    "DelayTimer.C09_first_partial",
    "DelayTimer.C09_time_read",
    "DelayTimer.C09_violated",
    "DelayTimer.C09_clock_partial"
   ],
   "note": "Re-armed starts: proved. First starts: proved when no tick passes during add_task, refuted otherwise."
  },
  {
   "property": "C10",
   "status": "proved",
   "theorems": [
    "DelayTimer.C10_catch_up",
    "DelayTimer.C10_caught_up",
    "DelayTimer.C10_never_caught_up"
   ],
   "note": "Clock and first alarms below 2^63, the alarms being 64-bit numbers."
  },
  {
   "property": "C11",
   "status": "partial",
   "theorems": [
    "DelayTimer.C11_partial",
    "DelayTimer.C11_added_partial",
    "DelayTimer.C11_violated",
    "DelayTimer.C11_fails_limit",
    "DelayTimer.C11_fails_alarm"
   ],
   "note": "Proved except for a panic on the scheduler thread, which is refuted three times: a panic of another task's closure, and (with overflow checks) a running time limit of another task that overflows when added to the clock, and a next alarm of another task that overflows."
  },
  {
   "property": "C12",
   "status": "partial",
   "theorems": [
    "DelayTimer.C12_partial",
    "DelayTimer.C12_plain_partial",
    "DelayTimer.gone_of_remove",
    "DelayTimer.Ex.C12_fails_in_hand",
    "DelayTimer.Ex.C12_fails_advanced",
    "DelayTimer.Ex.C12_fails_twice"
   ],
   "note": "Proved for every removal taken while the scheduler is not handling the id and the recorded place is right (and for whole histories of plain use). The full property is false in the code; three witnesses: removal during the run, after an advance, after a double add. What happens then is C81."
  },
  {
   "property": "C13",
   "status": "proved",
   "theorems": [
    "DelayTimer.C13_never_added",
    "DelayTimer.C13_update",
    "DelayTimer.C13_advance",
    "DelayTimer.C13_remove",
    "DelayTimer.C13_cancel"
   ],
   "note": "For every state and every unknown id or record; the only trace is the log entry that the event was handled."
  },
  {
   "property": "C14",
   "status": "partial",
   "theorems": [
    "DelayTimer.C14_any",
    "DelayTimer.C14_partial",
    "DelayTimer.C14_lost",
    "DelayTimer.C14_loss_happens",
    "DelayTimer.Ex.C14_fails_late",
    "DelayTimer.Ex.C14_fails_stale"
   ],
   "note": "Proved for every remaining delay and every hand position but the last, if the hand does not move while the event thread is at it and the recorded place is right. False otherwise: at hand position 3599 the task is always lost (general theorem, reachable in every environment); a moving hand delays it by up to a revolution; a wrong record makes the advance fail."
  },
  {
   "property": "C15",
   "status": "partial",
   "theorems": [
    "DelayTimer.C15_same_task",
    "DelayTimer.C15_left_alone",
    "DelayTimer.C15_partial",
    "DelayTimer.C15_later_runs",
    "DelayTimer.C15_limited",
    "DelayTimer.C15_limited_alone"
   ],
   "note": "The task put back is the task taken out; its time table has the same alarms and count-down, only the first entry differs, and with a steady clock all later entries agree. Tasks with both a parallel limit and a count-down are covered by C15_limited and C15_limited_alone: same time table, and only actual starts use up the count-down. Partial because an advance at hand position 3599 loses the task (C14_lost)."
  },
  {
   "property": "C16",
   "status": "partial",
   "theorems": [
    "DelayTimer.C16_old_body_partial",
    "DelayTimer.C16_schedule_partial",
    "DelayTimer.Ex.C16_fails_frequency",
    "DelayTimer.Ex.C16_fails_in_hand"
   ],
   "note": "The old body is never started again if the update is taken while the scheduler is not running the task and the record is right; the new one is first started when the old one would have been (exact time table). The rest of the property is false in the code; two witnesses."
  },
  {
   "property": "C17",
   "status": "proved",
   "theorems": [
    "DelayTimer.C17_halted",
    "DelayTimer.C17_last_tick",
    "DelayTimer.C17_unaffected",
    "DelayTimer.C17_completes"
   ],
   "note": "Halting is absorbing and blocks every start; every step of the other threads is the same next to a halted scheduler; runs that ended can still report and be processed, unless the event thread itself was ended by an overflowing first alarm (C64)."
  },
  {
   "property": "C18",
   "status": "partial",
   "theorems": [
    "DelayTimer.C18_once_partial",
    "DelayTimer.C18_record_partial",
    "DelayTimer.Ex.C18_fails_twice",
    "DelayTimer.Ex.C18_fails_advanced",
    "DelayTimer.Ex.C18_fails_encounter"
   ],
   "note": "Proved for ids added only while unscheduled and never updated or advanced, if the threads do not meet on the id. The full property is false in the code; three witnesses."
  },
  {
   "property": "C19",
   "status": "proved",
   "theorems": [
    "DelayTimer.C19_once",
    "DelayTimer.C19_final"
   ],
   "note": "State cell written at most once, from RUNNING to one of the three final states; final in all continuations."
  },
  {
   "property": "C20",
   "status": "partial",
   "theorems": [
    "DelayTimer.C20_partial",
    "DelayTimer.C20_completed_partial",
    "DelayTimer.Ex.C20_fails_panic"
   ],
   "note": "CANCELLED and TIMEOUT tell the truth always; COMPLETED means the body returned on smol and for asynchronous bodies. A synchronous body that panics on tokio is reported COMPLETED (C20_fails_panic). TIMEOUT tells the truth for limits that can be added to the clock in 64 bits (see C30)."
  },
  {
   "property": "C21",
   "status": "proved",
   "theorems": [
    "DelayTimer.C21_order",
    "DelayTimer.C21_complete",
    "DelayTimer.C21_running",
    "DelayTimer.C21_cells"
   ],
   "note": "Order and uniqueness; completeness w.r.t. registered runs while the chain is held; fresh RUNNING cell."
  },
  {
   "property": "C22",
   "status": "proved",
   "theorems": [
    "DelayTimer.C22_refused",
    "DelayTimer.C22_sent"
   ],
   "note": "Refused in every continuation once the state is final; sent while RUNNING."
  },
  {
   "property": "C23",
   "status": "partial",
   "theorems": [
    "DelayTimer.C23_woken_partial",
    "DelayTimer.C23_returns_partial",
    "DelayTimer.C23_stuck",
    "DelayTimer.Ex.C23_fails"
   ],
   "note": "Violated by the code: the request is sent before the listener is registered, so an end in between is a lost wake-up (Ex.C23_fails with C23_stuck: never returns). Proved from listen on."
  },
  {
   "property": "C24",
   "status": "partial",
   "theorems": [
    "DelayTimer.C24_reported_partial",
    "DelayTimer.C24_stuck",
    "DelayTimer.Ex.C24_fails_removed",
    "DelayTimer.Ex.C24_fails_dropped"
   ],
   "note": "Violated by the code for runs that end after the task was removed/replaced or the chain dropped (both refuted by witnesses, stuck for ever). Proved while the chain is held and belongs to the registration."
  },
  {
   "property": "C25",
   "status": "proved",
   "theorems": [
    "DelayTimer.C25_expires",
    "DelayTimer.C25_forever"
   ],
   "note": "Expired iff the insertion was processed and the chain is not the task's current one; for ever."
  },
  {
   "property": "C26",
   "status": "proved",
   "theorems": [
    "DelayTimer.C26_order",
    "DelayTimer.C26_registered"
   ],
   "note": "In every history the registration is queued before the completion; when a completion is received its run is in the books or was already ended."
  },
  {
   "property": "C27",
   "status": "partial",
   "theorems": [
    "DelayTimer.C27_partial",
    "DelayTimer.C27_once_partial",
    "DelayTimer.C27_fails_readd",
    "DelayTimer.C27_fails_last_run"
   ],
   "note": "For an id handed in once the limit holds in every reachable state (C27_once_partial), however runs end and whatever other operations are made. For reused ids it holds if the id is handed in afresh (C27_partial). The full statement is refuted: re-adding an id while it runs resets its count, and the last run of a count-down is never counted."
  },
  {
   "property": "C28",
   "status": "partial",
   "theorems": [
    "DelayTimer.C28_partial",
    "DelayTimer.C28_released_partial",
    "DelayTimer.C28_once_partial",
    "DelayTimer.C28_fails_quick",
    "DelayTimer.C28_fails_dropped"
   ],
   "note": "Proved when no run ends between its start and the scheduler counting it, the chain is not dropped, and the id is recorded only while it rests. Both excluded races are refuted by concrete executions."
  },
  {
   "property": "C29",
   "status": "proved",
   "theorems": [
    "DelayTimer.C29",
    "DelayTimer.C29_later"
   ],
   "note": "C29: in every reachable state, with arbitrary interleaving of the other threads. C29_later: from the skip on the task follows its time table from the next alarm on and only actual starts use up its count-down."
  },
  {
   "property": "C30",
   "status": "partial",
   "theorems": [
    "DelayTimer.C30_due_partial",
    "DelayTimer.C30_moment_partial",
    "DelayTimer.C30_none",
    "DelayTimer.Ex.C30_fails"
   ],
   "note": "Proved for limits whose sum with the start time fits in 64 bits. Without overflow checks a larger limit (u64::MAX, say) wraps around and the run is timed out at once (C30_fails); with overflow checks the scheduler thread panics (C11_fails_limit)."
  },
  {
   "property": "C31",
   "status": "proved",
   "theorems": [
    "DelayTimer.C31_once",
    "DelayTimer.C31_one_event",
    "DelayTimer.C31_round",
    "DelayTimer.C31_ends"
   ],
   "note": "Heap ties broken arbitrarily."
  },
  {
   "property": "C32",
   "status": "partial",
   "theorems": [
    "DelayTimer.C32_known_partial",
    "DelayTimer.C32_short_partial",
    "DelayTimer.C32_round_partial",
    "DelayTimer.Ex.C32_fails",
    "DelayTimer.Ex.C32_unbounded"
   ],
   "note": "Violated by the code: a deadline registered while the sweeper sleeps until a later deadline is not noticed until that later one (Ex.C32_fails), and so by any margin (Ex.C32_unbounded). Proved: deadlines known when the sweeper falls asleep are noticed in time, also all deadlines after a round that emptied the heap or used up its budget."
  },
  {
   "property": "C33",
   "status": "proved",
   "theorems": [
    "DelayTimer.C33_inert",
    "DelayTimer.C33_forever"
   ],
   "note": "The whole state except channel and ghost log is unchanged."
  },
  {
   "property": "C34",
   "status": "proved",
   "theorems": [
    "DelayTimer.C34_story",
    "DelayTimer.C34_timeout"
   ],
   "note": "For one timer with status reporting on. The public channel is a process-wide static in the code; one timer per process is modelled."
  },
  {
   "property": "C35",
   "status": "proved",
   "theorems": [
    "DelayTimer.C35_cache_transparent"
   ],
   "note": ""
  },
  {
   "property": "C36",
   "status": "proved",
   "theorems": [
    "DelayTimer.C36_cache_bounded",
    "DelayTimer.C36_failed_parse"
   ],
   "note": ""
  },
  {
   "property": "C37",
   "status": "partial",
   "theorems": [
    "DelayTimer.C37_same_result_partial",
    "DelayTimer.C37_same_runs_partial",
    "DelayTimer.Ex.C37_unsorted_differs"
   ],
   "note": "Proved for all executions in which the ids returned by the id generator increase. The generator may return a smaller id (wall clock set back, update_id_generator_conf); C37_unsorted_differs is a reachable state in which the nightly version does not find a running instance that the stable version stops."
  },
  {
   "property": "C38",
   "status": "proved",
   "theorems": [
    "DelayTimer.C38_pipeline_faithful"
   ],
   "note": ""
  },
  {
   "property": "C39",
   "status": "partial",
   "theorems": [
    "DelayTimer.C39_redirect_partial",
    "DelayTimer.C39_pipeline",
    "DelayTimer.C39_mixed_operators",
    "DelayTimer.C39_missing_name",
    "DelayTimer.C39_glued_operators"
   ],
   "note": "Proved for stages whose operators are neither mixed nor (in the split_inclusive variant) glued together and that name a file; the missing cases are refuted."
  },
  {
   "property": "C40",
   "status": "proved",
   "theorems": [
    "DelayTimer.C40_no_process_left",
    "DelayTimer.C40_kills_last"
   ],
   "note": ""
  },
  {
   "property": "C41",
   "status": "partial",
   "theorems": [
    "DelayTimer.C41_append",
    "DelayTimer.C41_write_iff",
    "DelayTimer.C41_write_partial",
    "DelayTimer.C41_stale_tail",
    "DelayTimer.C41_negation"
   ],
   "note": "'>' does not truncate: exact characterisation and counterexample."
  },
  {
   "property": "C42",
   "status": "partial",
   "theorems": [
    "DelayTimer.C42_smol_law",
    "DelayTimer.C42_smol_partial",
    "DelayTimer.C42_smol_wrong",
    "DelayTimer.C42_smol_128_success",
    "DelayTimer.C42_smol_killed",
    "DelayTimer.C42_smol_false_signal"
   ],
   "note": "Proved for successful exits and deaths by signal. Every non-zero exit code is misreported (C42_smol_wrong): the code is passed on where a wait status is expected, so that it is lost (C42_smol_law), and 128 is reported as success. The signal of a killed child is lost (C42_smol_killed) and most failing exits are reported as deaths by a signal (C42_smol_false_signal)."
  },
  {
   "property": "C43",
   "status": "partial",
   "theorems": [
    "DelayTimer.C43_free_partial",
    "DelayTimer.C43_exact",
    "DelayTimer.C43_double_free",
    "DelayTimer.C43_copy_double_free",
    "DelayTimer.C43_foreign_free",
    "DelayTimer.C43_dangling"
   ],
   "note": "False in full: double free, free of two copies, free of a foreign string and use after free are exhibited. Proved instead: every sequence of calls that follows an ownership discipline (each string has one owning variable, only the owner is freed, no spawn from a builder that lost its string) is safe, over any number of builders and copies; without spawns the discipline is exact (safe if and only if it is followed)."
  },
  {
   "property": "C44",
   "status": "proved",
   "theorems": [
    "DelayTimer.Locks.C44_no_deadlock",
    "DelayTimer.Locks.C44_order",
    "DelayTimer.Locks.C44_progress"
   ],
   "note": "Model of the lock requests of every function, any number of threads, any assignment of keys to shards; a request counts as blocked by any holder of the lock, whatever the modes. Locks inside channel and listener libraries are outside the model."
  },
  {
   "property": "C45",
   "status": "partial",
   "theorems": [
    "DelayTimer.C45_partial",
    "DelayTimer.C45_returns_partial",
    "DelayTimer.C45_unreported",
    "DelayTimer.C45_never_ends",
    "DelayTimer.C45_blocks",
    "DelayTimer.C45_fails_async",
    "DelayTimer.C45_fails_smol"
   ],
   "note": "Holds for synchronous bodies on tokio. Fails for asynchronous bodies and for smol: the completion is never reported, the run goes on for ever in the books (unless cancelled or timed out), and with m such runs a task with limit m never starts again. Release of the slot by an ended run is C28."
  },
  {
   "property": "C46",
   "status": "proved",
   "theorems": [
    "DelayTimer.C46_slot_found",
    "DelayTimer.C46_hand_moves",
    "DelayTimer.C46_hand_distance",
    "DelayTimer.C46_no_spin",
    "DelayTimer.C46_goes_on"
   ],
   "note": ""
  },
  {
   "property": "C47",
   "status": "proved",
   "theorems": [
    "DelayTimer.C47_smol",
    "DelayTimer.C47_tokio",
    "DelayTimer.C47_never_before_due",
    "DelayTimer.C47_burst"
   ],
   "note": ""
  },
  {
   "property": "C48",
   "status": "proved",
   "theorems": [
    "DelayTimer.C48_candy",
    "DelayTimer.C48_cron_runs",
    "DelayTimer.C48_candies_distinct",
    "DelayTimer.C48_alarms"
   ],
   "note": ""
  },
  {
   "property": "C49",
   "status": "partial",
   "theorems": [
    "DelayTimer.C49_smol_partial",
    "DelayTimer.C49_std_tokio_diverge"
   ],
   "note": "Proved for smol children. For std and tokio children wait calls itself for ever; proved divergent."
  },
  {
   "property": "C50",
   "status": "partial",
   "theorems": [
    "DelayTimer.C50_partial",
    "DelayTimer.C50_record_kept",
    "DelayTimer.C50_never_expires",
    "DelayTimer.C50_blocks",
    "DelayTimer.C50_fails"
   ],
   "note": "The copies and the run books are given up after the last run (C50_partial). The record and the chain are not: C50_fails refutes the statement, and C50_record_kept, C50_never_expires and C50_blocks prove that in every such execution the record stays and next* blocks until an operation on the task is called."
  },
  {
   "property": "C51",
   "status": "partial",
   "theorems": [
    "DelayTimer.C51_order",
    "DelayTimer.C51_drains_partial",
    "DelayTimer.C51_fails_alarm"
   ],
   "note": "Order and at-most-once hold without condition. That the event thread gets through everything holds unless, with overflow checks, a task is added whose first alarm overflows; refuted in that case."
  },
  {
   "property": "C52",
   "status": "proved",
   "theorems": [
    "DelayTimer.C52_origin"
   ],
   "note": ""
  },
  {
   "property": "C53",
   "status": "proved",
   "theorems": [
    "DelayTimer.C53_cron_alarms",
    "DelayTimer.C53_bad_rejected"
   ],
   "note": "The evaluation of one expression (the next matching instant after a given one) is cron_clock's and is an assumption of the theorem (Iterates)."
  },
  {
   "property": "C54",
   "status": "partial",
   "theorems": [
    "DelayTimer.C54_dropped_partial",
    "DelayTimer.C54_last_survives"
   ],
   "note": "All but the last process of a pipeline are killed. Violated for the last one: once the whole pipeline is started, ChildGuard::wait has taken the last child out of its guard, so dropping the run leaves it running."
  },
  {
   "property": "C55",
   "status": "proved",
   "theorems": [
    "DelayTimer.C55_ended",
    "DelayTimer.C55_tokio_never"
   ],
   "note": "Runs over std or tokio processes never end by themselves (C49), as C55_tokio_never states."
  },
  {
   "property": "C56",
   "status": "partial",
   "theorems": [
    "DelayTimer.C56_delivery",
    "DelayTimer.C56_alone_partial",
    "DelayTimer.C56_stolen",
    "DelayTimer.C56_mixed"
   ],
   "note": "Each event is handed out exactly once and in order. Violated with two reporting timers in a process: the channel is one static, so each timer's consumers also get (and take away) the events of the other."
  },
  {
   "property": "C57",
   "status": "proved",
   "theorems": [
    "DelayTimer.C57_build",
    "DelayTimer.C57_apart"
   ],
   "note": ""
  },
  {
   "property": "C58",
   "status": "proved",
   "theorems": [
    "DelayTimer.C58_setters",
    "DelayTimer.C58_panics"
   ],
   "note": ""
  },
  {
   "property": "C59",
   "status": "proved",
   "theorems": [
    "DelayTimer.C59_keeps_running",
    "DelayTimer.C59_exactly",
    "DelayTimer.C59_reached"
   ],
   "note": "For every execution after the processed request, whatever the other tasks, threads and callers do, as long as the scheduler thread was not killed by a panic. Such executions exist (C59_reached) unless, with overflow checks, a task around overflows within that time. Tasks with a parallel limit are C65."
  },
  {
   "property": "C60",
   "status": "proved",
   "theorems": [
    "DelayTimer.C60_order",
    "DelayTimer.C60_result",
    "DelayTimer.C60_goes_on",
    "DelayTimer.C60_released",
    "DelayTimer.C60_late"
   ],
   "note": "Calls split into the check of the chain state and the reception, any number of callers. That the channel library wakes a call that can go on is assumed."
  },
  {
   "property": "C61",
   "status": "proved",
   "theorems": [
    "DelayTimer.C61_first_end",
    "DelayTimer.C61_cancel",
    "DelayTimer.C61_timeout",
    "DelayTimer.C61_finish",
    "DelayTimer.C61_known",
    "DelayTimer.C61_exact",
    "DelayTimer.C61_drains",
    "DelayTimer.Ex.C61_early_lost"
   ],
   "note": "Stopped means that the handle of the run is quit and its books are closed; a synchronous body that is already executing on a worker goes on (DESIGN.md). The parallel count goes down by one, except that a completion on an abandoned chain may leave it (C28)."
  },
  {
   "property": "C62",
   "status": "partial",
   "theorems": [
    "DelayTimer.C62_output",
    "DelayTimer.C62_completes_partial",
    "DelayTimer.C62_exactly",
    "DelayTimer.C62_command",
    "DelayTimer.C62_redirected",
    "DelayTimer.C62_blocked_output",
    "DelayTimer.C62_blocked_errors",
    "DelayTimer.Ex.C62_hangs",
    "DelayTimer.C62_needed_output",
    "DelayTimer.C62_needed_ends",
    "DelayTimer.C62_iff",
    "DelayTimer.C62_always"
   ],
   "note": "The output is as it should be in every execution (C62_output, C62_needed_output). Whether the run ends is settled exactly for arbitrary programs: it can end if and only if what is needed of the standard errors and of the unredirected output fits into the pipes (C62_iff), it then ends in every execution in which all processes get their turns (C62_needed_ends), and if it ends in one it ends in all, with the same output (C62_always). Missing: it does not end otherwise, C62_blocked_output, C62_blocked_errors and Ex.C62_hangs. C62_exactly and C62_command are the special case of programs that read all of their input. The tokio variant never ends anyway (C49)."
  },
  {
   "property": "C63",
   "status": "proved",
   "theorems": [
    "DelayTimer.C63_cause",
    "DelayTimer.C63_iterates",
    "DelayTimer.C63_stop_ends",
    "DelayTimer.C63_panic_ends",
    "DelayTimer.C63_limit_ends",
    "DelayTimer.C63_zero_ends"
   ],
   "note": "The converse directions show that each of the causes is one; for overflowing alarms see C11_fails_alarm."
  },
  {
   "property": "C64",
   "status": "proved",
   "theorems": [
    "DelayTimer.C64_cause",
    "DelayTimer.C64_ends"
   ],
   "note": ""
  },
  {
   "property": "C65",
   "status": "partial",
   "theorems": [
    "DelayTimer.C65_partial",
    "DelayTimer.C65_waits",
    "DelayTimer.C65_keeps_coming_partial",
    "DelayTimer.C65_accounted_partial",
    "DelayTimer.C65_lost",
    "DelayTimer.C65_violated"
   ],
   "note": "Proved if the request is processed, mark included, before the first attempt. Otherwise violated: a limited task that the scheduler gets to between its insertion into the wheel and the recording of its mark is not started, not skipped, and never comes again (C65_lost for every such state; C65_violated for the listed property)."
  },
  {
   "property": "C66",
   "status": "proved",
   "theorems": [
    "DelayTimer.C66_registered",
    "DelayTimer.C66_swept",
    "DelayTimer.C66_stopped",
    "DelayTimer.C66_can"
   ],
   "note": "How soon the sweeper makes its rounds is C32, where the code violates the prompt version; limits that overflow are C30_fails."
  },
  {
   "property": "C67",
   "status": "partial",
   "theorems": [
    "DelayTimer.C67_books_partial",
    "DelayTimer.C67_instances_partial",
    "DelayTimer.C67_deadline_kept",
    "DelayTimer.C67_unbounded"
   ],
   "note": "Holds for the table of running bodies (exactly the registered runs that have not ended) and for the instances of the maintainers. It fails for the deadlines: that of a run that has ended stays until it falls due (C67_deadline_kept), and for every repeating task with a running time limit and every number there is an execution in which no run goes on and more deadlines than that are kept (C67_unbounded). Instances a caller never fetches stay in the channel, which belongs to the caller; marks of finished tasks are C50."
  },
  {
   "property": "C68",
   "status": "partial",
   "theorems": [
    "DelayTimer.C68_tokio_partial",
    "DelayTimer.C68_smol_partial",
    "DelayTimer.C68_smol_cancel",
    "DelayTimer.C68_smol_late",
    "DelayTimer.C68_sync_late",
    "DelayTimer.C68_smol_sync_partial",
    "DelayTimer.C68_smol_false",
    "DelayTimer.C68_sync_false",
    "DelayTimer.C68_silent"
   ],
   "note": "Proved in full for asynchronous functions on tokio. On smol `quit` only spawns a task that cancels: the statement holds once that task has run (it can run from the stop on), and is false before (C68_smol_late, witness C68_smol_false). For synchronous functions it is false: the body is never reached once begun, on tokio not even before (C68_sync_late, witness C68_sync_false); on smol a body dropped before it was begun does nothing. In all cases a run whose future was dropped never reports its completion, even if its body goes on and returns (C68_silent)."
  },
  {
   "property": "C69",
   "status": "proved",
   "theorems": [
    "DelayTimer.C69_as_alone",
    "DelayTimer.C69_started",
    "DelayTimer.C69_ended",
    "DelayTimer.C69_panicked",
    "DelayTimer.C69_reported",
    "DelayTimer.C69_after",
    "DelayTimer.C69_undisturbed"
   ],
   "note": "Bodies are arbitrary programs over an arbitrary state type; the behaviour of the runtimes is assumed as listed in DESIGN.md."
  },
  {
   "property": "C70",
   "status": "proved",
   "theorems": [
    "DelayTimer.C70_processed",
    "DelayTimer.C70_settles",
    "DelayTimer.C70_listening",
    "DelayTimer.fair_course"
   ],
   "note": "Fairness is a hypothesis (DESIGN.md); fair_course shows that every finite execution has a fair continuation."
  },
  {
   "property": "C71",
   "status": "proved",
   "theorems": [
    "DelayTimer.C71_turns",
    "DelayTimer.C71_turning",
    "DelayTimer.C71_starts",
    "DelayTimer.C71_forever",
    "DelayTimer.C71_stops",
    "DelayTimer.fair_course"
   ],
   "note": "Fairness is a hypothesis (DESIGN.md); fair_course shows that every finite execution has a fair continuation."
  },
  {
   "property": "C72",
   "status": "proved",
   "theorems": [
    "DelayTimer.C72_stopped",
    "DelayTimer.fair_course"
   ],
   "note": "Fairness is a hypothesis (DESIGN.md); fair_course shows that every finite execution has a fair continuation."
  },
  {
   "property": "C73",
   "status": "proved",
   "theorems": [
    "DelayTimer.C73_reported",
    "DelayTimer.fair_course"
   ],
   "note": "Fairness is a hypothesis (DESIGN.md); fair_course shows that every finite execution has a fair continuation."
  },
  {
   "property": "C74",
   "status": "proved",
   "theorems": [
    "DelayTimer.C74_ends",
    "DelayTimer.C74_handle",
    "DelayTimer.C74_returns",
    "DelayTimer.fair_course_with"
   ],
   "note": "Fairness is a hypothesis (DESIGN.md); fair_course_with shows that every finite execution has a continuation that is fair also to the callers."
  },
  {
   "property": "C75",
   "status": "proved",
   "theorems": [
    "DelayTimer.C75_handed",
    "DelayTimer.C75_every_run",
    "DelayTimer.fair_course_with"
   ],
   "note": "Fairness is a hypothesis (DESIGN.md); fair_course_with shows that every finite execution has a continuation that is fair also to the callers."
  },
  {
   "property": "C76",
   "status": "partial",
   "theorems": [
    "DelayTimer.C76_again_partial",
    "DelayTimer.C76_forever_partial",
    "DelayTimer.C76_stuck",
    "DelayTimer.C76_fails"
   ],
   "note": "The code violates the property: C76_fails gives a fair unending execution in which a task with limit 1 runs once, the run ends, and the task is never started again, because the end of the run is processed between the start of the run and the counting of it (C76_stuck: once the counter is at the limit and all runs are over it stays there, the task is never started again). What holds: if the start of each run is counted before its end is processed (CountedFirst) and the chain of the task, if it has one, is held (ChainKept), another run starts whenever all are over (C76_again_partial), and if every run ends there are infinitely many (C76_forever_partial). FairSteady.lean constructs an execution that meets all of its hypotheses."
  },
  {
   "property": "C77",
   "status": "partial",
   "theorems": [
    "DelayTimer.C77_reason_partial",
    "DelayTimer.C77_reason_false",
    "DelayTimer.C77_registered",
    "DelayTimer.C77_later",
    "DelayTimer.C77_unstoppable",
    "DelayTimer.C77_tokio"
   ],
   "note": "Holds as an equivalence as long as the event thread lives (C77_reason_partial). Violated when it ends: C77_reason_false is a reachable witness, C77_registered and C77_later say for all executions which runs are stopped then without a reason (all registered ones and all started later), C77_unstoppable which are not and can never be, C77_tokio what being stopped means for their bodies. What the unwinding does is modelled in Model/Death.lean."
  },
  {
   "property": "C78",
   "status": "proved",
   "theorems": [
    "DelayTimer.C78_cause",
    "DelayTimer.C78_final"
   ],
   "note": "For the sending part of the calls; TaskInstance::cancel of an instance that is not running also returns an error (DisCancel), which is not meant here. The channel is assumed to be closed exactly when its only receiver, owned by the event thread, is dropped (documentation of async-channel)."
  },
  {
   "property": "C79",
   "status": "proved",
   "theorems": [
    "DelayTimer.C79",
    "DelayTimer.C79_always",
    "DelayTimer.C79_skip",
    "DelayTimer.C79_no_skip",
    "DelayTimer.C79_right",
    "DelayTimer.C79_covered",
    "DelayTimer.C79_removed",
    "DelayTimer.C79_every_history",
    "DelayTimer.C79_every_sheet",
    "DelayTimer.Ex.C79_removal_missed",
    "DelayTimer.C79_live",
    "DelayTimer.C79_for_ever",
    "DelayTimer.C79_unending"
   ],
   "note": "Refinement of a sequential specification. The sheet is faithful to the code where the code looks for a task in the wrong place after an advance (C79_removal_missed: a removal right after an advance does nothing); such histories are covered too. Which runs a parallel limit leaves out depends on when the bodies end and is an input of the sheet (C27, C28 and C76 say when it happens). Operations that overlap a tick are the subject of C12 to C16. C79_every_history assumes overflow checks off and no parallel limits."
  },
  {
   "property": "C80",
   "status": "proved",
   "theorems": [
    "DelayTimer.C80_runs",
    "DelayTimer.C80_count_down_seconds",
    "DelayTimer.C80_count_down_units",
    "DelayTimer.C80_count_down_cron",
    "DelayTimer.C80_zero",
    "DelayTimer.C80_revolutions",
    "DelayTimer.C80_over",
    "DelayTimer.C80_analysed_twice"
   ],
   "note": "The unit tests of src/timer/task.rs, generalised from their literals to all numbers, expressions and histories of the cache."
  },
  {
   "property": "C81",
   "status": "proved",
   "theorems": [
    "DelayTimer.C81_in_hand",
    "DelayTimer.C81_misplaced",
    "DelayTimer.C81_for_ever",
    "DelayTimer.C81_limited",
    "DelayTimer.forgotten_run"
   ],
   "note": "The exact behaviour behind the failures of C12: the removal drops the record and misses the task, and without a record nothing reaches it. Assumes the scheduler does not die by a panic (C63). C81_limited starts when the record has been dropped."
  },
  {
   "property": "C82",
   "status": "proved",
   "theorems": [
    "DelayTimer.C82_refines",
    "DelayTimer.C82_rest",
    "DelayTimer.C82_histories",
    "DelayTimer.C82_marks",
    "DelayTimer.C82_limit",
    "DelayTimer.C82_converse",
    "DelayTimer.Ex.C82_guard_needed"
   ],
   "note": "C82_refines: every split execution is matched by one of Model/System.lean with the same history, waiters, runs, scheduler, sweeper and wheel, and the same calls in the same order (a drop of a chain may come later). C82_rest: between dispatches the states are equal. C82_converse: the other direction for executions in which the scheduler does not look at a mark while advance_task is under way; the code keeps its guard there. C82_guard_needed: without the guard the limit is broken."
  },
  {
   "property": "C83",
   "status": "proved",
   "theorems": [
    "DelayTimer.C83_no_wait",
    "DelayTimer.C83_brief"
   ],
   "note": "The bound of five accesses is reached (example in Props/FineGuards.lean)."
  },
  {
   "property": "C84",
   "status": "proved",
   "theorems": [
    "DelayTimer.C84_run",
    "DelayTimer.C84_unlimited",
    "DelayTimer.C84_started",
    "DelayTimer.C84_total",
    "DelayTimer.C84_count",
    "DelayTimer.C84_forever"
   ],
   "note": "Unending fair executions of the system with its bodies; a fair execution meeting every hypothesis is constructed for any bodies and task (`Ex.asked_once`), and for a body with two effects and a wait, run three times, the counts are three each. The running time limit and cancel calls are excluded by hypothesis in the theorems about counts; `C84_run` is without these."
  },
  {
   "property": "C85",
   "status": "proved",
   "theorems": [
    "DelayTimer.C85_verdict",
    "DelayTimer.C85_held",
    "DelayTimer.C85_for_ever",
    "DelayTimer.removal_taken"
   ],
   "note": "C85_verdict: one time table for the whole execution, and both outcomes; C85_held: in the hands of the scheduler it is not at its mark; C85_for_ever: unending executions. Sharpens C12 (which asks for calm) and C81 for tasks handed in once."
  },
  {
   "property": "C86",
   "status": "proved",
   "theorems": [
    "DelayTimer.C86_verdict",
    "DelayTimer.C86_for_ever"
   ],
   "note": "C86_verdict: one time table until the advance is taken, and the three outcomes; C86_for_ever: unending executions. Sharpens C14 and C15, which ask for a task that the scheduler is not handling."
  },
  {
   "property": "C87",
   "status": "proved",
   "theorems": [
    "DelayTimer.C87_verdict",
    "DelayTimer.C87_for_ever"
   ],
   "note": "C87_verdict: one time table until the update is taken, and the outcome if the old task waits at its mark or is over; C87_for_ever: unending executions. Sharpens C16, which asks for a task that the scheduler is not handling. The remaining case, an update while the scheduler has the old task in its hands, leaves two tasks under one id: Ex.C16_fails_in_hand."
  },
  {
   "property": "C88",
   "status": "proved",
   "theorems": [
    "DelayTimer.C88_skips",
    "DelayTimer.C88_skips_kept",
    "DelayTimer.C88_skips_added",
    "DelayTimer.C88_again",
    "DelayTimer.C88_for_ever",
    "DelayTimer.C88_two_fails"
   ],
   "note": "Sharp: C88_two_fails is a fair execution with a limit of two in which both slots are lost and the task is never started again; for a limit of one without a chain this is C76_fails."
  },
  {
   "property": "C89",
   "status": "proved",
   "theorems": [
    "DelayTimer.C89_alone",
    "DelayTimer.C89_reduction",
    "DelayTimer.C89_one"
   ],
   "note": "For every set of ids and every execution, erasing the other ids gives an execution of a timer used for these ids alone with the same history of them. Conditions as in the statement: chains (inserted tasks) are used on one side only, and running time limits are used on one side only (the sweeper is shared; Ex.C91_shared shows that this is needed). About histories, not about progress: another task can still hold the timer up, e.g. by a panicking closure."
  },
  {
   "property": "C90",
   "status": "proved",
   "theorems": [
    "DelayTimer.C90_alone",
    "DelayTimer.C90_reduction",
    "DelayTimer.C90_one"
   ],
   "note": "From a fair unending execution a fair one of a timer for the given ids alone is built moment by moment; when these ids have no running time limits its sweeper makes empty rounds of its own whenever the sweeper of the original does something."
  },
  {
   "property": "C91",
   "status": "proved",
   "theorems": [
    "DelayTimer.C91_sleep",
    "DelayTimer.C91_dry",
    "DelayTimer.Ex.C91_shared"
   ],
   "note": "C91_sleep and C91_dry: every execution; C91_shared: the execution with two limits whose part for one task is no history of any timer, for any clock and any calls. How late the sweeper can be is C32."
  },
  {
   "property": "C92",
   "status": "proved",
   "theorems": [
    "DelayTimer.C92_late",
    "DelayTimer.C92_awake",
    "DelayTimer.C92_run",
    "DelayTimer.C92_swept"
   ],
   "note": "Assumes that the clock shown to the timer does not go back and that clock plus limit fits into 64 bits up to now. C92_awake is the case of equal limits. That the bound is met: the example in Props/Prompt.lean, and C32_unbounded."
  },
  {
   "property": "C93",
   "status": "proved",
   "theorems": [
    "DelayTimer.C93_removed",
    "DelayTimer.C93_for_ever",
    "DelayTimer.C93_gone"
   ],
   "note": "For every execution in which all tasks handed in under the id have a parallel limit. C93_removed: from the moment the event thread has worked off the removal there is no start but at most one already admitted, in the same tick. C93_for_ever: in an unending execution with a fair event thread there is a last start. C93_gone: if the scheduler is fair and lives and all tasks handed in are valid (as the builder makes them), nothing is left of the task from some moment on. The contrast without a limit is C81."
  },
  {
   "property": "C94",
   "status": "proved",
   "theorems": [
    "DelayTimer.C94_record",
    "DelayTimer.C94_kept",
    "DelayTimer.C94_for_ever",
    "DelayTimer.Ex.C94_unbounded"
   ],
   "note": "C94_record: when there is a record, for every reachable state. C94_kept: until a removal is called. C94_for_ever: in unending executions with a fair and living event thread the record of a task added and not removed is kept for ever. C94_unbounded: for every N a reachable state in which no task is scheduled anywhere and N tasks are on record."
  }
 ]
}