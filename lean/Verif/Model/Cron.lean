import Verif.Model.CronCache

/-!
# Cron tasks

Ties the cache of `Model/CronCache` to the builder of `Model/Builder`.
-/

namespace DelayTimer

/-- Iteration of a parsed expression in a time zone. `cron_clock` is outside the crate: a parameter. -/
abbrev CronEval := CronSpec → TimeZone → CronSchedule

/-- `ScheduleIteratorOwned` as the task sees it: `next` (src/timer/task.rs:347-353) continues from the base. -/
def CronOwned.iter (eval : CronEval) (c : CronOwned) : CronIter :=
  { sched := eval c.spec c.zone, prev := c.base }

/-- `analyze_cron_expression` as called by `FrequencyInner::try_from` (src/timer/task.rs:205-223) at time `now` in a
thread with the given history of earlier builds. -/
def analyzeIn (parse : CronParser) (eval : CronEval) (now : Nat) (hist : List CronCall) (z : TimeZone) (s : String) :
    Option CronIter :=
  (analyzeCron parse now (cacheAfter parse hist) z s).1.map (CronOwned.iter eval)

end DelayTimer
