import Verif.Model.Builder

/-!
# The cron expression cache

Model of `DelayTimerScheduleIteratorOwned` and `analyze_cron_expression`,
`/repo/src/timer/task.rs:15-16, 271-391`.
-/

namespace DelayTimer

/-- What `Schedule::from_str` yields. The parser is outside the crate: `parse` is a parameter. -/
abbrev CronSpec := Nat

/-- The parser of cron expressions (`cron_clock::Schedule::from_str`), `none` is `Err`. -/
abbrev CronParser := String → Option CronSpec

/-- `DelayTimerScheduleIteratorOwned`, src/timer/task.rs:303-308: the enum variant together with its
time zone, the schedule and the instant the iteration is based at. -/
structure CronOwned where
  zone : TimeZone
  spec : CronSpec
  base : Int
deriving DecidableEq, Repr

/-- `ScheduleIteratorTimeZoneQuery`, src/timer/task.rs:271-275. -/
structure CronKey where
  zone : TimeZone
  expr : String
deriving DecidableEq, Repr

/-- `DelayTimerScheduleIteratorOwned::new` at time `now`, src/timer/task.rs:311-332.
`upcoming_owned` bases the iteration at the current time. -/
def CronOwned.new (parse : CronParser) (now : Int) (k : CronKey) : Option CronOwned :=
  match k.zone with
  | .utc => (parse k.expr).map fun p => { zone := .utc, spec := p, base := now }
  | .local => (parse k.expr).map fun p => { zone := .local, spec := p, base := now }
  | .fixedOffset o => (parse k.expr).map fun p => { zone := .fixedOffset o, spec := p, base := now }

/-- `refresh_previous_datetime`, src/timer/task.rs:334-345; for a fixed offset it only refreshes when
the argument is a fixed offset too, and takes over that offset. -/
def CronOwned.refresh (now : Int) (c : CronOwned) (z : TimeZone) : CronOwned :=
  match c.zone with
  | .utc => { c with base := now }
  | .local => { c with base := now }
  | .fixedOffset _ =>
    match z with
    | .fixedOffset o => { c with zone := .fixedOffset o, base := now }
    | _ => c

/-- `LruCache`, most recently used first. Capacity 256, src/timer/task.rs:16. -/
abbrev CronCache := List (CronKey × CronOwned)

def CACHE_CAPACITY : Nat := 256

/-- `LruCache::get`: looks the key up and makes it the most recently used one. -/
def CronCache.get (c : CronCache) (k : CronKey) : Option CronOwned × CronCache :=
  match c.find? (fun e => e.1 == k) with
  | some e => (some e.2, e :: c.filter (fun e => !(e.1 == k)))
  | none => (none, c)

/-- `LruCache::put`: replaces an existing entry or inserts, evicting the least recently used entry
when full; the key becomes the most recently used one. -/
def CronCache.put (c : CronCache) (k : CronKey) (v : CronOwned) : CronCache :=
  if c.any (fun e => e.1 == k) then (k, v) :: c.filter (fun e => !(e.1 == k))
  else if CACHE_CAPACITY ≤ c.length then (k, v) :: c.dropLast
  else (k, v) :: c

/-- `cron_expression.trim_matches(' ')`, src/timer/task.rs:360. -/
def trimBlanks (s : String) : String :=
  String.ofList ((s.toList.dropWhile (· == ' ')).reverse.dropWhile (· == ' ')).reverse

/-- `analyze_cron_expression` called at time `now`, src/timer/task.rs:356-390. The thread-local is
assumed alive. -/
def analyzeCron (parse : CronParser) (now : Int) (cache : CronCache) (z : TimeZone) (s : String) :
    Option CronOwned × CronCache :=
  let key : CronKey := { zone := z, expr := trimBlanks s }
  match cache.get key with
  | (some it, cache) => (some (it.refresh now z), cache)
  | (none, cache) =>
    match CronOwned.new parse now key with
    | some it => (some it, cache.put key it)
    | none => (none, cache)

/-- One earlier build in the thread: time, zone and expression. -/
structure CronCall where
  now : Int
  zone : TimeZone
  expr : String

/-- The cache after a history of builds. -/
def cacheAfter (parse : CronParser) : List CronCall → CronCache
  | [] => []
  | c :: rest => (analyzeCron parse c.now (cacheAfter parse rest) c.zone c.expr).2

end DelayTimer
