import Verif.Spec.Fleet
import Verif.Props.Events
import Verif.Examples

/-! Property C56: whose public events a status reporter yields. -/

namespace DelayTimer
open Spec

theorem done_grow (env : Env) (s : St) (tag : Tag) (p : Option PublicEvent) (r : Option Bool) :
    ∃ news, (done env s tag p r).reports = s.reports ++ news ∧ (env.statusReport = false → news = []) := by
  unfold done
  split
  · rename_i hb; exact ⟨[_], rfl, by rw [hb]; intro h; cases h⟩
  · exact ⟨[], by simp, fun _ => rfl⟩

theorem reports_grow {env : Env} {s s' : St} {l : Label} (hr : Reachable env s) (h : step env s l = some s') :
    ∃ news, s'.reports = s.reports ++ news ∧ (env.statusReport = false → news = []) := by
  rcases dispatch_cases hr (step_act h) with ⟨k, id, rec, r, rest, s2, e, _, _, _, hend, _, rfl⟩ | ⟨id, box, rest, _, _, _, rfl⟩ |
    ⟨tag, r, _, _, _, _, ⟨id, _, hb, _, h1⟩ | ⟨h1, _⟩⟩ | ⟨h1, _⟩
  · obtain ⟨n, h1, h2⟩ := done_grow env s2 (k.tag id rec) (publicOf e) r
    exact ⟨n, by rw [h1, hend.reports], h2⟩
  · obtain ⟨n, h1, h2⟩ := done_grow env (maintainTaskStatus { s with chan := rest } id box) (.append id box.recordId)
      (some (.runningTask box.taskId box.recordId)) (some true)
    exact ⟨n, by rw [h1, maintainTaskStatus_reports], h2⟩
  · exact ⟨[_], h1, by rw [hb]; intro h; cases h⟩
  · exact ⟨[], by rw [h1]; simp, fun _ => rfl⟩
  · exact ⟨[], by rw [h1]; simp, fun _ => rfl⟩

/-- What holds of a process at every moment. -/
structure FleetOk (env : Nat → Env) (f : Fleet) : Prop where
  timers : ∀ i, Reachable (env i) (f.timers i)
  flow : ∀ i, ofTimer i (origins f.got ++ f.queue) = (f.timers i).reports
  allowed : ∀ d ∈ f.got, (env d.to.timer).statusReport = true

theorem ofTimer_append (i : Nat) (a b : List (Nat × PublicEvent)) : ofTimer i (a ++ b) = ofTimer i a ++ ofTimer i b := by
  simp [ofTimer]

theorem ofTimer_tagged (i j : Nat) (l : List PublicEvent) :
    ofTimer i (l.map (fun e => (j, e))) = if j = i then l else [] := by
  induction l with
  | nil => simp [ofTimer]
  | cons e l ih =>
    rw [List.map_cons, show (j, e) :: l.map (fun e => (j, e)) = [(j, e)] ++ l.map (fun e => (j, e)) from rfl, ofTimer_append, ih]
    by_cases h : j = i <;> simp [ofTimer, h]

theorem fleetOk_step {env : Nat → Env} {f f' : Fleet} {l : FleetLabel} (h : FleetOk env f)
    (hs : f.step env l = some f') : FleetOk env f' := by
  cases l with
  | inner i l =>
    unfold Fleet.step at hs
    cases he : step (env i) (f.timers i) l with
    | none => simp [he] at hs
    | some s =>
      simp only [he, Option.some.injEq] at hs
      obtain ⟨news, hn, _⟩ := reports_grow (h.timers i) he
      have hd : s.reports.drop (f.timers i).reports.length = news := by rw [hn]; simp
      subst hs
      refine ⟨?_, ?_, h.allowed⟩
      · intro j
        by_cases hj : j = i
        · subst hj; simpa using (h.timers j).step he
        · simpa [hj] using h.timers j
      · intro j
        simp only [hd]
        rw [← List.append_assoc, ofTimer_append, h.flow j, ofTimer_tagged]
        by_cases hj : j = i
        · subst hj; simp [hn]
        · simp [hj, Ne.symm hj]
  | take c =>
    simp only [Fleet.step] at hs
    by_cases hc : (env c.timer).statusReport = true
    · rw [if_pos hc] at hs
      cases hq : f.queue with
      | nil => simp [hq] at hs
      | cons p rest =>
        obtain ⟨i, e⟩ := p
        simp only [hq, Option.some.injEq] at hs
        subst hs
        refine ⟨h.timers, ?_, ?_⟩
        · intro j
          rw [← h.flow j, hq]
          simp [origins]
        · intro d hd
          rcases List.mem_append.1 hd with hd | hd
          · exact h.allowed d hd
          · simp only [List.mem_singleton] at hd; subst hd; exact hc
    · rw [if_neg hc] at hs; cases hs

theorem fleetOk_run {env : Nat → Env} : ∀ (ls : List FleetLabel) {f f' : Fleet}, FleetOk env f →
    f.run env ls = some f' → FleetOk env f' := by
  intro ls
  induction ls with
  | nil => intro f f' h hr; cases hr; exact h
  | cons l ls ih =>
    intro f f' h hr
    unfold Fleet.run at hr
    cases hs : f.step env l with
    | none => simp [hs] at hr
    | some g => simp only [hs] at hr; exact ih (fleetOk_step h hs) hr

theorem fleetOk_init (env : Nat → Env) : FleetOk env (Fleet.init env) :=
  ⟨fun _ => ⟨[], rfl⟩, fun _ => rfl, by intro d hd; cases hd⟩

theorem fleetOk {env : Nat → Env} {ls : List FleetLabel} {f : Fleet} (h : (Fleet.init env).run env ls = some f) :
    FleetOk env f := fleetOk_run ls (fleetOk_init env) h

/-- **C56, delivery**: the public events of each timer are handed out exactly once and in their order, to
whichever consumers there are: what consumers have got of a timer's events, followed by what is still
waiting, is what the timer has reported. -/
theorem C56_delivery {env : Nat → Env} {ls : List FleetLabel} {f : Fleet} (h : (Fleet.init env).run env ls = some f) (i : Nat) :
    ofTimer i (origins f.got) ++ ofTimer i f.queue = (f.timers i).reports ∧ Reachable (env i) (f.timers i) ∧
      ((env i).statusReport = false → obtainedBy i f.got = []) := by
  have h0 := fleetOk h
  refine ⟨by rw [← ofTimer_append]; exact h0.flow i, h0.timers i, ?_⟩
  intro hb
  refine List.filterMap_eq_nil_iff.2 ?_
  intro d hd
  have := h0.allowed d hd
  by_cases hj : d.to.timer = i
  · rw [hj, hb] at this; cases this
  · simp [hj]

theorem takeAll {env : Nat → Env} (c : Consumer) (hc : (env c.timer).statusReport = true) : ∀ (q : List (Nat × PublicEvent)) (f : Fleet),
    f.queue = q → ∃ f', f.run env (q.map (fun _ => .take c)) = some f' ∧ f'.queue = [] ∧
      f'.got = f.got ++ q.map (fun p => ⟨c, p.1, p.2⟩) ∧ f'.timers = f.timers := by
  intro q
  induction q with
  | nil => intro f hf; exact ⟨f, rfl, hf, by simp, rfl⟩
  | cons p q ih =>
    intro f hf
    obtain ⟨i, e⟩ := p
    obtain ⟨f', h1, h2, h3, h4⟩ := ih { f with queue := q, got := f.got ++ [⟨c, i, e⟩] } rfl
    refine ⟨f', ?_, h2, ?_, h4⟩
    · simp only [List.map_cons, Fleet.run, Fleet.step, hc, if_true, hf]
      exact h1
    · rw [h3]; simp

/-- **C56** for a process with one reporting timer (the full statement, that the consumers of a timer get
the events of that timer in every process, is refuted by `C56_stolen`): its consumers get its events and
nothing else, in order and without loss, and asking until nothing is left yields all of them. -/
theorem C56_alone_partial {env : Nat → Env} {ls : List FleetLabel} {f : Fleet} (h : (Fleet.init env).run env ls = some f)
    (i : Nat) (hi : ∀ j, j ≠ i → (env j).statusReport = false) :
    obtainedBy i f.got ++ f.queue.map (·.2) = (f.timers i).reports ∧ (∀ d ∈ f.got, d.origin = i ∧ d.to.timer = i) ∧
    ((env i).statusReport = true → ∀ w, ∃ ls' f', f.run env ls' = some f' ∧ (∀ l ∈ ls', l = .take ⟨i, w⟩) ∧
      obtainedBy i f'.got = (f.timers i).reports) := by
  have h0 := fleetOk h
  have hor : ∀ p ∈ origins f.got ++ f.queue, p.1 = i := by
    intro p hp
    by_cases hj : p.1 = i
    · exact hj
    · exfalso
      have h1 := h0.flow p.1
      rw [(repOk (h0.timers p.1)).off (hi _ hj)] at h1
      have h2 := List.filterMap_eq_nil_iff.1 h1 p hp
      simp at h2
  have hto : ∀ d ∈ f.got, d.origin = i ∧ d.to.timer = i := by
    intro d hd
    refine ⟨hor (d.origin, d.event) (List.mem_append_left _ (List.mem_map_of_mem hd)), ?_⟩
    by_cases hj : d.to.timer = i
    · exact hj
    · exfalso
      have := h0.allowed d hd
      rw [hi _ hj] at this; cases this
  have hget : ∀ got : List Delivery, (∀ d ∈ got, d.to.timer = i) → obtainedBy i got = got.map (·.event) := by
    intro got
    induction got with
    | nil => intro _; rfl
    | cons d got ih =>
      intro hg
      have := hg d List.mem_cons_self
      rw [List.map_cons, ← ih (fun d hd => hg d (List.mem_cons_of_mem _ hd))]
      simp [obtainedBy, this]
  have hall : ∀ l : List (Nat × PublicEvent), (∀ p ∈ l, p.1 = i) → ofTimer i l = l.map (·.2) := by
    intro l
    induction l with
    | nil => intro _; rfl
    | cons p l ih =>
      intro hg
      have := hg p List.mem_cons_self
      rw [List.map_cons, ← ih (fun d hd => hg d (List.mem_cons_of_mem _ hd))]
      simp [ofTimer, this]
  have hflow : obtainedBy i f.got ++ f.queue.map (·.2) = (f.timers i).reports := by
    rw [hget _ (fun d hd => (hto d hd).2), ← h0.flow i, hall _ hor]
    simp [origins, Function.comp_def]
  refine ⟨hflow, hto, ?_⟩
  intro hb w
  obtain ⟨f', h1, h2, h3, h4⟩ := takeAll ⟨i, w⟩ hb f.queue f rfl
  refine ⟨_, f', h1, ?_, ?_⟩
  · intro l hl
    obtain ⟨_, _, rfl⟩ := List.mem_map.1 hl
    rfl
  · rw [← hflow, h3]
    simp only [obtainedBy, List.filterMap_append, List.filterMap_map]
    congr 1
    simp [Function.comp_def]

/-- **C56 fails with two reporting timers**: whatever one of them reports can be taken by any consumer of
the other one, and is then gone for its own. -/
theorem C56_stolen {env : Nat → Env} {f : Fleet} {i : Nat} {e : PublicEvent} {rest : List (Nat × PublicEvent)}
    (hq : f.queue = (i, e) :: rest) (c : Consumer) (hc : (env c.timer).statusReport = true) :
    ∃ f', f.step env (.take c) = some f' ∧ obtainedBy c.timer f'.got = obtainedBy c.timer f.got ++ [e] ∧
      f'.queue = rest := by
  refine ⟨{ f with queue := rest, got := f.got ++ [⟨c, i, e⟩] }, by simp [Fleet.step, hc, hq], ?_, rfl⟩
  simp [obtainedBy]

namespace Ex

/-- Two timers with the same clock; task 7 is added to both, both run it under record id 1. -/
def twins : List FleetLabel :=
  let day : List Label := add (every 7 101 5) ++ idle ++ idle ++ fire 7 1 ++ [.eRecv]
  day.map (.inner 0) ++ day.map (.inner 1)

/-- What consumer `c` has got, what is waiting and what the two timers have reported. -/
def view (f : Fleet) : List PublicEvent × List PublicEvent × List PublicEvent × List PublicEvent × Nat :=
  (obtainedBy 0 f.got, obtainedBy 1 f.got, (f.timers 0).reports, (f.timers 1).reports, f.queue.length)

/-- One timer alone (the other one is there but does not report): hypotheses of `C56_alone_partial`. -/
example : ∃ f, (Fleet.init (fun i => { env0 with statusReport := i == 0 })).run
      (fun i => { env0 with statusReport := i == 0 }) (twins ++ [.take ⟨0, 4⟩]) = some f ∧
    view f = ([.runningTask 7 1], [], [.runningTask 7 1], [], 0) := by
  refine ⟨_, Option.eq_some_of_isSome (by decide +kernel), by decide +kernel⟩

end Ex

/-- **C56 fails**, concretely: two timers run a task with the same id under the same record id; the status
reporter of the first gets both reports (so it sees one run reported as running twice), that of the
second never gets anything. -/
theorem C56_mixed : ∃ (env : Nat → Env) (ls : List FleetLabel) (f : Fleet), (Fleet.init env).run env ls = some f ∧
    (∀ i, (env i).statusReport = true) ∧ f.queue = [] ∧
    (f.timers 0).reports = [.runningTask 7 1] ∧ (f.timers 1).reports = [.runningTask 7 1] ∧
    obtainedBy 0 f.got = [.runningTask 7 1, .runningTask 7 1] ∧ obtainedBy 1 f.got = [] :=
  ⟨fun _ => Ex.env0, Ex.twins ++ [.take ⟨0, 0⟩, .take ⟨0, 0⟩], _, Option.eq_some_of_isSome (by decide +kernel),
    fun _ => rfl, by decide +kernel, by decide +kernel, by decide +kernel, by decide +kernel, by decide +kernel⟩

end DelayTimer
