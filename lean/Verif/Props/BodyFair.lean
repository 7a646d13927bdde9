import Verif.Proofs.BodyFair
import Verif.Props.Body
import Verif.Props.Fair
import Verif.Props.Count
import Verif.Props.Memory
import Verif.Props.Instances
import Verif.Props.Sweep

/-!
# C84: the work of a task gets done

The ends of the chain are put together here: a task is handed in, the timer starts its runs by the time table, the
runtimes execute their bodies, and what the bodies do is done, as often as was asked for.
-/

namespace DelayTimer
open Spec

variable {σ : Type}

/-- **C84** A run whose body would come to its end when left to itself comes to its end, unless it is stopped before;
then it has done all that its body does, and does no more. -/
theorem C84_run {B : Bodies σ} {env : Env} (c : BodyCourse B env) {rec : Int} (hf : c.WeaklyFair (Only rec))
    {id rtn n ts m : Nat} (hs : .started id rtn rec n ts ∈ (c.st m).base.log) (hh : Halts B (B.start rtn)) :
    (∃ m', .stopped id rec ∈ (c.st m').base.log ∧ .bodyEnded id rec ∉ (c.st m').base.log ∧
      .bodyPanicked id rec ∉ (c.st m').base.log) ∨
    ∃ m' es y, m ≤ m' ∧ Goes B (B.start rtn) es y ∧
      (B.move y = .finish ∧ .bodyEnded id rec ∈ (c.st m').base.log ∨ B.move y = .panic ∧ .bodyPanicked id rec ∈ (c.st m').base.log) ∧
      ∀ j, m' ≤ j → effectsOf rec (c.st j).effects = es := by
  refine Classical.byContradiction fun hno => ?_
  have hno1 : ∀ m', .stopped id rec ∈ (c.st m').base.log → .bodyEnded id rec ∈ (c.st m').base.log ∨
      .bodyPanicked id rec ∈ (c.st m').base.log := by
    intro m' h1
    refine Classical.byContradiction fun h2 => hno (Or.inl ⟨m', h1, fun h => h2 (Or.inl h), fun h => h2 (Or.inr h)⟩)
  have hno2 := fun h => hno (Or.inr h)
  clear hno
  obtain ⟨r, hr1, hr2, hr3⟩ := (runLog (bcourse_reach c m).base).started _ _ _ _ _ hs
  -- once the body is over
  have hend : ∀ m' x, m ≤ m' → (c.st m').exec rec = some x → x.place = .over → False := by
    intro m' x hm hx hp
    obtain ⟨r', h1, h2, h3⟩ := ((bodyOk (bcourse_reach c m')).some rec x hx).run
    obtain ⟨r'', h4, h5, h6⟩ := (runLog (bcourse_reach c m').base).started _ _ _ _ _ (bcourse_log c hm hs)
    rw [h1] at h4; cases h4
    rw [hp] at h3
    obtain ⟨y, h7, h8⟩ := h3
    rw [h5, h6] at *
    have hover : .bodyEnded id rec ∈ (c.st m').base.log ∨ .bodyPanicked id rec ∈ (c.st m').base.log := by
      rcases h8 with ⟨_, h, _⟩ | ⟨_, h, _⟩
      · exact Or.inl h
      · exact Or.inr h
    refine hno2 ⟨m', _, y, hm, h7, ?_, fun j hj => ?_⟩
    · rcases h8 with ⟨h8, h9, _⟩ | ⟨h8, h9, _⟩
      · exact Or.inl ⟨h8, h9⟩
      · exact Or.inr ⟨h8, h9⟩
    · obtain ⟨ls, hl⟩ := bcourse_between c hj
      exact C69_after (bcourse_reach c m') hover hl
  have hx : ∀ m', m ≤ m' → ∃ x, (c.st m').exec rec = some x ∧ x.routine = rtn ∧ x.place ≠ .over ∧ x.cancelled = false := by
    intro m' hm
    obtain ⟨r', h4, h5, h6⟩ := (runLog (bcourse_reach c m').base).started _ _ _ _ _ (bcourse_log c hm hs)
    cases hx : (c.st m').exec rec with
    | none => have := ((bodyOk (bcourse_reach c m')).none rec hx).1; rw [h4] at this; cases this
    | some x =>
      have hj := (bodyOk (bcourse_reach c m')).some rec x hx
      obtain ⟨q, h7, h8, h9⟩ := hj.run
      rw [h4] at h7; cases h7
      refine ⟨x, rfl, h8.symm.trans h6, hend m' x hm hx, ?_⟩
      cases hc : x.cancelled with
      | false => rfl
      | true =>
        exfalso
        obtain ⟨id', hst⟩ := hj.stop.2 (Or.inr hc)
        have hid : id' = id := by
          have := (traceOk (bcourse_reach c m').base).stop id' rec hst
          have hq := dispatched_queued (bcourse_reach c m').base this
          obtain ⟨rtn', n', ts', hs'⟩ := cause (course_run (lowered c) m') hq
          obtain ⟨q, g1, g2, _⟩ := (runLog (bcourse_reach c m').base).started _ _ _ _ _ hs'
          rw [h4] at g1; cases g1
          exact g2.symm.trans h5
        subst hid
        have hov := hno1 m' hst
        cases hp : x.place with
        | over => exact hend m' x hm hx hp
        | _ =>
          rw [hp] at h9
          have h10 := h9.2.1
          have h11 := h9.2.2
          rcases hov with hov | hov
          · obtain ⟨q, g1, _, g2⟩ := (runLog (bcourse_reach c m').base).ended _ _ hov
            rw [h4] at g1; cases g1; rw [h10] at g2; cases g2
          · obtain ⟨q, g1, _, g2⟩ := (runLog (bcourse_reach c m').base).panicked _ _ hov
            rw [h4] at g1; cases g1; rw [h10, h11] at g2; split at g2 <;> cases g2
  have hc : ∀ m' x, m ≤ m' → (c.st m').exec rec = some x → x.place ≠ .over → x.cancelled = false := by
    intro m' x hm hx' _
    obtain ⟨x2, h1, _, _, h2⟩ := hx m' hm
    rw [hx'] at h1; cases h1; exact h2
  obtain ⟨x, h1, h2, h3, h4⟩ := hx m (Nat.le_refl _)
  have hj := (bodyOk (bcourse_reach c m)).some rec x h1
  obtain ⟨q, h5, h6, h7⟩ := hj.run
  have hq : q.routine = rtn := h6.trans h2
  -- a body that halts still halts after some of its moves
  have hgo : ∀ {a b : σ} {es : List Nat}, Goes B a es b → Halts B a → Halts B b := by
    intro a b es hg
    induction hg with
    | refl => exact fun h => h
    | effect h _ ih =>
      intro hh
      cases hh with
      | finish h' | panic h' | await h' => rw [h] at h'; cases h'
      | effect h' hz => rw [h] at h'; cases h'; exact ih hz
    | await v h _ ih =>
      intro hh
      cases hh with
      | finish h' | panic h' | effect h' => rw [h] at h'; cases h'
      | await h' hz => rw [h] at h'; cases h'; exact ih (hz v)
  rw [← hq] at hh
  have fin : ∀ {y : σ} {m' : Nat} {x' : Job σ}, m ≤ m' → (c.st m').exec rec = some x' → Halts B y →
      (x'.place = .ready y ∨ x'.place = .active y) → False := by
    intro y m' x' hm hx' hy hp
    obtain ⟨m2, x2, g1, g2, g3⟩ := halts c hf hc hy hm hx' hp
    exact hend m2 x2 (by omega) g2 g3
  cases hp : x.place with
  | over => exact h3 hp
  | gone => have := hj.dropped (hj.gone hp); rw [h4] at this; cases this
  | ready y => rw [hp] at h7; exact fin (Nat.le_refl _) h1 (hgo h7.1 hh) (Or.inl hp)
  | active y => rw [hp] at h7; exact fin (Nat.le_refl _) h1 (hgo h7.1 hh) (Or.inr hp)
  | blocked k =>
    rw [hp] at h7
    obtain ⟨⟨y, g1, g2⟩, _⟩ := h7
    obtain ⟨m1, l, e1, e2, e3, x1, e4, e5, e6⟩ := goes_next c hf hc (p := .blocked k) (by simp) (by simp) h1 hp
    obtain ⟨v, z, e7, e8⟩ := wakes (bcourse_step c e2) e3 e4 e5
    have hy : Halts B (k v) := by
      cases hgo g1 hh with
      | finish h' | panic h' | effect h' => rw [g2] at h'; cases h'
      | await h' hz => rw [g2] at h'; cases h'; exact hz v
    exact fin (m' := m1 + 1) (by omega) e7 hy e8

/-- A run is stopped only because somebody asked for it, a limit was over, or its body was. -/
theorem stop_reason {env : Env} {ls : List Label} {s : St} (h : run env (init env) ls = some s) {id : Nat} {rec : Int}
    (hst : .stopped id rec ∈ s.log) : BodyOver env id rec s.log ∨ (∃ l ∈ ls, CancelCall id rec l) ∨
      ∃ t ∈ handed id ls, t.maximumRunningTime ≠ none := by
  have hr : Reachable env s := ⟨ls, h⟩
  obtain ⟨l1, l2, tag, b, h1, h2, _⟩ := (C61_first_end hr id rec).1.1 hst
  have hd : tag ∈ dispatchedTags s.log := by rw [h1, dispatchedTags_append]; simp [dispatchedTags]
  have hq := dispatched_queued hr hd
  simp only [endTags, List.mem_cons, List.not_mem_nil, or_false] at h2
  rcases h2 with rfl | rfl | rfl
  all_goals first
    | exact Or.inl (cause h hq)
    | exact Or.inr (Or.inl (cause h hq))
    | skip
  obtain ⟨t, ht, _, _, m, _, _, hm, _⟩ := timeout_due h hq
  exact Or.inr (Or.inr ⟨t, ht, by rw [hm]; simp⟩)

/-- **C84** A run of a task without a limit on its running time, which nobody cancels, comes to its end if its body does
so when left to itself. -/
theorem C84_unlimited {B : Bodies σ} {env : Env} (c : BodyCourse B env) {rec : Int} (hf : c.WeaklyFair (Only rec))
    {id rtn n ts m : Nat} (hs : .started id rtn rec n ts ∈ (c.st m).base.log) (hh : Halts B (B.start rtn))
    (hcan : ∀ j l, c.lab j = some (.base l) → ¬ CancelCall id rec l)
    (hlim : ∀ j l t, c.lab j = some (.base l) → t ∈ broughtBy id l → t.maximumRunningTime = none) :
    ∃ m' es, m ≤ m' ∧ DoesAll B (B.start rtn) es ∧ ∀ j, m' ≤ j → effectsOf rec (c.st j).effects = es := by
  rcases C84_run c hf hs hh with ⟨m', h1, h2, h3⟩ | ⟨m', es, y, h1, h2, h3, h4⟩
  · exfalso
    rcases stop_reason (course_run (lowered c) m') h1 with h | ⟨l, hl, hc⟩ | ⟨t, ht, hm⟩
    · rcases h with h | ⟨h, _⟩
      · exact h2 h
      · exact h3 h
    · obtain ⟨j, _, hj⟩ := (mem_upTo _ _).1 hl
      rcases lowered_lab c hj with hj | ⟨r, _, rfl | rfl⟩
      · exact hcan j l hj hc
      · exact hc
      · exact hc
    · obtain ⟨l, hl, htl⟩ := List.mem_flatMap.1 ht
      obtain ⟨j, _, hj⟩ := (mem_upTo _ _).1 hl
      rcases lowered_lab c hj with hj | ⟨r, _, rfl | rfl⟩
      · exact hm (hlim j l t hj htl)
      · cases htl
      · cases htl
  · refine ⟨m', es, h1, ⟨y, h2, ?_⟩, h4⟩
    rcases h3 with ⟨h3, _⟩ | ⟨h3, _⟩
    · exact Or.inl h3
    · exact Or.inr h3

theorem startedRecsOf_grows (k : Nat) (news log : List Obs) : startedRecsOf k log <+: startedRecsOf k (news ++ log) := by
  induction news with
  | nil => exact List.prefix_refl _
  | cons o news ih =>
    rw [List.cons_append]
    cases o <;> simp only [startedRecsOf] <;> try exact ih
    split
    · exact ih.trans (List.prefix_append _ _)
    · exact ih

theorem course_recs {env : Env} (c : Course env) (k : Nat) {n m : Nat} (h : n ≤ m) :
    startedRecsOf k (c.st n).log <+: startedRecsOf k (c.st m).log := by
  induction m with
  | zero => obtain rfl : n = 0 := by omega
            exact List.prefix_refl _
  | succ m ih =>
    by_cases hm : n = m + 1
    · subst hm; exact List.prefix_refl _
    · refine (ih (by omega)).trans ?_
      cases hl : c.lab m with
      | none => rw [course_rest c hl]; exact List.prefix_refl _
      | some l =>
        have hx : ∃ news, (c.st (m + 1)).log = news ++ (c.st m).log := by
          rcases log_cases (step_act (course_step c hl)) with ⟨n, hn, _, _⟩ | ⟨_, _, _, _, _, _, _, _, hn, _⟩ | ⟨_, _, hn, _⟩ | ⟨_, _, _, _, _, _, hn⟩ | ⟨_, _, _, _, hn, _⟩
          · exact ⟨n, hn⟩
          all_goals first | exact ⟨[_], hn⟩ | exact ⟨[_, _], hn⟩
        obtain ⟨news, hn⟩ := hx
        rw [hn]; exact startedRecsOf_grows _ _ _

/-- Handed in once. -/
theorem handed_once {env : Env} (c : Course env) {k n0 : Nat} {t : Task} {l : Label} (hlab : c.lab n0 = some l)
    (hin : HandsIn t l) (hk : t.taskId = k) (hno : ∀ m l, m ≠ n0 → c.lab m = some l → ¬ Touches k l) (n : Nat) :
    handed k (c.upTo n) = if n ≤ n0 then [] else [t] := by
  have hoth : ∀ m, m ≠ n0 → handed k (c.lab m).toList = [] := by
    intro m hm
    cases h : c.lab m with
    | none => rfl
    | some l' =>
      have := hno m l' hm h
      simp only [Option.toList_some, handed, List.flatMap_cons, List.flatMap_nil, List.append_nil]
      unfold broughtBy
      split <;> simp_all [Touches]
  induction n with
  | zero => simp [Course.upTo, handed]
  | succ n ih =>
    have : handed k (c.upTo (n + 1)) = handed k (c.upTo n) ++ handed k (c.lab n).toList := by
      simp [Course.upTo, handed]
    rw [this, ih]
    by_cases h : n = n0
    · subst h
      rw [hlab]
      rcases hin with rfl | rfl <;> simp [handed, broughtBy, hk]
    · rw [hoth n h, List.append_nil]
      split <;> split <;> first | rfl | omega

theorem lowered_no_touch {B : Bodies σ} {env : Env} (c : BodyCourse B env) {k n0 : Nat}
    (hno : ∀ m l, m ≠ n0 → c.lab m = some (.base l) → ¬ Touches k l) :
    ∀ m l, m ≠ n0 → (lowered c).lab m = some l → ¬ Touches k l := by
  intro m l hm h
  rcases lowered_lab c h with h | ⟨r, _, rfl | rfl⟩
  · exact hno m l hm h
  · exact id
  · exact id

/-- **C84** Of a task that is handed in once, without a limit on its running time, and never touched or cancelled, all runs
that are started come to their ends. -/
theorem C84_started {B : Bodies σ} {env : Env} (c : BodyCourse B env) (hfb : ∀ rec, c.WeaklyFair (Only rec)) {k n0 : Nat}
    {t : Task} {l : Label} (hlab : c.lab n0 = some (.base l)) (hin : HandsIn t l) (hk : t.taskId = k)
    (hmax : t.maximumRunningTime = none) (hno : ∀ m l, m ≠ n0 → c.lab m = some (.base l) → ¬ Touches k l)
    (hcan : ∀ m l rec, c.lab m = some (.base l) → ¬ CancelCall k rec l) (hh : Halts B (B.start t.routine)) (m1 : Nat) :
    ∃ m0, m1 ≤ m0 ∧ ∀ rec ∈ startedRecsOf k (c.st m1).base.log, ∃ es, DoesAll B (B.start t.routine) es ∧
      ∀ m, m0 ≤ m → effectsOf rec (c.st m).effects = es := by
  have hlab' : (lowered c).lab n0 = some l := by simp only [lowered, hlab, Option.bind_some, lower]
  have hno' := lowered_no_touch c hno
  have hrun : ∀ rec ∈ startedRecsOf k (c.st m1).base.log, ∃ m' es, m1 ≤ m' ∧ DoesAll B (B.start t.routine) es ∧
      ∀ j, m' ≤ j → effectsOf rec (c.st j).effects = es := by
    intro rec hrec
    obtain ⟨rtn, a, b, hs⟩ := startedRecsOf_iff.1 hrec
    obtain ⟨u, hu, hu2⟩ := C52_origin (course_run (lowered c) m1) hs
    have hut : u = t := by
      rw [handed_once (lowered c) hlab' hin hk hno' m1] at hu
      split at hu
      · cases hu
      · exact List.mem_singleton.1 hu
    subst hut hu2
    refine C84_unlimited c (hfb rec) hs hh (fun j l h => hcan j l rec h) ?_
    intro j l' u' hj hu'
    by_cases hjn : j = n0
    · subst hjn
      rw [hlab] at hj; cases hj
      rcases hin with rfl | rfl
      · simp only [broughtBy, hk, if_true, List.mem_singleton] at hu'; rw [hu']; exact hmax
      · simp only [broughtBy, hk, if_true, List.mem_singleton] at hu'; rw [hu']; exact hmax
    · exfalso
      have := hno j l' hjn hj
      revert hu'
      unfold broughtBy
      split <;> simp_all [Touches]
  generalize startedRecsOf k (c.st m1).base.log = recs at hrun ⊢
  induction recs with
  | nil => exact ⟨m1, Nat.le_refl _, fun _ h => by cases h⟩
  | cons a recs ih =>
    obtain ⟨m2, h2, h3⟩ := ih (fun rec h => hrun rec (List.mem_cons_of_mem _ h))
    obtain ⟨m3, es, h4, h5, h6⟩ := hrun a List.mem_cons_self
    refine ⟨max m2 m3, by omega, fun rec h => ?_⟩
    rcases List.mem_cons.1 h with rfl | h
    · exact ⟨es, h5, fun j hj => h6 j (by omega)⟩
    · obtain ⟨es', h7, h8⟩ := h3 rec h
      exact ⟨es', h7, fun j hj => h8 j (by omega)⟩

/-- **C84** A task that is to run `N` times is handed in, and no other call ever concerns it. It has no parallel limit
and no limit on its running time, and its body comes to its end when left to itself. Then sooner or later exactly `N`
runs of it have been started, each of them has done all that the body does, and none does any more. Nothing is assumed
about the other tasks and callers; the threads of the timer must not end, and nobody may be held up for ever. -/
theorem C84_total {B : Bodies σ} {env : Env} (c : BodyCourse B env) (hfe : c.WeaklyFair (OfThread ByEvents))
    (hfs : c.WeaklyFair (OfThread ByScheduler)) (hfb : ∀ rec, c.WeaklyFair (Only rec))
    (hl : ∀ n, ¬ Deaf env (c.st n).base) (ht : ∀ n, ¬ Spec.Gone env (c.st n).base) {k n0 N : Nat} {t : Task} {l : Label}
    (hlab : c.lab n0 = some (.base l)) (hin : HandsIn t l) (hk : t.taskId = k) (hv : t.valid = true)
    (hlim : t.maximumParallelRunnableNum = none) (hmax : t.maximumRunningTime = none)
    (hN : runsLeft t = some N) (h1 : 1 ≤ N) (ha : ∀ j, j < N → alarm j t ≠ none)
    (hno : ∀ m l, m ≠ n0 → c.lab m = some (.base l) → ¬ Touches k l)
    (hcan : ∀ m l rec, c.lab m = some (.base l) → ¬ CancelCall k rec l) (hh : Halts B (B.start t.routine)) :
    ∃ m0 recs, recs.length = N ∧ recs.Nodup ∧ (∀ m, m0 ≤ m → startedRecsOf k (c.st m).base.log = recs) ∧
      ∀ rec ∈ recs, ∃ es, DoesAll B (B.start t.routine) es ∧ ∀ m, m0 ≤ m → effectsOf rec (c.st m).effects = es := by
  have hlab' : (lowered c).lab n0 = some l := by simp only [lowered, hlab, Option.bind_some, lower]
  have hno' := lowered_no_touch c hno
  -- all runs are started
  obtain ⟨D, hD⟩ := C71_starts (lowered c) (lowered_fair c events_allowed hfe) (lowered_fair c scheduler_allowed hfs) hl ht hlab'
    hin hk hv hlim (by rw [hN]; simp; omega) (ha 0 h1) hno'
  obtain ⟨n, hn⟩ := timetable_some (clock := env.clock) (D := D) (alarms := fun j => alarm (j + 1) t) (N - 1)
    (fun j hj => ha _ (by omega))
  obtain ⟨m1, hm1⟩ := hD (N - 1) n (by rw [hN]; simp only [cut]; rw [if_pos (by omega)]; exact hn)
  have hlen : ∀ m, m1 ≤ m → (startedRecsOf k (c.st m).base.log).length = N := by
    intro m hm
    rw [recs_length]
    have hge : N - 1 < (startTicks k (c.st m).base.log).length := (List.getElem?_eq_some_iff.1 (hm1 m hm)).1
    have hin2 : n0 < m := by
      refine Classical.byContradiction fun h => ?_
      have h0 := handed_once (lowered c) hlab' hin hk hno' m
      rw [if_pos (by omega)] at h0
      obtain ⟨rec, hrec⟩ : ∃ rec, rec ∈ startedRecsOf k (c.st m).base.log := by
        cases hx : startedRecsOf k (c.st m).base.log with
        | nil => rw [← recs_length, hx] at hge; cases hge
        | cons a _ => exact ⟨a, by simp⟩
      obtain ⟨rtn, a, b, hs⟩ := startedRecsOf_iff.1 hrec
      obtain ⟨u, hu, _⟩ := C52_origin (course_run (lowered c) m) hs
      rw [h0] at hu; cases hu
    have := C04_partial (ls := (lowered c).upTo m) (s := (c.st m).base) (k := k) (t := t)
      (by rw [handed_once (lowered c) hlab' hin hk hno' m, if_neg (by omega)]) hN h1 (course_run (lowered c) m)
    omega
  have hsame : ∀ m, m1 ≤ m → startedRecsOf k (c.st m).base.log = startedRecsOf k (c.st m1).base.log := by
    intro m hm
    have hp : startedRecsOf k (c.st m1).base.log <+: startedRecsOf k (c.st m).base.log := course_recs (lowered c) k hm
    exact (hp.eq_of_length (by rw [hlen m hm, hlen m1 (Nat.le_refl _)])).symm
  -- each of them comes to its end
  obtain ⟨m0, hm0, hall⟩ := C84_started c hfb hlab hin hk hmax hno hcan hh m1
  refine ⟨m0, startedRecsOf k (c.st m1).base.log, hlen m1 (Nat.le_refl _), ?_, fun m hm => hsame m (by omega), hall⟩
  have hnd : (startedRecs (c.st m1).base.log).Nodup := (recOk (bcourse_reach c m1).base).sorted.imp fun h => h.1
  exact hnd.sublist (startedRecsOf_sublist k _)

/-- **C84** A repeating task: sooner or later as many runs as one likes have done all that the body does. -/
theorem C84_forever {B : Bodies σ} {env : Env} (c : BodyCourse B env) (hfe : c.WeaklyFair (OfThread ByEvents))
    (hfs : c.WeaklyFair (OfThread ByScheduler)) (hfb : ∀ rec, c.WeaklyFair (Only rec))
    (hl : ∀ n, ¬ Deaf env (c.st n).base) (ht : ∀ n, ¬ Spec.Gone env (c.st n).base) {k n0 : Nat} {t : Task} {l : Label}
    (hlab : c.lab n0 = some (.base l)) (hin : HandsIn t l) (hk : t.taskId = k) (hv : t.valid = true)
    (hlim : t.maximumParallelRunnableNum = none) (hmax : t.maximumRunningTime = none)
    (hrep : runsLeft t = none) (ha : ∀ j, alarm j t ≠ none)
    (hno : ∀ m l, m ≠ n0 → c.lab m = some (.base l) → ¬ Touches k l)
    (hcan : ∀ m l rec, c.lab m = some (.base l) → ¬ CancelCall k rec l) (hh : Halts B (B.start t.routine)) (i : Nat) :
    ∃ m0 recs, recs.length = i ∧ recs.Nodup ∧ (∀ m, m0 ≤ m → recs <+: startedRecsOf k (c.st m).base.log) ∧
      ∀ rec ∈ recs, ∃ es, DoesAll B (B.start t.routine) es ∧ ∀ m, m0 ≤ m → effectsOf rec (c.st m).effects = es := by
  have hlab' : (lowered c).lab n0 = some l := by simp only [lowered, hlab, Option.bind_some, lower]
  obtain ⟨m1, hm1⟩ := C71_forever (lowered c) (lowered_fair c events_allowed hfe) (lowered_fair c scheduler_allowed hfs) hl ht
    hlab' hin hk hv hlim hrep ha (lowered_no_touch c hno) i
  have hlen : i ≤ (startedRecsOf k (c.st m1).base.log).length := by
    have : i < (startTicks k (c.st m1).base.log).length := hm1 m1 (Nat.le_refl _)
    rw [recs_length]; omega
  obtain ⟨m0, hm0, hall⟩ := C84_started c hfb hlab hin hk hmax hno hcan hh m1
  have hnd : (startedRecs (c.st m1).base.log).Nodup := (recOk (bcourse_reach c m1).base).sorted.imp fun h => h.1
  refine ⟨m0, (startedRecsOf k (c.st m1).base.log).take i, by rw [List.length_take]; omega, ?_, fun m hm => ?_, fun rec hr => ?_⟩
  · exact (hnd.sublist (startedRecsOf_sublist k _)).sublist (List.take_sublist _ _)
  · exact (List.take_prefix _ _).trans (course_recs (lowered c) k (Nat.le_trans hm0 hm))
  · exact hall rec (List.mem_of_mem_take hr)

/-! ## How often something is done -/

theorem count_runs {recs : List Int} {es : List Nat} {fx : List (Int × Nat)} (hnd : recs.Nodup)
    (h' : ∀ rec ∈ recs, effectsOf rec fx = es) (e : Nat) :
    fx.countP (fun p => decide (p.1 ∈ recs) && (p.2 == e)) = recs.length * es.count e := by
  induction recs with
  | nil => simp
  | cons a recs ih =>
    have h1 := ih (List.nodup_cons.1 hnd).2 (fun rec hr => h' rec (List.mem_cons_of_mem _ hr))
    have h2 := h' a List.mem_cons_self
    have h3 : fx.countP (fun p => decide (p.1 ∈ a :: recs) && (p.2 == e)) =
        fx.countP (fun p => (p.1 == a) && (p.2 == e)) + fx.countP (fun p => decide (p.1 ∈ recs) && (p.2 == e)) := by
      have hna := (List.nodup_cons.1 hnd).1
      clear ih h1 h2 h'
      induction fx with
      | nil => simp
      | cons p fx ih =>
        simp only [List.countP_cons, ih]
        by_cases hp : p.1 = a
        · have : p.1 ∉ recs := by rw [hp]; exact hna
          simp [hp, hna]
          omega
        · simp [hp]
          omega
    have h4 : fx.countP (fun p => (p.1 == a) && (p.2 == e)) = es.count e := by
      rw [← h2]
      clear ih h1 h2 h3 h'
      induction fx with
      | nil => simp [effectsOf]
      | cons p fx ih =>
        obtain ⟨r, f⟩ := p
        by_cases hp : r = a
        · subst hp
          rw [effectsOf_self, List.count_append, List.countP_cons, ih]
          by_cases hf : f = e <;> simp [hf]
        · rw [effectsOf_other hp, List.countP_cons, ih]
          simp [hp]
    rw [h3, h4, h1, List.length_cons, Nat.add_mul]
    omega

/-- **C84** If the body always does the same, this is what is done in all: every effect `N` times as often as the body
has it. -/
theorem C84_count {B : Bodies σ} {env : Env} (c : BodyCourse B env) (hfe : c.WeaklyFair (OfThread ByEvents))
    (hfs : c.WeaklyFair (OfThread ByScheduler)) (hfb : ∀ rec, c.WeaklyFair (Only rec))
    (hl : ∀ n, ¬ Deaf env (c.st n).base) (ht : ∀ n, ¬ Spec.Gone env (c.st n).base) {k n0 N : Nat} {t : Task} {l : Label}
    (hlab : c.lab n0 = some (.base l)) (hin : HandsIn t l) (hk : t.taskId = k) (hv : t.valid = true)
    (hlim : t.maximumParallelRunnableNum = none) (hmax : t.maximumRunningTime = none)
    (hN : runsLeft t = some N) (h1 : 1 ≤ N) (ha : ∀ j, j < N → alarm j t ≠ none)
    (hno : ∀ m l, m ≠ n0 → c.lab m = some (.base l) → ¬ Touches k l)
    (hcan : ∀ m l rec, c.lab m = some (.base l) → ¬ CancelCall k rec l) (hh : Halts B (B.start t.routine))
    {es : List Nat} (hes : ∀ es', DoesAll B (B.start t.routine) es' → es' = es) :
    ∃ m0, ∀ m e, m0 ≤ m → timesDone k e (c.st m) = N * es.count e := by
  obtain ⟨m0, recs, g1, g2, g3, g4⟩ := C84_total c hfe hfs hfb hl ht hlab hin hk hv hlim hmax hN h1 ha hno hcan hh
  refine ⟨m0, fun m e hm => ?_⟩
  unfold timesDone
  rw [g3 m hm, ← g1]
  refine count_runs g2 (fun rec hr => ?_) e
  obtain ⟨es', g5, g6⟩ := g4 rec hr
  rw [g6 m hm]; exact hes _ g5

end DelayTimer
