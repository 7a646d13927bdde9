import Verif.Proofs.Parallel
import Verif.Proofs.Count
import Verif.Props.Rearm
import Verif.Props.Operations

/-! Properties C27–C29: the limit on parallel runs. -/

namespace DelayTimer
open Spec

/-! ### Whole executions -/

theorem low_run {env : Env} {k m : Nat} : ∀ (ls : List Label) {s s' : St}, Reachable env s → Low k m s →
    Throughout env s ls (FreshMark k) → WheneverCalled env s ls (FreshCall k) →
    (∀ t ∈ handed k ls, HasLimit m t) → run env s ls = some s' → Low k m s' := by
  intro ls
  induction ls with
  | nil => intro s s' _ h _ _ _ hr; cases hr; exact h
  | cons l ls ih =>
    intro s s' hre h hc hp hb hr
    simp only [run] at hr
    split at hr
    rotate_left
    · cases hr
    rename_i s1 h1
    simp only [handed, List.flatMap_cons, List.mem_append] at hb
    refine ih (hre.step h1)
      (low_step hre h (hp [] l ls s rfl rfl) (hc [] _ s rfl rfl) (fun t ht => hb t (Or.inl ht)) (step_act h1)) ?_ ?_
      (fun t ht => hb t (Or.inr ht)) hr
    · intro l1 l2 s2 e hr2
      exact hc (l :: l1) l2 s2 (by rw [e]; rfl) (by simp only [run, h1]; exact hr2)
    · intro l1 l' l2 s2 e hr2
      exact hp (l :: l1) l' l2 s2 (by rw [e]; rfl) (by simp only [run, h1]; exact hr2)

theorem high_run {env : Env} {k : Nat} : ∀ (ls : List Label) {s s' : St}, Reachable env s → High k s →
    Throughout env s ls (fun s => FreshMark k s ∧ CountedFirst k s ∧ ChainKept k s) → run env s ls = some s' →
    High k s' := by
  intro ls
  induction ls with
  | nil => intro s s' _ h _ hr; cases hr; exact h
  | cons l ls ih =>
    intro s s' hre h hc hr
    simp only [run] at hr
    split at hr
    rotate_left
    · cases hr
    rename_i s1 h1
    obtain ⟨c1, c2, c3⟩ := hc [] _ s rfl rfl
    refine ih (hre.step h1) (high_step hre h c1 c2 c3 (step_act h1)) ?_ hr
    intro l1 l2 s2 e hr2
    exact hc (l :: l1) l2 s2 (by rw [e]; rfl) (by simp only [run, h1]; exact hr2)

theorem freshCall_other {k : Nat} {l : Label} {s : St} (h : ¬ Brings k l) : FreshCall k l s := by
  refine ⟨fun ha => ?_, ?_⟩
  · exfalso
    apply h
    cases l <;> try (exact ha)
    rename_i op
    cases op <;> first | exact ha | exact ha.elim
  · rintro t rfl hk; exact h hk

/-- Before `k` is handed in. -/
structure Before1 (k m : Nat) (s : St) : Prop where
  nobody : Nobody k s
  virgin : Virgin k s
  adds : addsN k s = 0
  low : Low k m s

theorem before1_step {env : Env} {k m : Nat} {s : St} {l : Label} {s' : St} (hr : Reachable env s)
    (hs : Before1 k m s) (hl : ¬ Brings k l) (h : Act env s l s') : Before1 k m s' := by
  obtain ⟨h1, h2, h3, h4⟩ := hs
  have h5 := addsN_step hl h
  have hm : FreshMark k s := OnceIn.freshMark (n := 0) hr ⟨h4.lim, Or.inr h3⟩
  refine ⟨nobody_step h1 hl h, ?_, by omega, low_step hr h4 (freshCall_other hl) hm (by rw [broughtBy_nil hl]; simp) h⟩
  rcases virgin_step hr h2 h4.lim h with h6 | ⟨tag, mk, he, hk, _⟩
  · exact h6
  · simp [addsN, he, addingN, hk] at h3

theorem before1_init (env : Env) (k m : Nat) : Before1 k m (init env) :=
  ⟨Nobody.init env k, ⟨rfl, rfl, fun h => h⟩, rfl, low_init env k m⟩

theorem handIn_adds {k : Nat} {t : Task} {l : Label} (hl : HandsIn t l) (hk : t.taskId = k) :
    Adds k l ∧ broughtBy k l = [t] := by
  rcases hl with rfl | rfl <;> simp [Adds, broughtBy, hk]

theorem handIn_step {env : Env} {k m : Nat} {t : Task} {l : Label} {s s' : St} (hr : Reachable env s)
    (hl : HandsIn t l) (hk : t.taskId = k) (hm : t.maximumParallelRunnableNum = some m) (hs : Before1 k m s)
    (h : Act env s l s') : FreshCall k l s ∧ Low k m s' ∧ OnceIn k m 1 s' := by
  obtain ⟨h1, h2, h3, h4⟩ := hs
  obtain ⟨h5, h6⟩ := handIn_adds hl hk
  have hf : FreshCall k l s := by
    refine ⟨fun _ => ⟨⟨h1.unborn.absent, chanAdds_nil_iff.1 h1.chan, ?_⟩, h1.unborn.noAdv, ?_⟩, ?_⟩
    · have := h1.epc
      cases he : s.epc <;> simp [he, Adding, epcTok] at this ⊢ <;> exact this
    · rw [resting_iff hr]; simp [openRuns, h2.recs]
    · rintro u rfl
      rcases hl with hl | hl <;> cases hl
  have hmk : FreshMark k s := OnceIn.freshMark (n := 0) hr ⟨h4.lim, Or.inr h3⟩
  have hlow := low_step hr h4 hf hmk (by rw [h6]; simp [HasLimit, hm]) h
  refine ⟨hf, hlow, hlow.lim, Or.inl ⟨?_, ?_⟩⟩
  · rcases hl with rfl | rfl
    · cases h
      have h7 : (chanAdds k s.chan).length + addingN k s.epc = 0 := h3
      have h8 : ∀ e, (chanAdds k [e]).length ≤ 1 := fun e => List.length_filterMap_le _ _
      simp only [addsN, push, UserOp.event, chanAdds_append, List.length_append]
      have := h8 (TimerEvent.addTask t)
      omega
    · cases h
      have h7 : (chanAdds k s.chan).length + addingN k s.epc = 0 := h3
      have h8 : ∀ e, (chanAdds k [e]).length ≤ 1 := fun e => List.length_filterMap_le _ _
      simp only [addsN, push, uInsert, chanAdds_append, List.length_append]
      have := h8 (TimerEvent.insertTask t s.nextChain)
      omega
  · rcases virgin_step hr h2 h4.lim h with h7 | ⟨_, _, _, _, rfl⟩
    · exact h7
    · rcases hl with hl | hl <;> cases hl

theorem split_at {α : Type} {a b u v : List α} {x : α} (h : a ++ b = u ++ x :: v) :
    (∃ c, u = a ++ c ∧ b = c ++ x :: v) ∨ ∃ c, a = u ++ x :: c ∧ v = c ++ b := by
  rcases List.append_eq_append_iff.1 h with ⟨c, h1, h2⟩ | ⟨c, h1, h2⟩
  · exact Or.inl ⟨c, h1, h2⟩
  · cases c with
    | nil => exact Or.inl ⟨[], by simpa using h1.symm, by simpa using h2.symm⟩
    | cons y c =>
      simp only [List.cons_append, List.cons.injEq] at h2
      obtain ⟨rfl, rfl⟩ := h2
      exact Or.inr ⟨c, h1, rfl⟩

/-- A task that is handed in once. -/
structure OnlyOnce (k : Nat) (t : Task) (ls : List Label) : Prop where
  id : t.taskId = k
  split : ∃ ls1 l ls2, ls = ls1 ++ l :: ls2 ∧ HandsIn t l ∧ (∀ l ∈ ls1, ¬ Brings k l) ∧ ∀ l ∈ ls2, ¬ Brings k l

/-- What holds in every state of an execution that hands in `k` once. -/
theorem once_states {env : Env} {k m : Nat} {t : Task} {ls : List Label} (ho : OnlyOnce k t ls)
    (hm : t.maximumParallelRunnableNum = some m) :
    Throughout env (init env) ls (FreshMark k) ∧ WheneverCalled env (init env) ls (FreshCall k) := by
  obtain ⟨hk, ls1, l, ls2, rfl, hl, h1, h2⟩ := ho
  have hpre : ∀ a x, (∀ l ∈ a, ¬ Brings k l) → run env (init env) a = some x → Before1 k m x := by
    intro a x ha hx
    exact onward (Before1 k m) (fun l => ¬ Brings k l) (fun s l s' hr _ hs hl h => before1_step hr hs hl h) a _ x
      (Reachable.init env) ha (before1_init env k m) hx
  have hpost : ∀ c x, (∀ l ∈ c, ¬ Brings k l) → run env (init env) (ls1 ++ l :: c) = some x → OnceIn k m 1 x := by
    intro c x hc hx
    rw [run_append] at hx
    cases h3 : run env (init env) ls1 with
    | none => rw [h3] at hx; cases hx
    | some y =>
      rw [h3] at hx
      simp only [Option.bind_some, run] at hx
      split at hx
      · rename_i z hz
        have hy : Reachable env y := ⟨_, h3⟩
        have h4 := (handIn_step hy hl hk hm (hpre _ _ h1 h3) (step_act hz)).2.2
        exact onward (OnceIn k m 1) (fun l => ¬ Brings k l)
          (fun s l s' hr _ hs hl h => onceIn_step hr (Nat.le_refl 1) hs hl h) c _ x (hy.step hz) hc h4 hx
      · cases hx
  refine ⟨?_, ?_⟩
  · intro a b x e hx
    have hrx : Reachable env x := ⟨_, hx⟩
    rcases split_at e.symm with ⟨c, rfl, _⟩ | ⟨c, rfl, rfl⟩
    · have := hpre a x (fun l hl => h1 l (List.mem_append_left _ hl)) hx
      exact OnceIn.freshMark (n := 0) hrx ⟨this.low.lim, Or.inr this.adds⟩
    · exact (hpost c x (fun l hl => h2 l (List.mem_append_left _ hl)) hx).freshMark hrx
  · intro a x b y e hy
    rcases split_at e.symm with ⟨c, rfl, hb⟩ | ⟨c, rfl, hb⟩
    · cases c with
      | nil =>
        simp only [List.nil_append, List.cons.injEq] at hb
        obtain ⟨rfl, rfl⟩ := hb
        have h3 := hpre a y (fun l hl => h1 l (List.mem_append_left _ hl)) hy
        rcases hl with rfl | rfl
        · exact (handIn_step ⟨_, hy⟩ (Or.inl rfl) hk hm h3 (.usend (.add t))).1
        · exact (handIn_step ⟨_, hy⟩ (Or.inr rfl) hk hm h3 (.uinsert t)).1
      | cons z c =>
        simp only [List.cons_append, List.cons.injEq] at hb
        obtain ⟨rfl, _⟩ := hb
        exact freshCall_other (h1 x (by simp))
    · exact freshCall_other (h2 x (by rw [hb]; simp))

theorem once_handed {k : Nat} {t : Task} {ls : List Label} (ho : OnlyOnce k t ls) : handed k ls = [t] := by
  obtain ⟨hk, ls1, l, ls2, rfl, hl, h1, h2⟩ := ho
  have h0 : ∀ ls : List Label, (∀ l ∈ ls, ¬ Brings k l) → ls.flatMap (broughtBy k) = [] := by
    intro ls h
    rw [List.flatMap_eq_nil_iff]
    exact fun l hl => broughtBy_nil (h l hl)
  simp only [handed, List.flatMap_append, List.flatMap_cons, h0 ls1 h1, h0 ls2 h2, (handIn_adds hl hk).2]
  rfl

/-! ### C27 -/

/-- **C27** where the id is used afresh: if all tasks handed in under id `k` have the limit `m`, if `k` is handed
in only while it is neither scheduled nor running, never updated, and recorded while none of its runs is going
on, then at no time are more than `m` runs of `k` going on. -/
theorem C27_partial {env : Env} {k m : Nat} {ls : List Label} {s : St} (hr : run env (init env) ls = some s)
    (hm : ∀ t ∈ handed k ls, t.maximumParallelRunnableNum = some m)
    (hc : WheneverCalled env (init env) ls (FreshCall k)) (hf : Throughout env (init env) ls (FreshMark k)) :
    AtMostOngoing k m s.log :=
  (atMost_iff ⟨ls, hr⟩).2 (low_run ls (Reachable.init env) (low_init env k m) hf hc hm hr).le

/-- **C27** for an id that is handed in once: nothing else is needed; runs may end in any way and at any time, the
task may be advanced and removed. -/
theorem C27_once_partial {env : Env} {k m : Nat} {t : Task} {ls : List Label} {s : St}
    (hr : run env (init env) ls = some s) (ho : OnlyOnce k t ls) (hm : t.maximumParallelRunnableNum = some m) :
    AtMostOngoing k m s.log :=
  C27_partial hr (by rw [once_handed ho]; simp [hm]) (once_states ho hm).2 (once_states ho hm).1

/-! ### C28 -/

/-- **C28**: if the chain of `k` is not dropped, `k` is recorded only while none of its runs is going on, and
no run of `k` ends between its start and the end of the scheduler's iteration step for it, then a run of `k` is
skipped only while as many runs as the limit allows are going on. -/
theorem C28_partial {env : Env} {k m : Nat} {ls : List Label} {s s' : St} {p : List Nat} {t : Task} {rec : Int}
    (hr : run env (init env) ls = some s)
    (hc : Throughout env (init env) ls (fun s => FreshMark k s ∧ CountedFirst k s ∧ ChainKept k s))
    (hp : s.tpc = .check p t) (hk : t.taskId = k) (hm : t.maximumParallelRunnableNum = some m)
    (hs : step env s (.tCheck rec) = some s') (hskip : .skipped k s.ticks ∈ s'.log) (hnew : .skipped k s.ticks ∉ s.log) :
    AtLeastOngoing k m s.log := by
  have hre : Reachable env s := ⟨ls, hr⟩
  rw [atLeast_iff hre]
  have hh := high_run ls (Reachable.init env) (high_init env k) hc hr
  cases step_act hs with
  | check_skip pending t' _ m' mk h hrec hmax hf hle =>
    rw [hp] at h; cases h
    rw [hm] at hmax; cases hmax
    have := hh.cnt mk.parallelRunnableNum (by simp [num, ← hk, hf])
    omega
  | check_nolimit pending t' _ h hrec hmax => exact absurd hskip hnew
  | check_nomark pending t' _ m' h hrec hmax hf => exact absurd hskip hnew
  | check_ok pending t' _ m' mk h hrec hmax hf hlt => exact absurd hskip hnew

/-- **C28** as listed, with the conditions above: with a limit of at least one, when all runs of `k` have ended, the
limit does not hold back the next one: it is started. -/
theorem C28_released_partial {env : Env} {k m : Nat} {ls : List Label} {s s' : St} {p : List Nat} {t : Task} {rec : Int}
    (hr : run env (init env) ls = some s)
    (hc : Throughout env (init env) ls (fun s => FreshMark k s ∧ CountedFirst k s ∧ ChainKept k s))
    (hp : s.tpc = .check p t) (hk : t.taskId = k) (hm : t.maximumParallelRunnableNum = some m) (h1 : 1 ≤ m)
    (hq : ∀ r ∈ startedRecsOf k s.log, RunEnded k r s.log) (hkn : s.flags k ≠ none)
    (hs : step env s (.tCheck rec) = some s') : s'.tpc = .spawn p t rec ∧ s'.log = s.log := by
  have hre : Reachable env s := ⟨ls, hr⟩
  have hz : openRuns k s.log = [] := (resting_iff hre).1 (fun r h => h.2 (hq r h.1))
  have hh := high_run ls (Reachable.init env) (high_init env k) hc hr
  cases step_act hs with
  | check_skip pending t' _ m' mk h hrec hmax hf hle =>
    rw [hp] at h; cases h
    rw [hm] at hmax; cases hmax
    have := hh.cnt mk.parallelRunnableNum (by simp [num, ← hk, hf])
    rw [hz] at this
    simp at this
    omega
  | check_nolimit pending t' _ h hrec hmax => rw [hp] at h; cases h; exact ⟨rfl, rfl⟩
  | check_nomark pending t' _ m' h hrec hmax hf =>
    rw [hp] at h; cases h
    rw [hk] at hf; exact absurd hf hkn
  | check_ok pending t' _ m' mk h hrec hmax hf hlt => rw [hp] at h; cases h; exact ⟨rfl, rfl⟩

/-- **C28** for an id that is handed in once by `add_task` (so that it has no chain): only the race between the
scheduler and a quickly ending run has to be excluded. -/
theorem C28_once_partial {env : Env} {k m : Nat} {ls1 ls2 : List Label} {s s' : St} {p : List Nat} {t u : Task} {rec : Int}
    (hr : run env (init env) (ls1 ++ .uSend (.add u) :: ls2) = some s) (hu : u.taskId = k)
    (hum : u.maximumParallelRunnableNum = some m)
    (h1 : ∀ l ∈ ls1, ¬ Brings k l) (h2 : ∀ l ∈ ls2, ¬ Brings k l)
    (hc : Throughout env (init env) (ls1 ++ .uSend (.add u) :: ls2) (CountedFirst k))
    (hp : s.tpc = .check p t) (hk : t.taskId = k) (hm : t.maximumParallelRunnableNum = some m)
    (hs : step env s (.tCheck rec) = some s') (hskip : .skipped k s.ticks ∈ s'.log) (hnew : .skipped k s.ticks ∉ s.log) :
    AtLeastOngoing k m s.log := by
  have ho : OnlyOnce k u (ls1 ++ .uSend (.add u) :: ls2) := ⟨hu, ls1, _, ls2, rfl, Or.inl rfl, h1, h2⟩
  refine C28_partial hr ?_ hp hk hm hs hskip hnew
  intro a b x e hx
  refine ⟨(once_states (env := env) ho hum).1 a b x e hx, hc a b x e hx, ?_⟩
  intro mk mt hf hmt
  exfalso
  have hrx : Reachable env x := ⟨_, hx⟩
  have h3 : mts x k = some mt := mts_eq hf ▸ hmt
  obtain ⟨t', h4, h5⟩ := cause hx (dispatched_queued hrx (mem_dispatchedTags.2 ⟨_, chainOf_dispatched ((chainOk hrx).cur k mt h3)⟩))
  have h6 : Label.uInsert t' ∈ ls1 ++ .uSend (.add u) :: ls2 := by rw [e]; exact List.mem_append_left _ h4
  simp only [List.mem_append, List.mem_cons, reduceCtorEq, false_or] at h6
  rcases h6 with h6 | h6
  · exact h1 _ h6 h5
  · exact h2 _ h6 h5

/-! ### C29 -/

/-- The attempts and starts of a task with a limit. -/
theorem Life.runsOut {M : Prop} {clock : Nat → Nat} {k : Nat} {t0 : Task} {D0 : Nat} {s s' : St}
    (h : Life M clock k t0 D0 (attempts k s.log) (startTicks k s.log) (startRoutines k s.log) s') (hM : M)
    (h0 : runsLeft t0 ≠ some 0) (hp : s'.tpc ≠ .panicked) :
    RunsOut k (runsLeft t0) (timetable clock D0 (fun j => alarm j t0)) s s' := by
  obtain ⟨⟨ns, ds, hA, hS, _, hT, hle, hP⟩, _⟩ := h
  have hr0 : ∀ r, runsLeft t0 = some r → r ≠ 0 := fun r hr h => h0 (by rw [hr, h])
  refine ⟨ns, ds, hA, hS, ?_, fun i n hi => ⟨hT i n hi, hle n (List.mem_of_getElem? hi)⟩, ?_⟩
  · cases hP with
    | sched t D hs hD ha hsub hall => exact hsub
    | gone ht hn hne hsub hall hend => exact hsub
    | fly t ms hf hns hD hst =>
      rw [hns]
      revert hst
      cases s'.tpc
      all_goals simp only [FlyStage]
      all_goals try (exact False.elim)
      · rintro ⟨_, h, _⟩; exact h.trans (List.sublist_append_left _ _)
      · rintro ⟨_, h, _⟩; exact h.trans (List.sublist_append_left _ _)
      · rintro ⟨ds', rfl, ha, h, _⟩; exact h.append_right _
      · rintro ⟨ds', rfl, ha, h, _⟩; exact h.append_right _
      · rintro ⟨_, h, _⟩; exact h
  have key : (∃ D, s'.ticks ≤ D ∧ timetable clock D0 (fun j => alarm j t0) ns.length = some D) →
      ∀ i n, timetable clock D0 (fun j => alarm j t0) i = some n → n < s'.ticks → ns[i]? = some n := by
    rintro ⟨D, h1, h2⟩ i n hi hn
    have hlt : i < ns.length := by
      by_cases hlt : i < ns.length
      · exact hlt
      · exfalso
        by_cases hil : i = ns.length
        · subst hil; rw [h2] at hi; cases hi; omega
        · have := timetable_lt (show ns.length < i by omega) h2 hi; omega
    have := hT i ns[i] (List.getElem?_eq_getElem hlt)
    rw [hi] at this
    cases this
    exact List.getElem?_eq_getElem hlt
  cases hP with
  | sched t D hs hD ha hsub hall =>
    exact ⟨fun x hx => Nat.le_of_lt (ha.count x hx (hr0 x hx)).1, Or.inl (key ⟨D, hs.ticks_le, hD⟩)⟩
  | fly t ms hf hns hD hst =>
    refine ⟨?_, Or.inl fun i n hi hn => ?_⟩
    · intro x hx
      revert hst
      cases s'.tpc
      all_goals simp only [FlyStage]
      all_goals try (exact False.elim)
      · rintro ⟨ha, _⟩; exact Nat.le_of_lt (ha.count x hx (hr0 x hx)).1
      · rintro ⟨ha, _⟩; exact Nat.le_of_lt (ha.count x hx (hr0 x hx)).1
      · rintro ⟨ds', rfl, ha, _⟩; have := (ha.count x hx (hr0 x hx)).1; simp; omega
      · rintro ⟨ds', rfl, ha, _⟩; have := (ha.count x hx (hr0 x hx)).1; simp; omega
      · rintro ⟨ha, _⟩; exact Nat.le_of_lt (ha.count x hx (hr0 x hx)).1
    · have hlt : i < ms.length := by
        by_cases hlt : i < ms.length
        · exact hlt
        · exfalso
          by_cases hil : i = ms.length
          · subst hil; rw [hD] at hi; cases hi; omega
          · have := timetable_lt (show ms.length < i by omega) hD hi; omega
      have hlt' : i < ns.length := by rw [hns]; simp; omega
      have := hT i ns[i] (List.getElem?_eq_getElem hlt')
      rw [hi] at this
      cases this
      exact List.getElem?_eq_getElem hlt'
  | gone ht hn hne hsub hall hend =>
    rcases hend with h1 | ⟨_, h2⟩ | ⟨j, hj, h1, h2⟩ | h1 | h1
    · exact absurd h1 hp
    · exact absurd hM h2
    · refine ⟨fun x hx => Nat.le_of_lt (h2 x hx (hr0 x hx)), Or.inl fun i n hi hn => ?_⟩
      have hlt : i < ns.length := by
        by_cases hlt : i < ns.length
        · exact hlt
        · exfalso
          have : ∀ m n, timetable clock D0 (fun j => alarm j t0) m = some n → j < m → False := by
            intro m
            induction m with
            | zero => intro n _ h; omega
            | succ m ih =>
              intro n hm hj
              obtain ⟨n', a, h3, h4, _⟩ := timetable_prev hm
              by_cases hjm : j = m
              · subst hjm; rw [h1] at h4; cases h4
              · exact ih n' h3 (by omega)
          exact this i n hi (by omega)
      have := hT i ns[i] (List.getElem?_eq_getElem hlt)
      rw [hi] at this
      cases this
      exact List.getElem?_eq_getElem hlt
    · exact ⟨fun x hx => by rw [h1] at hx; cases hx; exact Nat.le_refl _, Or.inr h1⟩
    · exact absurd h1 h0

/-- From a run or a skipped run on, a task with a limit whose mark is kept follows its time table, and only its
starts use up its count-down. -/
theorem Spec.JustRun.runsOut {env : Env} {k : Nat} {t : Task} {s s' : St} {ls : List Label}
    (h : JustRun k t s) (hr : Reachable env s) (hf : s.flags k ≠ none) (h0 : runsLeft t ≠ some 0)
    (hl : ∀ l ∈ ls, ¬ Touches k l) (hrun : run env s ls = some s') (hp : s'.tpc ≠ .panicked) :
    RunsOut k (runsLeft t) (nextTable env.clock s.ticks t) s s' := by
  rcases h.after (M := s.flags k ≠ none) hr (fun h => h) hl hrun with ⟨h1, h2, h3⟩ | ⟨a, h1, h2⟩ | ⟨h1, h2, h3⟩
  · refine ⟨[], [], by simp [h2], by simp [h3], List.Sublist.refl _, by simp, by simp, Or.inl fun i n hi hn => ?_⟩
    have := nextTable_lt hi
    omega
  · have := h2.runsOut hf (by rw [runsLeft_ask]; exact h0) hp
    rw [runsLeft_ask] at this
    rw [show nextTable env.clock s.ticks t = timetable env.clock (rearm env.clock s.ticks a)
      (fun j => alarm j t.getNextExecTimestamp.2) from nextTable_eq h1]
    exact this
  · refine ⟨[], [], by simp [h2], by simp [h3], List.Sublist.refl _, by simp, by simp, Or.inl fun i n hi hn => ?_⟩
    have : nextTable env.clock s.ticks t i = none := by unfold nextTable; rw [h1]
    rw [hi] at this; cases this

/-- What a skip does. -/
theorem skip_step {env : Env} {k : Nat} {s s1 : St} {p : List Nat} {t : Task} {rec : Int}
    (hp : s.tpc = .check p t) (hk : t.taskId = k) (hs : step env s (.tCheck rec) = some s1) (hskip : s1.log ≠ s.log) :
    s1 = { s with recs := rec :: s.recs, tpc := .rearm p t false, log := .skipped k s.ticks :: s.log } ∧ s.flags k ≠ none := by
  cases step_act hs with
  | check_skip pending t' _ m' mk h hrec hmax hf hle =>
    rw [hp] at h; cases h
    subst hk
    exact ⟨rfl, by rw [hf]; simp⟩
  | check_nolimit pending t' _ h hrec hmax => exact absurd rfl hskip
  | check_nomark pending t' _ m' h hrec hmax hf => exact absurd rfl hskip
  | check_ok pending t' _ m' mk h hrec hmax hf hlt => exact absurd rfl hskip

/-- **C29** in every state: when the scheduler skips a run of `k`, no body is started and nothing is reported to the
event thread; and whatever the other threads do before the scheduler's next action, this puts the task back into
the wheel with all its runs left and its alarms from the next one on (unless it has no alarm any more). -/
theorem C29 {env : Env} {k : Nat} {s s1 s2 s3 : St} {p : List Nat} {t : Task} {rec : Int} {ls : List Label}
    (hr : Reachable env s) (hp : s.tpc = .check p t) (hk : t.taskId = k) (hs : step env s (.tCheck rec) = some s1)
    (hskip : .skipped k s.ticks ∈ s1.log) (hnew : .skipped k s.ticks ∉ s.log)
    (hls : ∀ l ∈ ls, ¬ TLabel l) (hrun : run env s1 ls = some s2) (hs3 : step env s2 .tSlot = some s3) :
    s1.log = .skipped k s.ticks :: s.log ∧ s1.rt = s.rt ∧ s1.chan = s.chan ∧ s1.wheel = s.wheel ∧
    s1.flags = s.flags ∧ startTicks k s3.log = startTicks k s.log ∧
    (alarm 0 t = none ∨ WaitsWith k (runsLeft t) (fun j => alarm (j + 1) t) s3) := by
  obtain ⟨rfl, hfl⟩ := skip_step hp hk hs (by intro h; rw [h] at hskip; exact hnew hskip)
  refine ⟨rfl, rfl, rfl, rfl, rfl, ?_⟩
  have hr1 := hr.step hs
  have h4 : s2.tpc = .rearm p t false ∧ startTicks k s2.log = startTicks k s.log := by
    refine onward (fun x => x.tpc = .rearm p t false ∧ startTicks k x.log = startTicks k s.log) (fun l => ¬ TLabel l)
      (fun x l x' hrx _ hx hl h => ?_) ls _ s2 hr1 hls ⟨rfl, rfl⟩ hrun
    refine ⟨(other_thread h hl).1.trans hx.1, ?_⟩
    rcases starts_step k h with ⟨e, _⟩ | ⟨e, _⟩
    · rw [e]; exact hx.2
    · subst e; exact absurd trivial hl
  have hr2 := hr1.run hrun
  cases step_act hs3 with
  | slot_none pending t' upd h hx =>
    rw [h4.1] at h; cases h
    exact ⟨h4.2, Or.inl hx⟩
  | slot_missing pending t' upd exec h hx hw =>
    exfalso
    have := ((wheelOk hr2).shape.1 (((checkedSub exec (env.clock s2.ticks)).getD 1 + nextSecondHand s2) % SLOT_COUNT)).2
      (Nat.mod_lt _ (by decide))
    rw [hw] at this; cases this
  | slot_ok pending t' upd exec sl step slot h hx hstep hslot hw =>
    rw [h4.1] at h; cases h
    refine ⟨h4.2, Or.inr ?_⟩
    obtain ⟨sl', h5, h6, h7⟩ := (inWheel_add hw { t.getNextExecTimestamp.2 with cylinderLine := step / SLOT_COUNT }
      k slot _).2 (Or.inl ⟨rfl, rfl, hk⟩)
    refine ⟨slot, sl', _, h5, h6, h7, runsLeft_ask t, fun j => ?_⟩
    exact alarm_congr j _ _ (fun _ h => h) (fun _ h => h) (fun n _ h => ⟨n, h⟩) (fun n _ h => ⟨n, h⟩)

/-- **C29** afterwards: unless an operation on `k` intervenes, from the skip on the task follows its time table
from its next alarm on, and only actual starts use up its count-down. -/
theorem C29_later {env : Env} {k : Nat} {s s1 s2 : St} {p : List Nat} {t : Task} {rec : Int} {ls : List Label}
    (hr : Reachable env s) (hp : s.tpc = .check p t) (hk : t.taskId = k) (hv : t.valid = true)
    (halone : ¬ Waiting k s) (hq : Quiet k s) (h0 : runsLeft t ≠ some 0) (hs : step env s (.tCheck rec) = some s1)
    (hskip : .skipped k s.ticks ∈ s1.log) (hnew : .skipped k s.ticks ∉ s.log)
    (hl : ∀ l ∈ ls, ¬ Touches k l) (hrun : run env s1 ls = some s2) (hpan : s2.tpc ≠ .panicked) :
    RunsOut k (runsLeft t) (nextTable env.clock s.ticks t) s s2 := by
  obtain ⟨rfl, hfl⟩ := skip_step hp hk hs (by intro h; rw [h] at hskip; exact hnew hskip)
  have hj : JustRun k t { s with recs := rec :: s.recs, tpc := .rearm p t false, log := .skipped k s.ticks :: s.log } :=
    ⟨⟨p, false, rfl⟩, hk, hv, halone, ⟨hq.chan, hq.epc⟩⟩
  exact hj.runsOut (hr.step hs) hfl h0 hl hrun hpan

/-! ### Executions -/

namespace Ex

/-- `t` with a limit. -/
def upTo (m : Nat) (t : Task) : Task := { t with maximumParallelRunnableNum := some m }

/-- An iteration that skips `id`. -/
def skip (id : Nat) (rec : Int) : List Label :=
  [.tLoad, .tStore, .tArrive, .tPop id, .tCheck rec, .tSlot, .tMark, .tLapse]

/-- The scheduler takes up the next run of `id`. -/
def take (id : Nat) : List Label := [.tLoad, .tStore, .tArrive, .tPop id]

/-- A run ends and the event thread is told. -/
def ending (rec : Int) : List Label := [.rBody rec, .rFinish rec 0, .eRecv]

/-- Task 1 with a limit of one, handed in once: one run, one skip while it goes on, its end, another run. -/
def limitedPre : List Label := add (upTo 1 (every 1 101 3)) ++ idles 2 ++ fire 1 0 ++ [.eRecv] ++ idles 2 ++ take 1
def limitedPost : List Label := [.tSlot, .tMark, .tLapse] ++ ending 0 ++ idles 2 ++ fire 1 2

def limited : List Label := limitedPre ++ [.tCheck 1] ++ limitedPost

theorem limited_once : OnlyOnce 1 (upTo 1 (every 1 101 3)) limited :=
  ⟨rfl, [], .uSend (.add (upTo 1 (every 1 101 3))), limited.drop 1, rfl, Or.inl rfl, by simp,
    fun l hl => (tame_of (List.all_eq_true.1 (by decide) l hl)).1⟩

/-- The hypotheses of `C27_once_partial` (and thereby of `C27_partial`) are met, and the limit is reached. -/
example : (run env0 (init env0) limited).isSome = true ∧ OnlyOnce 1 (upTo 1 (every 1 101 3)) limited ∧
    startTicks 1 (play env0 limited).log = [2, 8] ∧ attempts 1 (play env0 limited).log = [2, 5, 8] ∧
    openRuns 1 (play env0 limited).log = [2] :=
  ⟨by decide +kernel, limited_once, by decide +kernel, by decide +kernel, by decide +kernel⟩

def uncounted (k : Nat) : TPC → Bool
  | .append _ t _ => t.taskId == k
  | .gate _ t _ => t.taskId == k
  | .rearm _ t u => t.taskId == k && u
  | .mark _ id _ u => id == k && u
  | _ => false

def ends (k : Nat) : TimerEvent → Bool
  | .cancelTask i _ => i == k
  | .timeoutTask i _ => i == k
  | .finishTask b => b.taskId == k
  | _ => false

def countedFirst (k : Nat) (s : St) : Bool :=
  !uncounted k s.tpc || match s.chan with
    | e :: _ => !ends k e
    | [] => true

theorem countedFirst_of {k : Nat} (s : St) (h : countedFirst k s = true) : CountedFirst k s := by
  intro h1 _ e he h2
  have h3 : uncounted k s.tpc = true := by
    revert h1; cases s.tpc <;> simp +contextual [Uncounted, uncounted]
  cases hc : s.chan with
  | nil => rw [hc] at he; cases he
  | cons e' r =>
    rw [hc] at he; cases he
    have h4 : ends k e = true := by
      revert h2; cases e <;> simp [EventEnds, ends]
    simp [countedFirst, h3, hc, h4] at h

theorem limited_counted : Throughout env0 (init env0) limitedPre (CountedFirst 1) :=
  throughout_of countedFirst_of _ _ (by decide +kernel)

/-- The task as it is skipped. -/
def limitedT : Task := { upTo 1 (every 1 101 3) with frequency := .secondsRepeated ⟨105, 2, false⟩ }

/-- The hypotheses of `C28_once_partial` (and thereby of `C28_partial`) are met in the state of the skip. -/
example : limitedPre = [] ++ .uSend (.add (upTo 1 (every 1 101 3))) :: limitedPre.drop 1 ∧
    (run env0 (init env0) limitedPre).isSome = true ∧
    (∀ l ∈ limitedPre.drop 1, ¬ Brings 1 l) ∧ Throughout env0 (init env0) limitedPre (CountedFirst 1) ∧
    (play env0 limitedPre).tpc = .check [] limitedT ∧
    (∃ s', step env0 (play env0 limitedPre) (.tCheck 1) = some s' ∧
      s'.log = .skipped 1 (play env0 limitedPre).ticks :: (play env0 limitedPre).log) ∧
    .skipped 1 (play env0 limitedPre).ticks ∉ (play env0 limitedPre).log :=
  ⟨rfl, by decide +kernel, fun l hl => (tame_of (List.all_eq_true.1 (by decide) l hl)).1, limited_counted, rfl,
    ⟨_, rfl, rfl⟩, by decide +kernel⟩

/-- The same up to the next run, which is not held back. -/
def releasedPre : List Label := limitedPre ++ [.tCheck 1, .tSlot, .tMark, .tLapse] ++ ending 0 ++ idles 2 ++ take 1

/-- `C28_released_partial`: its hypotheses are met. -/
example : (run env0 (init env0) releasedPre).isSome = true ∧
    Throughout env0 (init env0) releasedPre (fun s => FreshMark 1 s ∧ CountedFirst 1 s) ∧
    (∃ t, (play env0 releasedPre).tpc = .check [] t ∧ t.taskId = 1 ∧ t.maximumParallelRunnableNum = some 1) ∧
    (∀ r ∈ startedRecsOf 1 (play env0 releasedPre).log, RunEnded 1 r (play env0 releasedPre).log) ∧
    startedRecsOf 1 (play env0 releasedPre).log = [0] ∧ (play env0 releasedPre).flags 1 ≠ none := by
  have hr : (run env0 (init env0) releasedPre).isSome = true := by decide +kernel
  have ho : OnlyOnce 1 (upTo 1 (every 1 101 3)) releasedPre :=
    ⟨rfl, [], .uSend (.add (upTo 1 (every 1 101 3))), releasedPre.drop 1, rfl, Or.inl rfl, by simp,
      fun l hl => (tame_of (List.all_eq_true.1 (by decide) l hl)).1⟩
  refine ⟨hr, ?_, ⟨_, rfl, rfl, rfl⟩, ?_, by decide +kernel, ?_⟩
  · intro a b x e hx
    exact ⟨(once_states ho rfl).1 a b x e hx,
      throughout_of (f := countedFirst 1) countedFirst_of _ _ (by decide +kernel) a b x e hx⟩
  · intro r h
    rw [show startedRecsOf 1 (play env0 releasedPre).log = [0] by decide +kernel] at h
    cases List.mem_singleton.1 h
    exact repOk (play_reachable hr) |>.ended _ _ |>.2 (by decide +kernel)
  · intro h
    have : ((play env0 releasedPre).flags 1).isSome = true := by rfl
    rw [h] at this; cases this

/-- A count-down of two with a limit of one: its second run is skipped and made up for later. -/
def countedPre : List Label := add (upTo 1 (times 2 1 101 3)) ++ idles 2 ++ fire 1 0 ++ [.eRecv] ++ idles 2 ++ take 1
def countedPost : List Label := [.tSlot, .tMark, .tLapse] ++ ending 0 ++ idles 2 ++ pop 1 2 ++ [.tLapse] ++ idles 10

def countedS : St := play env0 countedPre
def countedS1 : St := (step env0 countedS (.tCheck 1)).getD countedS
def countedS2 : St := (run env0 countedS1 countedPost).getD countedS

def countedT : Task := { upTo 1 (times 2 1 101 3) with frequency := .secondsCountDown 1 ⟨105, 2, false⟩ }

/-- `C29` and `C29_later`: their hypotheses are met. -/
example : Reachable env0 countedS ∧ countedS.tpc = .check [] countedT ∧ ¬ Waiting 1 countedS ∧ Quiet 1 countedS ∧
    runsLeft countedT = some 1 ∧ step env0 countedS (.tCheck 1) = some countedS1 ∧
    countedS1.log = .skipped 1 countedS.ticks :: countedS.log ∧ .skipped 1 countedS.ticks ∉ countedS.log ∧
    (∀ l ∈ countedPost, ¬ Touches 1 l) ∧ run env0 countedS1 countedPost = some countedS2 ∧ countedS2.tpc = .head ∧
    (∃ s3, step env0 countedS1 .tSlot = some s3) ∧
    attempts 1 countedS2.log = [2, 5, 8] ∧ startTicks 1 countedS2.log = [2, 8] := by
  have hr : Reachable env0 countedS := play_reachable (by decide +kernel)
  refine ⟨hr, rfl, not_waiting hr (by decide +kernel), ⟨?_, ?_⟩, rfl, rfl, rfl, by decide +kernel, by decide, rfl, rfl,
    ⟨_, rfl⟩, by decide +kernel, by decide +kernel⟩
  · rw [show countedS.chan = [] from rfl]; simp
  · rw [show countedS.epc = .idle from rfl]; simp [BusyWith]

end Ex

/-! ### What the code does not do -/

/-- **C27** as listed. -/
def C27_statement : Prop :=
  ∀ (env : Env) (k m : Nat) (ls : List Label) (s : St), run env (init env) ls = some s →
    (∀ t ∈ handed k ls, t.maximumParallelRunnableNum = some m) → AtMostOngoing k m s.log

namespace Ex

/-- Task 1 with a limit of one is added again while it runs. -/
def readd : List Label := add (upTo 1 (every 1 101 3)) ++ idles 2 ++ fire 1 0 ++ [.eRecv] ++
  add (upTo 1 (every 1 104 3)) ++ idles 2 ++ fire 1 1

/-- Task 1 with a limit of one is advanced, runs for the last time and is updated meanwhile. -/
def lastRun : List Label := add (upTo 1 (times 1 1 105 3)) ++ [.uSend (.advance 1), .eRecv, .eNext, .eNext] ++
  idles 1 ++ pop 1 0 ++ [.tLapse, .eRecv, .uSend (.update (upTo 1 (every 1 105 3))), .eRecv] ++ idles 4 ++ pop 1 1

end Ex

/-- **C27** does not hold for a task that is added again while it runs: the new record starts at zero. -/
theorem C27_fails_readd : ¬ C27_statement := by
  intro h
  have h1 := h Ex.env0 1 1 Ex.readd (Ex.play Ex.env0 Ex.readd) (Ex.play_run (by decide +kernel)) (by decide)
  rw [atMost_iff (Ex.play_reachable (by decide +kernel))] at h1
  exact absurd h1 (by decide +kernel)

/-- **C27** does not hold for a count-down that is updated during its last run: that run is not counted. -/
theorem C27_fails_last_run : ¬ C27_statement := by
  intro h
  have h1 := h Ex.env0 1 1 Ex.lastRun (Ex.play Ex.env0 Ex.lastRun) (Ex.play_run (by decide +kernel)) (by decide)
  rw [atMost_iff (Ex.play_reachable (by decide +kernel))] at h1
  exact absurd h1 (by decide +kernel)

/-- **C28** as listed: with a limit of at least one, when all runs of `k` have ended, the next one is not
skipped. -/
def C28_statement : Prop :=
  ∀ (env : Env) (k m : Nat) (ls : List Label) (s s' : St) (p : List Nat) (t : Task) (rec : Int),
    run env (init env) ls = some s → (∀ u ∈ handed k ls, u.maximumParallelRunnableNum = some m) → 1 ≤ m →
    s.tpc = .check p t → t.taskId = k → (∀ r ∈ startedRecsOf k s.log, RunEnded k r s.log) →
    step env s (.tCheck rec) = some s' → .skipped k s.ticks ∈ s'.log → .skipped k s.ticks ∈ s.log

namespace Ex

/-- Task 1 with a limit of one: its first run ends before the scheduler has counted it. -/
def tooQuick : List Label := add (upTo 1 (every 1 101 3)) ++ idles 2 ++ pop 1 0 ++ [.eRecv] ++ ending 0 ++
  [.tSlot, .tMark, .tLapse] ++ idles 2 ++ take 1

/-- Task 1 with a limit of one: its chain is dropped while its first run is going on. -/
def dropped : List Label := ins (upTo 1 (every 1 101 3)) ++ idles 2 ++ fire 1 0 ++ [.eRecv, .uDropChain 0] ++ ending 0 ++
  idles 2 ++ take 1

theorem C28_refute {ls : List Label} (hr : (run env0 (init env0) ls).isSome = true)
    (hh : ∀ u ∈ handed 1 ls, u.maximumParallelRunnableNum = some 1)
    {t : Task} (ht : (play env0 ls).tpc = .check [] t) (hk : t.taskId = 1)
    (he : (startedRecsOf 1 (play env0 ls).log).all (fun r => decide (.stopped 1 r ∈ (play env0 ls).log)) = true)
    (hs : (step env0 (play env0 ls) (.tCheck 9)).isSome = true)
    (h1 : .skipped 1 (play env0 ls).ticks ∈ ((step env0 (play env0 ls) (.tCheck 9)).getD (init env0)).log)
    (h2 : .skipped 1 (play env0 ls).ticks ∉ (play env0 ls).log) :
    ¬ C28_statement := by
  intro h
  obtain ⟨s', hs'⟩ := Option.isSome_iff_exists.1 hs
  rw [hs'] at h1
  refine h2 (h env0 1 1 ls _ s' [] t 9 (play_run hr) hh (Nat.le_refl 1) ht hk (fun r hr' => ?_) hs' h1)
  exact ((repOk (play_reachable hr)).ended _ _).2 (by simpa using List.all_eq_true.1 he r hr')

end Ex

/-- **C28** fails if a run ends quickly: its end is taken off the count before it is counted, so that it is counted
for ever. -/
theorem C28_fails_quick : ¬ C28_statement :=
  Ex.C28_refute (ls := Ex.tooQuick) (by decide +kernel) (by decide) rfl rfl (by decide +kernel) rfl
    (by decide +kernel) (by decide +kernel)

/-- **C28** fails if the chain is dropped while a run is going on: its end is not taken off the count. -/
theorem C28_fails_dropped : ¬ C28_statement :=
  Ex.C28_refute (ls := Ex.dropped) (by decide +kernel) (by decide) rfl rfl (by decide +kernel) rfl
    (by decide +kernel) (by decide +kernel)


end DelayTimer
