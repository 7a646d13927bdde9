import Verif.Proofs.Life

/-! Consequences of `Life`, and how a task comes to wait. -/

namespace DelayTimer
open Spec

theorem rearm_gt (clock : Nat → Nat) (n a : Nat) : n < rearm clock n a := by
  unfold rearm; split <;> omega

theorem timetable_prev {clock : Nat → Nat} {D0 : Nat} {al : Nat → Option Nat} {j n : Nat}
    (h : timetable clock D0 al (j + 1) = some n) :
    ∃ n' a, timetable clock D0 al j = some n' ∧ al j = some a ∧ n = rearm clock n' a := by
  simp only [timetable] at h
  split at h
  · rename_i n' a h1 h2; cases h; exact ⟨n', a, h1, h2, rfl⟩
  · cases h

theorem timetable_lt {clock : Nat → Nat} {D0 : Nat} {al : Nat → Option Nat} {j : Nat} :
    ∀ {i n m : Nat}, i < j → timetable clock D0 al i = some n → timetable clock D0 al j = some m → n < m := by
  induction j with
  | zero => intro i n m h; omega
  | succ j ih =>
    intro i n m h h1 h2
    obtain ⟨n', a, h3, _, h5⟩ := timetable_prev h2
    have := rearm_gt clock n' a
    by_cases hij : i = j
    · subst hij; rw [h1] at h3; cases h3; omega
    · have := ih (by omega) h1 h3; omega

theorem timetable_endless {clock : Nat → Nat} {D0 : Nat} {al : Nat → Option Nat} (h : ∀ j, (al j).isSome) :
    ∀ j, (timetable clock D0 al j).isSome := by
  intro j
  induction j with
  | zero => rfl
  | succ j ih =>
    obtain ⟨n, hn⟩ := Option.isSome_iff_exists.1 ih
    obtain ⟨a, ha⟩ := Option.isSome_iff_exists.1 (h j)
    simp [timetable, hn, ha]

theorem Life.first {M : Prop} {clock : Nat → Nat} {k : Nat} {t0 : Task} {D0 : Nat} {A0 S0 R0 : List Nat}
    {s : St} (h : Life M clock k t0 D0 A0 S0 R0 s) :
    ∃ ns, attempts k s.log = A0 ++ ns ∧ (ns = [] ∧ s.ticks ≤ D0 ∨ ns.head? = some D0 ∧ D0 ≤ s.ticks) := by
  obtain ⟨⟨ns, ds, hA, _, _, hT, hle, hP⟩, _⟩ := h
  refine ⟨ns, hA, ?_⟩
  have hd : ns ≠ [] → ns.head? = some D0 ∧ D0 ≤ s.ticks := by
    intro hne
    cases ns with
    | nil => exact absurd rfl hne
    | cons n ns =>
      have := hT 0 n rfl
      simp only [timetable] at this
      cases this; exact ⟨rfl, hle _ List.mem_cons_self⟩
  cases hP with
  | sched t D hs hD ha hsub hall =>
    by_cases hne : ns = []
    · left
      subst hne
      simp only [List.length_nil, timetable] at hD
      cases hD
      exact ⟨rfl, hs.ticks_le⟩
    · exact Or.inr (hd hne)
  | fly t ms hf hns hD hst => exact Or.inr (hd (by rw [hns]; simp))
  | gone ht hn hne hsub hall he => exact Or.inr (hd hne)

/-- The ticks of a time table that have been passed are all among the attempts, except for those beyond
the end of a count-down. -/
theorem Life.complete {M : Prop} {clock : Nat → Nat} {k : Nat} {t0 : Task} {D0 : Nat} {A0 S0 R0 : List Nat}
    {s : St} (h : Life M clock k t0 D0 A0 S0 R0 s)
    (hM : t0.maximumParallelRunnableNum = none ∨ (runsLeft t0 = none ∧ M)) (h0 : runsLeft t0 ≠ some 0)
    (hp : s.tpc ≠ .panicked) :
    ∃ ns ds, attempts k s.log = A0 ++ ns ∧ startTicks k s.log = S0 ++ ds ∧
      (∀ i n, ns[i]? = some n →
        cut (runsLeft t0) (timetable clock D0 (fun j => alarm j t0)) i = some n ∧ n ≤ s.ticks) ∧
      (∀ i n, cut (runsLeft t0) (timetable clock D0 (fun j => alarm j t0)) i = some n → n < s.ticks →
        ns[i]? = some n) ∧
      (t0.maximumParallelRunnableNum = none → ds = ns ∨ ns = ds ++ [s.ticks]) := by
  obtain ⟨⟨ns, ds, hA, hS, _, hT, hle, hP⟩, _⟩ := h
  have hcut : ∀ i n, cut (runsLeft t0) (timetable clock D0 (fun j => alarm j t0)) i = some n →
      timetable clock D0 (fun j => alarm j t0) i = some n ∧ ∀ r, runsLeft t0 = some r → i < r := by
    intro i n hi
    cases hr : runsLeft t0 with
    | none => rw [hr] at hi; exact ⟨hi, by simp⟩
    | some r =>
      rw [hr] at hi
      simp only [cut] at hi
      split at hi
      · rename_i h1; exact ⟨hi, fun r' h => by cases h; exact h1⟩
      · cases hi
  have hcut' : ∀ i n, timetable clock D0 (fun j => alarm j t0) i = some n →
      (∀ r, runsLeft t0 = some r → i < r) →
      cut (runsLeft t0) (timetable clock D0 (fun j => alarm j t0)) i = some n := by
    intro i n hi hr
    cases hr' : runsLeft t0 with
    | none => exact hi
    | some r => simp [cut, hr r hr', hi]
  have key : (∃ D, s.ticks ≤ D ∧ timetable clock D0 (fun j => alarm j t0) ns.length = some D) →
      ∀ i n, timetable clock D0 (fun j => alarm j t0) i = some n → n < s.ticks → ns[i]? = some n := by
    rintro ⟨D, h1, h2⟩ i n hi hn
    have hlt : i < ns.length := by
      by_cases hlt : i < ns.length
      · exact hlt
      · exfalso
        by_cases hil : i = ns.length
        · subst hil; rw [h2] at hi; cases hi; omega
        · have := timetable_lt (show ns.length < i by omega) h2 hi; omega
    have := hT i ns[i] (List.getElem?_eq_getElem hlt)
    rw [hi] at this
    cases this
    exact List.getElem?_eq_getElem hlt
  -- no more attempts than runs
  have hlen : (∀ r, runsLeft t0 = some r → ns.length ≤ r) → ∀ i n, ns[i]? = some n →
      cut (runsLeft t0) (timetable clock D0 (fun j => alarm j t0)) i = some n ∧ n ≤ s.ticks := by
    intro hr i n hi
    refine ⟨hcut' i n (hT i n hi) fun r h => ?_, hle n (List.mem_of_getElem? hi)⟩
    have := (List.getElem?_eq_some_iff.1 hi).1
    have := hr r h
    omega
  have hlim : ∀ r, runsLeft t0 = some r → t0.maximumParallelRunnableNum = none := by
    intro r hr
    rcases hM with h | ⟨h, _⟩
    · exact h
    · rw [h] at hr; cases hr
  refine ⟨ns, ds, hA, hS, ?_⟩
  cases hP with
  | sched t D hs hD ha hsub hall =>
    refine ⟨hlen fun r hr => ?_, fun i n hi => key ⟨D, hs.ticks_le, hD⟩ i n (hcut i n hi).1,
      fun h => Or.inl (hall h)⟩
    have := (ha.count r hr (fun h => h0 (by rw [hr, h]))).1
    rw [hall (hlim r hr)] at this
    omega
  | fly t ms hf hns hD hst =>
    have h2 : (t0.maximumParallelRunnableNum = none → ds = ns ∨ ns = ds ++ [s.ticks]) ∧
        ∀ r, runsLeft t0 = some r → ns.length ≤ r := by
      have hr0 : ∀ r, runsLeft t0 = some r → r ≠ 0 := fun r hr h => h0 (by rw [hr, h])
      revert hst
      cases s.tpc
      all_goals simp only [FlyStage]
      all_goals try (exact False.elim)
      · rintro ⟨ha, h, h'⟩
        refine ⟨fun hl => Or.inr (by rw [hns, h' hl]), fun r hr => ?_⟩
        have := (ha.count r hr (hr0 r hr)).1
        rw [h' (hlim r hr)] at this; rw [hns]; simp; omega
      · rintro ⟨ha, h, h'⟩
        refine ⟨fun hl => Or.inr (by rw [hns, h' hl]), fun r hr => ?_⟩
        have := (ha.count r hr (hr0 r hr)).1
        rw [h' (hlim r hr)] at this; rw [hns]; simp; omega
      · rintro ⟨ds', rfl, ha, h, h'⟩
        refine ⟨fun hl => Or.inl (by rw [hns, h' hl]), fun r hr => ?_⟩
        have := (ha.count r hr (hr0 r hr)).1
        rw [h' (hlim r hr)] at this; rw [hns]; simp; omega
      · rintro ⟨ds', rfl, ha, h, h'⟩
        refine ⟨fun hl => Or.inl (by rw [hns, h' hl]), fun r hr => ?_⟩
        have := (ha.count r hr (hr0 r hr)).1
        rw [h' (hlim r hr)] at this; rw [hns]; simp; omega
      · rintro ⟨ha, h, h'⟩
        refine ⟨fun hl => Or.inl (by rw [hns, h' hl]), fun r hr => ?_⟩
        have := (ha.count r hr (hr0 r hr)).1
        rw [h' (hlim r hr)] at this; rw [hns]; omega
    refine ⟨hlen h2.2, ?_, h2.1⟩
    intro i n hi hn
    replace hi := (hcut i n hi).1
    have hlt : i < ms.length := by
      by_cases hlt : i < ms.length
      · exact hlt
      · exfalso
        by_cases hil : i = ms.length
        · subst hil; rw [hD] at hi; cases hi; omega
        · have := timetable_lt (show ms.length < i by omega) hD hi; omega
    have hlt' : i < ns.length := by rw [hns]; simp; omega
    have := hT i ns[i] (List.getElem?_eq_getElem hlt')
    rw [hi] at this
    cases this
    exact List.getElem?_eq_getElem hlt'
  | gone ht hn hne hsub hall hend =>
    have hall' : t0.maximumParallelRunnableNum = none → ds = ns := fun h => (hall h).resolve_right hp
    -- past the last attempt there is no entry left
    have hstop : ∀ i n, cut (runsLeft t0) (timetable clock D0 (fun j => alarm j t0)) i = some n →
        i < ns.length := by
      intro i n hi
      obtain ⟨hi, hr⟩ := hcut i n hi
      rcases hend with h1 | ⟨h1, h2⟩ | ⟨j, hj, h1, h2⟩ | h1 | h1
      · exact absurd h1 hp
      · rcases hM with hM | ⟨_, hM⟩
        · exact absurd hM h1
        · exact absurd hM h2
      · by_cases hlt : i < ns.length
        · exact hlt
        · exfalso
          have : ∀ m n, timetable clock D0 (fun j => alarm j t0) m = some n → j < m → False := by
            intro m
            induction m with
            | zero => intro n _ h; omega
            | succ m ih =>
              intro n hm hj
              obtain ⟨n', a, h3, h4, _⟩ := timetable_prev hm
              by_cases hjm : j = m
              · subst hjm; rw [h1] at h4; cases h4
              · exact ih n' h3 (by omega)
          exact this i n hi (by omega)
      · have := hr _ h1; rw [hall' (hlim _ h1)] at this; exact this
      · exact absurd h1 h0
    refine ⟨hlen fun r hr => ?_, ?_, fun h => Or.inl (hall' h)⟩
    · rcases hend with h1 | ⟨h1, h2⟩ | ⟨j, hj, h1, h2⟩ | h1 | h1
      · exact absurd h1 hp
      · exact absurd (hlim r hr) h1
      · have := h2 r hr (fun h => h0 (by rw [hr, h]))
        rw [hall' (hlim r hr)] at this; omega
      · rw [hr, hall' (hlim r hr)] at h1; injection h1 with h1; omega
      · exact absurd h1 h0
    · intro i n hi hn
      have hlt := hstop i n hi
      have := hT i ns[i] (List.getElem?_eq_getElem hlt)
      rw [(hcut i n hi).1] at this
      cases this
      exact List.getElem?_eq_getElem hlt

/-! ### Coming to wait -/

theorem absent_iff {k : Nat} {s : St} :
    Absent k s ↔ (∀ j u, ¬ inWheel s.wheel k j u) ∧ tpcTok k s.tpc = [] ∧ k ∉ pendingOf s.tpc := by
  constructor
  · rintro ⟨h1, h2⟩
    refine ⟨fun j u ⟨sl, h⟩ => h1 ⟨j, sl, u, h⟩, ?_⟩
    cases hp : s.tpc <;> simp_all [Handling, tpcTok, pendingOf]
  · rintro ⟨h1, h2, h3⟩
    refine ⟨fun ⟨j, sl, u, h⟩ => h1 j u ⟨sl, h⟩, ?_⟩
    cases hp : s.tpc <;> simp_all [Handling, tpcTok, pendingOf]

theorem past_iff (p : TPC) : past p = false ↔ BeforeLook p := by
  cases p <;> simp [past, BeforeLook]

/-- Inserting an absent task makes it wait for the next visit of its slot, plus its revolutions. -/
theorem insert_sched {env : Env} {k : Nat} {s s1 : St} {t : Task} {chain : Option Nat}
    {hand exec ts : Nat} (hwo : WheelOk s) (he : s.epc = .add2 t chain hand exec ts) (hk : t.taskId = k)
    (hv : t.valid = true) (ha : Absent k s) (h : step env s .eNext = some s1) :
    Sched k t (nextVisit (base s) (((checkedSub exec ts).getD (k % SLOT_COUNT) + hand + 1) % SLOT_COUNT) +
      3600 * (((checkedSub exec ts).getD (k % SLOT_COUNT) + hand + 1) / SLOT_COUNT)) s1 ∧
    s1.ticks = s.ticks ∧ s1.tpc = s.tpc ∧ s1.log = s.log ∧ s1.chan = s.chan ∧ ¬ BusyWith k s1.epc := by
  obtain ⟨h1, h2, h3⟩ := absent_iff.1 ha
  have hact := step_act h
  cases hact
  all_goals try (have hx := he.symm.trans ‹s.epc = _›; cases hx; done)
  case next_add2 u ch hd ex ts' seed slot sl he' hseed hslot hw =>
    have hx := he.symm.trans he'
    cases hx
    subst hk
    refine ⟨⟨hv, h2, slot, seed / SLOT_COUNT, ?_, ?_, Or.inl ⟨h3, ?_⟩⟩, rfl, rfl, rfl, rfl, by simp [BusyWith]⟩
    · rw [show St.wheel _ = _ from rfl, inWheel_add hw]
      exact Or.inl ⟨rfl, rfl, rfl⟩
    · intro j u hj
      rw [show St.wheel _ = _ from rfl, inWheel_add hw] at hj
      rcases hj with ⟨h1, h2, _⟩ | ⟨h4, _⟩
      · exact ⟨h1, h2⟩
      · exact absurd h4 (h1 _ _)
    · show _ = nextVisit (base s) slot + 3600 * (seed / SLOT_COUNT)
      rw [hslot, hseed]
  case next_add2_missing u ch hd ex ts' seed slot he' hseed hslot hw =>
    exfalso
    have := (hwo.shape.1 slot).2 (by rw [hslot]; exact Nat.mod_lt _ (by decide))
    rw [hw] at this; cases this

end DelayTimer
