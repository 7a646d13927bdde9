import Verif.Proofs.Marks

/-!
# The life of a task nobody touches

From a state in which a task waits for tick `D0`, and as long as no API call concerns it, its start
attempts follow the time table computed from `D0`, the clock and the task's alarms, whatever everybody
else does.
-/

namespace DelayTimer
open Spec

/-- Actions of the scheduler thread. -/
def TLabel : Label → Prop
  | .tLoad | .tStore | .tArrive | .tPop _ | .tCheck _ | .tSpawn _ | .tAppend | .tGate | .tSlot | .tMark
  | .tLapse => True
  | _ => False

theorem other_thread {env : Env} {s : St} {l : Label} {s' : St} (h : Act env s l s') (hl : ¬ TLabel l) :
    s'.tpc = s.tpc ∧ s'.ticks = s.ticks ∧ s'.secondHand = s.secondHand := by
  cases h
  all_goals try (exact absurd trivial hl)
  all_goals first | exact ⟨rfl, rfl, rfl⟩ | simp

/-- A task that is nowhere in the wheel gets there only by re-arming. -/
theorem nowhere_step {env : Env} {k : Nat} {s : St} {l : Label} {s' : St} (hq : Apart k s l)
    (hn : ∀ j u, ¬ inWheel s.wheel k j u) (h : Act env s l s') :
    (∀ j u, ¬ inWheel s'.wheel k j u) ∨ (l = .tSlot ∧ ∃ p t upd, s.tpc = .rearm p t upd ∧ t.taskId = k) := by
  cases h
  all_goals try (exact Or.inl hn)
  all_goals try (left; simpa using hn)
  case arrive sl h hw =>
    left; intro j u hj
    rw [inWheel_arrive hw] at hj
    rcases hj with ⟨_, v, hv, _⟩ | ⟨_, hj⟩
    · exact hn _ _ hv
    · exact hn _ _ hj
  case pop_hit pending id sl u h hmem hw hr =>
    left; intro j u hj
    rw [show St.wheel _ = _ from rfl, inWheel_remove hw] at hj
    exact hn _ _ hj.1
  case slot_ok pending t upd exec sl step slot h hx hstep hslot hw =>
    by_cases hk : t.taskId = k
    · exact Or.inr ⟨rfl, _, _, _, h, hk⟩
    · left; intro j u hj
      rw [show St.wheel _ = _ from rfl, inWheel_add hw] at hj
      rcases hj with ⟨_, _, hj⟩ | hj
      · exact hk hj
      · exact hn _ _ hj.1
  case recv_update u rest m sl he hc hf hw =>
    left
    have hk : u.taskId ≠ k := hq.head rfl (.updateTask u) rest hc
    intro j v hj
    rw [done_wheel, inWheel_update hw] at hj
    rcases hj with ⟨_, _, hj⟩ | hj
    · exact hk hj
    · exact hn _ _ hj.1
  case recv_advance id rest m sl u he hc hf hw hr =>
    left; intro j u hj
    rw [show St.wheel _ = _ from rfl, inWheel_remove hw] at hj
    exact hn _ _ hj.1
  case recv_remove id rest m sl he hc hf hw =>
    left; intro j u hj
    rw [show St.wheel _ = _ from rfl, inWheel_remove hw] at hj
    exact hn _ _ hj.1
  case next_add2 u chain hand exec ts seed slot sl he hseed hslot hw =>
    left
    have hk : u.taskId ≠ k := by have := hq.epc rfl; rw [he] at this; exact this
    intro j v hj
    rw [show St.wheel _ = _ from rfl, inWheel_add hw] at hj
    rcases hj with ⟨_, _, hj⟩ | hj
    · exact hk hj
    · exact hn _ _ hj.1
  case next_adv2 u hand sl he hw =>
    left
    have hk : u.taskId ≠ k := by have := hq.epc rfl; rw [he] at this; exact this
    intro j v hj
    rw [done_wheel, inWheel_add hw] at hj
    rcases hj with ⟨_, _, hj⟩ | hj
    · exact hk hj
    · exact hn _ _ hj.1

/-- `t` is what `t0` becomes when it has been asked for `m` alarms and its count-down has been
decremented `d` times. -/
structure Aged (m d : Nat) (t0 t : Task) : Prop where
  id : t.taskId = t0.taskId
  routine : t.routine = t0.routine
  limit : t.maximumParallelRunnableNum = t0.maximumParallelRunnableNum
  time : t.maximumRunningTime = t0.maximumRunningTime
  alarms : ∀ j, alarm j t = alarm (m + j) t0
  forever : runsLeft t0 = none → runsLeft t = none
  count : ∀ r, runsLeft t0 = some r → r ≠ 0 → d < r ∧ runsLeft t = some (r - d)

theorem Aged.refl (t : Task) : Aged 0 0 t t :=
  ⟨rfl, rfl, rfl, rfl, fun j => by rw [Nat.zero_add], fun h => h, fun r h hr => ⟨by omega, h⟩⟩

theorem Aged.cyl {m d : Nat} {t0 t : Task} (h : Aged m d t0 t) (c : Nat) :
    Aged m d t0 { t with cylinderLine := c } := by
  refine ⟨h.id, h.routine, h.limit, h.time, fun j => ?_, h.forever, h.count⟩
  rw [← h.alarms j]
  apply alarm_congr <;> intros <;> simp_all

theorem runsLeft_ask (t : Task) : runsLeft t.getNextExecTimestamp.2 = runsLeft t := by
  cases t with
  | mk id r f m c v p => cases f <;> rfl

theorem Aged.ask {m d : Nat} {t0 t : Task} (h : Aged m d t0 t) :
    Aged (m + 1) d t0 t.getNextExecTimestamp.2 := by
  refine ⟨h.id, h.routine, h.limit, h.time, fun j => ?_, ?_, ?_⟩
  · have := h.alarms (j + 1)
    rw [show m + 1 + j = m + (j + 1) by omega, ← this]; rfl
  · intro hn; rw [runsLeft_ask]; exact h.forever hn
  · intro r h1 h2; rw [runsLeft_ask]; exact h.count r h1 h2

theorem down_runs {oc : Bool} {t t' : Task} {b : Bool} (h : t.downCountAndSetValid oc = some (b, t')) :
    (runsLeft t = none → b = true ∧ runsLeft t' = none) ∧
    (∀ r, runsLeft t = some (r + 1) → runsLeft t' = some r ∧ (b = true ↔ r ≠ 0)) ∧
    t'.valid = b ∧ t'.taskId = t.taskId ∧ t'.routine = t.routine ∧
    t'.maximumParallelRunnableNum = t.maximumParallelRunnableNum ∧
    t'.maximumRunningTime = t.maximumRunningTime ∧ t'.cylinderLine = t.cylinderLine := by
  unfold Task.downCountAndSetValid at h
  split at h
  · contradiction
  · rename_i f hf
    cases h
    refine ⟨?_, ?_, rfl, rfl, rfl, rfl, rfl, rfl⟩
    · intro hr
      unfold runsLeft at hr ⊢
      cases hq : t.frequency <;> simp_all [FrequencyInner.downCount] <;> subst hf <;>
        simp [FrequencyInner.isDownOver]
    · intro r hr
      unfold runsLeft at hr ⊢
      cases hq : t.frequency <;> simp_all [FrequencyInner.downCount, decU64] <;> subst hf <;>
        cases r <;> simp_all [FrequencyInner.isDownOver]

theorem Aged.down {m d : Nat} {t0 t t' : Task} {oc : Bool} (h : Aged m d t0 t)
    (hd : t.downCountAndSetValid oc = some (true, t')) : Aged m (d + 1) t0 t' ∧ t'.valid = true := by
  obtain ⟨h1, h2, h3, h4, h5, h6, h7, _⟩ := down_runs hd
  refine ⟨⟨h4.trans h.id, h5.trans h.routine, h6.trans h.limit, h7.trans h.time, ?_, ?_, ?_⟩, h3⟩
  · intro j; rw [alarm_downCount oc j t t' true hd]; exact h.alarms j
  · intro hn; exact (h1 (h.forever hn)).2
  · intro r hr hr0
    obtain ⟨h8, h9⟩ := h.count r hr hr0
    obtain ⟨h10, h11⟩ := h2 (r - d - 1) (by rw [h9]; congr 1; omega)
    have := h11.1 rfl
    refine ⟨by omega, ?_⟩
    rw [h10, Nat.sub_sub]

theorem Aged.down_last {m d : Nat} {t0 t t' : Task} {oc : Bool} (h : Aged m d t0 t)
    (hd : t.downCountAndSetValid oc = some (false, t')) :
    runsLeft t0 = some (d + 1) ∨ runsLeft t0 = some 0 := by
  obtain ⟨h1, h2, _⟩ := down_runs hd
  cases hr : runsLeft t0 with
  | none => have := (h1 (h.forever hr)).1; contradiction
  | some r =>
    by_cases h0 : r = 0
    · right; rw [h0]
    · left
      obtain ⟨h8, h9⟩ := h.count r hr h0
      obtain ⟨h10, h11⟩ := h2 (r - d - 1) (by rw [h9]; congr 1; omega)
      by_cases h12 : r - d - 1 = 0
      · congr 1; omega
      · have := h11.2 h12; contradiction

theorem down_panic {oc : Bool} {t : Task} (h : t.downCountAndSetValid oc = none) : runsLeft t = some 0 := by
  unfold Task.downCountAndSetValid at h
  split at h
  · rename_i hf
    unfold runsLeft
    cases hq : t.frequency <;> simp_all [FrequencyInner.downCount, decU64]
    all_goals (split at hf <;> simp_all)
  · contradiction

/-- The scheduler holds `t`, the only copy of `k`. -/
structure Fly (k : Nat) (t : Task) (s : St) : Prop where
  tok : tpcTok k s.tpc = [t]
  notPending : k ∉ pendingOf s.tpc
  nowhere : ∀ j u, ¬ inWheel s.wheel k j u
  valid : t.valid = true

/-- How far the scheduler is with a task. -/
def FlyStage (t0 t : Task) (n : Nat) (ms ds : List Nat) : TPC → Prop
  | .check _ _ => Aged ms.length ds.length t0 t ∧ ds.Sublist ms ∧
      (t0.maximumParallelRunnableNum = none → ds = ms)
  | .spawn _ _ _ => Aged ms.length ds.length t0 t ∧ ds.Sublist ms ∧
      (t0.maximumParallelRunnableNum = none → ds = ms)
  | .append _ _ _ => ∃ ds', ds = ds' ++ [n] ∧ Aged ms.length ds'.length t0 t ∧ ds'.Sublist ms ∧
      (t0.maximumParallelRunnableNum = none → ds' = ms)
  | .gate _ _ _ => ∃ ds', ds = ds' ++ [n] ∧ Aged ms.length ds'.length t0 t ∧ ds'.Sublist ms ∧
      (t0.maximumParallelRunnableNum = none → ds' = ms)
  | .rearm _ _ _ => Aged ms.length ds.length t0 t ∧ ds.Sublist (ms ++ [n]) ∧
      (t0.maximumParallelRunnableNum = none → ds = ms ++ [n])
  | _ => False

/-- Why a task is gone. `M`: it had a mark in the beginning. -/
def Ended (M : Prop) (t0 : Task) (ns ds : List Nat) (s : St) : Prop :=
  s.tpc = .panicked ∨ (t0.maximumParallelRunnableNum ≠ none ∧ ¬ M) ∨ (∃ j, ns.length = j + 1 ∧ alarm j t0 = none ∧
    ∀ r, runsLeft t0 = some r → r ≠ 0 → ds.length < r) ∨
    runsLeft t0 = some ds.length ∨ runsLeft t0 = some 0

/-- The phases of the life of a task, with the attempts `ns` and the starts `ds` so far. -/
inductive Phase (M : Prop) (clock : Nat → Nat) (k : Nat) (t0 : Task) (D0 : Nat) (ns ds : List Nat) (s : St) : Prop
  | sched (t : Task) (D : Nat) (hs : Sched k t D s)
      (hD : timetable clock D0 (fun j => alarm j t0) ns.length = some D)
      (ha : Aged ns.length ds.length t0 t) (hsub : ds.Sublist ns)
      (hall : t0.maximumParallelRunnableNum = none → ds = ns)
  | fly (t : Task) (ms : List Nat) (hf : Fly k t s) (hns : ns = ms ++ [s.ticks])
      (hD : timetable clock D0 (fun j => alarm j t0) ms.length = some s.ticks)
      (hst : FlyStage t0 t s.ticks ms ds s.tpc)
  | gone (ht : tpcTok k s.tpc = []) (hn : ∀ j u, ¬ inWheel s.wheel k j u) (hne : ns ≠ [])
      (hsub : ds.Sublist ns)
      (hall : t0.maximumParallelRunnableNum = none → ds = ns ∨ s.tpc = .panicked)
      (he : Ended M t0 ns ds s)

structure Life (M : Prop) (clock : Nat → Nat) (k : Nat) (t0 : Task) (D0 : Nat) (A0 S0 R0 : List Nat) (s : St) : Prop where
  ex : ∃ ns ds, attempts k s.log = A0 ++ ns ∧ startTicks k s.log = S0 ++ ds ∧
    startRoutines k s.log = R0 ++ ds.map (fun _ => t0.routine) ∧
    (∀ i n, ns[i]? = some n → timetable clock D0 (fun j => alarm j t0) i = some n) ∧
    (∀ n ∈ ns, n ≤ s.ticks) ∧
    Phase M clock k t0 D0 ns ds s
  mark : M → s.flags k ≠ none

theorem ticks_mono {env : Env} {s : St} {l : Label} {s' : St} (h : Act env s l s') : s.ticks ≤ s'.ticks := by
  cases h
  all_goals first | exact Nat.le_refl _ | (simp; done) | exact Nat.le_succ _

/-- Only taking it out of the wheel puts a task into the hands of the scheduler. -/
theorem tok_step {env : Env} {k : Nat} {s : St} {l : Label} {s' : St} (ht : tpcTok k s.tpc = [])
    (h : Act env s l s') : tpcTok k s'.tpc = [] ∨ ∃ u, inWheel s.wheel k s.secondHand u := by
  by_cases hl : TLabel l
  · cases h
    all_goals try (exact False.elim hl)
    all_goals try (exact Or.inl rfl)
    all_goals try (left; simp only [‹s.tpc = _›, tpcTok] at ht ⊢; exact ht)
    case pop_hit pending id sl u h hmem hw hr =>
      obtain ⟨h1, h2⟩ := removeTask_some hr
      by_cases hk : id = k
      · exact Or.inr ⟨u, sl, hw, h1, h2.trans hk⟩
      · left; simp [tpcTok, h2, hk]
    case gate_again pending u u' rec h hd =>
      left
      rw [h] at ht; simpa [tpcTok, down_taskId hd] using ht
  · left; rw [(other_thread h hl).1]; exact ht

theorem timetable_succ {clock : Nat → Nat} {D0 n a : Nat} {al : Nat → Option Nat} {m : Nat}
    (h1 : timetable clock D0 al m = some n) (h2 : al m = some a) :
    timetable clock D0 al (m + 1) = some (rearm clock n a) := by
  simp [timetable, h1, h2]

/-- Re-arming puts the task where the time table says. -/
theorem rearm_sched {env : Env} {k : Nat} {t : Task} {s : St} {pending : List Nat} {upd : Bool}
    {exec : Nat} {sl : Slot} {step slot : Nat} (hwo : WheelOk s) (hf : Fly k t s)
    (h : s.tpc = .rearm pending t upd)
    (hstep : step = (checkedSub exec (env.clock s.ticks)).getD 1)
    (hslot : slot = (step + nextSecondHand s) % SLOT_COUNT)
    (hw : s.wheel slot = some sl) :
    Sched k t.getNextExecTimestamp.2 (rearm env.clock s.ticks exec)
      { s with
        wheel := set s.wheel slot
          (some (sl.addTask { t.getNextExecTimestamp.2 with cylinderLine := step / SLOT_COUNT }))
        tpc := .mark pending t.taskId slot upd } := by
  have hk : t.taskId = k := by
    have := hf.tok; rw [h] at this
    simp only [tpcTok] at this
    split at this
    · assumption
    · cases this
  refine ⟨hf.valid, rfl, slot, step / SLOT_COUNT, ?_, ?_, Or.inl ⟨?_, ?_⟩⟩
  · rw [show St.wheel _ = _ from rfl, inWheel_add hw]
    exact Or.inl ⟨rfl, rfl, hk⟩
  · intro j u hj
    rw [show St.wheel _ = _ from rfl, inWheel_add hw] at hj
    rcases hj with ⟨h1, h2, _⟩ | ⟨h1, _⟩
    · exact ⟨h1, h2⟩
    · exact absurd h1 (hf.nowhere _ _)
  · have := hf.notPending; rw [h] at this; exact this
  · have hh := hwo.hand
    have hb : base { s with
        wheel := set s.wheel slot
          (some (sl.addTask { t.getNextExecTimestamp.2 with cylinderLine := step / SLOT_COUNT }))
        tpc := TPC.mark pending t.taskId slot upd } = s.ticks + 1 := rfl
    rw [hb, hslot, nextSecondHand, hh]
    have : rearm env.clock s.ticks exec = s.ticks + 1 + step := by
      rw [hstep]; unfold rearm checkedSub
      split <;> simp <;> omega
    rw [this]
    unfold nextVisit
    omega

theorem tok_eq {k : Nat} {t u : Task} (h : (if u.taskId = k then [u] else []) = [t]) :
    t = u ∧ u.taskId = k := by
  split at h
  · cases h; exact ⟨rfl, ‹_›⟩
  · cases h

theorem life_step {env : Env} {M : Prop} {k : Nat} {t0 : Task} {D0 : Nat} {A0 S0 R0 : List Nat} {s : St} {l : Label}
    {s' : St} (hq : Apart k s l) (hwo : WheelOk s) (hpo : PendOk s)
    (hl : Life M env.clock k t0 D0 A0 S0 R0 s) (h : Act env s l s') :
    Life M env.clock k t0 D0 A0 S0 R0 s' := by
  refine ⟨?_, fun hM => marked_step hq.epc (hl.mark hM) h⟩
  obtain ⟨⟨ns, ds, hA, hS, hR, hT, hle, hP⟩, hmark⟩ := hl
  have hmono := ticks_mono h
  have hA' := attempts_step k h
  have hS' := starts_step k h
  have hle' : ∀ n ∈ ns, n ≤ s'.ticks := fun n hn => Nat.le_trans (hle n hn) hmono
  -- the log does not change as far as `k` is concerned
  have same : (tpcTok k s'.tpc = [] ∨ s'.tpc = s.tpc) → (tpcTok k s.tpc = [] ∨ s'.tpc = s.tpc) →
      attempts k s'.log = attempts k s.log ∧ startTicks k s'.log = startTicks k s.log ∧
      startRoutines k s'.log = startRoutines k s.log := by
    intro h1 h2
    refine ⟨?_, ?_⟩
    · rcases hA' with e | ⟨e0, p, t, e1, e2, _⟩
      · exact e
      · rcases h1 with h1 | h1
        · simp [e1, tpcTok, e2] at h1
        · subst e0
          rw [e1] at h1
          cases h <;> simp_all
    · rcases hS' with e | ⟨_, p, t, rec, box, e1, e2, e3, _⟩
      · exact e
      · rcases h2 with h2 | h2
        · simp [e1, tpcTok, e3] at h2
        · rw [e1, e2] at h2; cases h2
  cases hP with
  | sched t D hs hD ha hsub hall =>
    rcases sched_step hq hwo hpo hs h with hs' | ⟨hl, hD', hlog, htk, ⟨p, hp, htpc⟩, hno⟩
    · obtain ⟨e1, e2, e3⟩ := same (Or.inl hs'.tpc) (Or.inl hs.tpc)
      exact ⟨ns, ds, by rw [e1, hA], by rw [e2, hS], by rw [e3, hR], hT, hle',
        .sched t D hs' hD ha hsub hall⟩
    · have hid : t.taskId = k := by
        obtain ⟨i, c, h1, _⟩ := hs.place
        exact (inWheel_id h1 :)
      refine ⟨ns ++ [s.ticks], ds, ?_, ?_, ?_, ?_, ?_, ?_⟩
      · rw [hlog, hD']; simp [attempts, hA]
      · rw [hlog]; simp [startTicks, hS]
      · rw [hlog]; simp [startRoutines, hR]
      · intro i n hi
        rw [List.getElem?_append] at hi
        split at hi
        · exact hT i n hi
        · rename_i hi'
          have : i = ns.length := by
            by_cases h0 : i - ns.length = 0
            · omega
            · rw [List.getElem?_eq_none (by simp; omega)] at hi; cases hi
          rw [this] at hi ⊢
          simp at hi
          rw [hD, hD', hi]
      · intro n hn
        simp only [List.mem_append, List.mem_singleton] at hn
        rcases hn with hn | hn
        · exact hle' n hn
        · omega
      · refine .fly { t with cylinderLine := 0 } ns ⟨?_, ?_, hno, hs.valid⟩ (by rw [htk]) ?_ ?_
        · rw [htpc]; simp [tpcTok, hid]
        · rw [htpc]; exact hp
        · rw [htk, hD, hD']
        · rw [htpc]; exact ⟨ha.cyl 0, hsub, hall⟩
  | fly t ms hf hns hD hst =>
    by_cases hl : TLabel l
    · have hnw := nowhere_step hq hf.nowhere h
      have hne : ns ≠ [] := by rw [hns]; simp
      cases h
      all_goals try (exact False.elim hl)
      all_goals try (have htok := hf.tok; rw [‹s.tpc = _›] at htok; cases htok; done)
      case check_nolimit pending u rec h hrec hmax =>
        obtain ⟨rfl, hid⟩ := tok_eq (by have := hf.tok; rw [h] at this; exact this)
        have hnp := hf.notPending
        have hnw' := hf.nowhere
        rw [h] at hnp hst
        exact ⟨ns, ds, hA, hS, hR, hT, hle,
          .fly _ ms ⟨by simp [tpcTok, hid], hnp, hnw', hf.valid⟩ hns hD hst⟩
      case check_ok pending u rec lim m h hrec hmax hfl hlt =>
        obtain ⟨rfl, hid⟩ := tok_eq (by have := hf.tok; rw [h] at this; exact this)
        have hnp := hf.notPending
        have hnw' := hf.nowhere
        rw [h] at hnp hst
        exact ⟨ns, ds, hA, hS, hR, hT, hle,
          .fly _ ms ⟨by simp [tpcTok, hid], hnp, hnw', hf.valid⟩ hns hD hst⟩
      case check_nomark pending u rec lim h hrec hmax hfl =>
        obtain ⟨rfl, hid⟩ := tok_eq (by have := hf.tok; rw [h] at this; exact this)
        have hnp := hf.notPending
        have hnw' := hf.nowhere
        rw [h] at hnp hst
        obtain ⟨ha, hsub, hall⟩ := hst
        refine ⟨ns, ds, hA, hS, hR, hT, hle, .gone rfl hnw' hne ?_ ?_ (Or.inr (Or.inl ?_))⟩
        · rw [hns]; exact hsub.trans (List.sublist_append_left _ _)
        · intro hn; rw [← ha.limit, hmax] at hn; cases hn
        · refine ⟨by rw [← ha.limit, hmax]; simp, fun hM => hmark hM ?_⟩
          rw [← hid]; exact hfl
      case check_skip pending u rec lim m h hrec hmax hfl hle2 =>
        obtain ⟨rfl, hid⟩ := tok_eq (by have := hf.tok; rw [h] at this; exact this)
        have hnp := hf.notPending
        have hnw' := hf.nowhere
        rw [h] at hnp hst
        obtain ⟨ha, hsub, hall⟩ := hst
        refine ⟨ns, ds, by simpa [attempts] using hA, by simpa [startTicks] using hS,
          by simpa [startRoutines] using hR, hT, hle,
          .fly _ ms ⟨by simp [tpcTok, hid], hnp, hnw', hf.valid⟩ hns hD ⟨ha, ?_, ?_⟩⟩
        · exact hsub.trans (List.sublist_append_left _ _)
        · intro hn; rw [← ha.limit, hmax] at hn; cases hn
      case spawn_panic pending u rec h =>
        obtain ⟨rfl, hid⟩ := tok_eq (by have := hf.tok; rw [h] at this; exact this)
        have hnp := hf.notPending
        have hnw' := hf.nowhere
        rw [h] at hnp hst
        obtain ⟨ha, hsub, hall⟩ := hst
        refine ⟨ns, ds, hA, hS, hR, hT, hle, .gone rfl hnw' hne ?_ (fun _ => Or.inr rfl) (Or.inl rfl)⟩
        rw [hns]; exact hsub.trans (List.sublist_append_left _ _)
      case spawn pending u rec h =>
        obtain ⟨rfl, hid⟩ := tok_eq (by have := hf.tok; rw [h] at this; exact this)
        have hnp := hf.notPending
        have hnw' := hf.nowhere
        rw [h] at hnp hst
        obtain ⟨ha, hsub, hall⟩ := hst
        refine ⟨ns, ds ++ [s.ticks], by simpa [attempts] using hA, by simp [startTicks, hid, hS],
          by simp [startRoutines, hid, hR, ha.routine], hT, hle,
          .fly _ ms ⟨by simp [tpcTok, hid], hnp, hnw', hf.valid⟩ hns hD ⟨ds, rfl, ha, hsub, hall⟩⟩
      case append pending u box h =>
        obtain ⟨rfl, hid⟩ := tok_eq (by have := hf.tok; rw [h] at this; exact this)
        have hnp := hf.notPending
        have hnw' := hf.nowhere
        rw [h] at hnp hst
        exact ⟨ns, ds, by simpa [attempts] using hA, by simpa [startTicks] using hS,
          by simpa [startRoutines] using hR, hT, hle,
          .fly _ ms ⟨by simp [tpcTok, hid], hnp, hnw', hf.valid⟩ hns hD hst⟩
      case gate_panic pending u rec h hd =>
        obtain ⟨rfl, hid⟩ := tok_eq (by have := hf.tok; rw [h] at this; exact this)
        have hnp := hf.notPending
        have hnw' := hf.nowhere
        rw [h] at hnp hst
        obtain ⟨ds', he, ha, hsub, hall⟩ := hst
        refine ⟨ns, ds, hA, hS, hR, hT, hle, .gone rfl hnw' hne ?_ (fun _ => Or.inr rfl) (Or.inl rfl)⟩
        rw [hns, he]; exact hsub.append_right _
      case gate_again pending u u' rec h hd =>
        obtain ⟨rfl, hid⟩ := tok_eq (by have := hf.tok; rw [h] at this; exact this)
        have hnp := hf.notPending
        have hnw' := hf.nowhere
        rw [h] at hnp hst
        obtain ⟨ds', he, ha, hsub, hall⟩ := hst
        obtain ⟨ha', hv'⟩ := ha.down hd
        refine ⟨ns, ds, hA, hS, hR, hT, hle,
          .fly u' ms ⟨by simp [tpcTok, hid, down_taskId hd], hnp, hnw', hv'⟩ hns hD ⟨?_, ?_, ?_⟩⟩
        · rw [he]; simpa using ha'
        · rw [he]; exact hsub.append_right _
        · intro hn; rw [he, hall hn]
      case gate_last pending u u' rec h hd =>
        obtain ⟨rfl, hid⟩ := tok_eq (by have := hf.tok; rw [h] at this; exact this)
        have hnp := hf.notPending
        have hnw' := hf.nowhere
        rw [h] at hnp hst
        obtain ⟨ds', he, ha, hsub, hall⟩ := hst
        refine ⟨ns, ds, hA, hS, hR, hT, hle, .gone rfl hnw' hne ?_ ?_ (Or.inr (Or.inr (Or.inr ?_)))⟩
        · rw [hns, he]; exact hsub.append_right _
        · intro hn; left; rw [he, hall hn, hns]
        · rw [he]; simpa using ha.down_last hd
      case slot_none pending u upd h hx =>
        obtain ⟨rfl, hid⟩ := tok_eq (by have := hf.tok; rw [h] at this; exact this)
        have hnp := hf.notPending
        have hnw' := hf.nowhere
        rw [h] at hnp hst
        obtain ⟨ha, hsub, hall⟩ := hst
        refine ⟨ns, ds, hA, hS, hR, hT, hle, .gone rfl hnw' hne ?_ ?_ (Or.inr (Or.inr (Or.inl ⟨ms.length, by rw [hns]; simp, ?_,
          fun r hr h0 => (ha.count r hr h0).1⟩)))⟩
        · rw [hns]; exact hsub
        · intro hn; left; rw [hns]; exact hall hn
        · have := ha.alarms 0; rw [Nat.add_zero] at this; rw [← this]; exact hx
      case slot_missing pending u upd exec h hx hw =>
        exfalso
        have := (hwo.shape.1 (((checkedSub exec (env.clock s.ticks)).getD 1 + nextSecondHand s) % SLOT_COUNT)).2
          (Nat.mod_lt _ (by decide))
        rw [hw] at this; cases this
      case slot_ok pending u upd exec sl step slot h hx hstep hslot hw =>
        obtain ⟨rfl, hid⟩ := tok_eq (by have := hf.tok; rw [h] at this; exact this)
        have hnp := hf.notPending
        have hnw' := hf.nowhere
        rw [h] at hnp hst
        obtain ⟨ha, hsub, hall⟩ := hst
        have hal : alarm ms.length t0 = some exec := by
          have := ha.alarms 0; rw [Nat.add_zero] at this; rw [← this]; exact hx
        refine ⟨ns, ds, hA, hS, hR, hT, hle,
          .sched _ _ (rearm_sched (env := env) hwo hf h hstep hslot hw) ?_ ?_ ?_ ?_⟩
        · rw [hns, List.length_append]
          exact timetable_succ hD hal
        · rw [hns, List.length_append]; exact ha.ask
        · rw [hns]; exact hsub
        · rw [hns]; exact hall
    · obtain ⟨e1, e2, e3⟩ := other_thread h hl
      obtain ⟨f1, f2, f3⟩ := same (Or.inr e1) (Or.inr e1)
      refine ⟨ns, ds, by rw [f1, hA], by rw [f2, hS], by rw [f3, hR], hT, hle', ?_⟩
      refine .fly t ms ⟨by rw [e1]; exact hf.tok, by rw [e1]; exact hf.notPending, ?_, hf.valid⟩
        (by rw [e2]; exact hns) (by rw [e2]; exact hD) (by rw [e1, e2]; exact hst)
      rcases nowhere_step hq hf.nowhere h with hn | ⟨hn, _⟩
      · exact hn
      · subst hn; exact absurd trivial hl
  | gone ht hn hne hsub hall he =>
    have hn' : ∀ j u, ¬ inWheel s'.wheel k j u := by
      rcases nowhere_step hq hn h with hn' | ⟨_, p, t, upd, h1, h2⟩
      · exact hn'
      · simp [h1, tpcTok, h2] at ht
    have ht' : tpcTok k s'.tpc = [] := by
      rcases tok_step ht h with h1 | ⟨u, h1⟩
      · exact h1
      · exact absurd h1 (hn _ _)
    have hpan : s.tpc = .panicked → s'.tpc = .panicked := by
      intro hp
      by_cases hl : TLabel l
      · cases h <;> first | exact False.elim hl | simp_all
      · rw [(other_thread h hl).1]; exact hp
    obtain ⟨e1, e2, e3⟩ := same (Or.inl ht') (Or.inl ht)
    refine ⟨ns, ds, by rw [e1, hA], by rw [e2, hS], by rw [e3, hR], hT, hle', ?_⟩
    refine .gone ht' hn' hne hsub (fun h => (hall h).imp_right hpan) ?_
    rcases he with he | he
    · exact Or.inl (hpan he)
    · exact Or.inr he

theorem life_run {env : Env} {M : Prop} {k : Nat} {t0 : Task} {D0 : Nat} {A0 S0 R0 : List Nat} :
    ∀ (ls : List Label) {s s' : St}, Reachable env s → Quiet k s → Life M env.clock k t0 D0 A0 S0 R0 s →
      (∀ l ∈ ls, ¬ Touches k l) → run env s ls = some s' →
      Life M env.clock k t0 D0 A0 S0 R0 s' ∧ Quiet k s' ∧ Reachable env s' := by
  intro ls
  induction ls with
  | nil => intro s s' hr hq hl _ h; cases h; exact ⟨hl, hq, hr⟩
  | cons l ls ih =>
    intro s s' hr hq hl ht h
    simp only [run] at h
    split at h
    · rename_i s1 h1
      have ha := step_act h1
      exact ih (hr.step h1) (quiet_step hq (ht l List.mem_cons_self) ha)
        (life_step (hq.apart _) (wheelOk hr) (pendOk hr) hl ha) (fun l hl => ht l (List.mem_cons_of_mem _ hl)) h
    · cases h

theorem Sched.life {M : Prop} {clock : Nat → Nat} {k : Nat} {t : Task} {D : Nat} {s : St} {A0 S0 R0 : List Nat}
    (hs : Sched k t D s) (hM : M → s.flags k ≠ none) (hA : attempts k s.log = A0)
    (hS : startTicks k s.log = S0) (hR : startRoutines k s.log = R0) :
    Life M clock k t D A0 S0 R0 s :=
  ⟨⟨[], [], by simp [hA], by simp [hS], by simp [hR], by simp, by simp,
    .sched t D hs rfl (Aged.refl t) (List.Sublist.refl _) (fun _ => rfl)⟩, hM⟩

end DelayTimer
