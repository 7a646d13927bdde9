import Verif.Proofs.Ids
import Verif.Proofs.LifeFacts

/-!
# The scheduler can always finish its iteration

From every reachable state in which the scheduler thread is alive it can, on its own, get to the next
tick, provided the closures that build futures do not panic and (with overflow checks) no task with a
count of zero is around.
-/

namespace DelayTimer
open Spec

/-- Scheduler actions other than a panicking spawn. -/
def CleanT : Label → Prop
  | .tSpawn p => p = false
  | .tLoad | .tStore | .tArrive | .tPop _ | .tCheck _ | .tAppend | .tGate | .tSlot | .tMark | .tLapse => True
  | _ => False

theorem CleanT.touches {l : Label} (h : CleanT l) (k : Nat) : ¬ Touches k l := by
  cases l <;> first | exact h.elim | exact id

/-- What the scheduler leaves alone. -/
structure Kept (s s' : St) : Prop where
  chan : ∃ es, s'.chan = s.chan ++ es ∧ ∀ e ∈ es, ∃ id box, e = .appendTaskHandle id box
  epc : s'.epc = s.epc
  motivation : s'.motivation = s.motivation

theorem Kept.refl (s : St) : Kept s s := ⟨⟨[], by simp, by simp⟩, rfl, rfl⟩

theorem Kept.trans {a b c : St} (h1 : Kept a b) (h2 : Kept b c) : Kept a c := by
  obtain ⟨⟨es, h3, h4⟩, h5, h6⟩ := h1
  obtain ⟨⟨fs, h7, h8⟩, h9, h10⟩ := h2
  refine ⟨⟨es ++ fs, by rw [h7, h3, List.append_assoc], ?_⟩, h9.trans h5, h10.trans h6⟩
  intro e he
  rcases List.mem_append.1 he with h | h
  · exact h4 e h
  · exact h8 e h

/-- `s'` can be reached from `s` by the scheduler alone. -/
def Gets (env : Env) (s s' : St) : Prop :=
  ∃ ls, run env s ls = some s' ∧ (∀ l ∈ ls, CleanT l) ∧ Kept s s'

theorem Gets.refl (env : Env) (s : St) : Gets env s s := ⟨[], rfl, by simp, Kept.refl s⟩

theorem Gets.trans {env : Env} {a b c : St} (h1 : Gets env a b) (h2 : Gets env b c) : Gets env a c := by
  obtain ⟨l1, h3, h4, h5⟩ := h1
  obtain ⟨l2, h6, h7, h8⟩ := h2
  refine ⟨l1 ++ l2, by rw [run_append, h3]; exact h6, ?_, h5.trans h8⟩
  intro l hl
  rcases List.mem_append.1 hl with h | h
  · exact h4 l h
  · exact h7 l h

theorem Gets.one {env : Env} {a b : St} {l : Label} (h : step env a l = some b) (hl : CleanT l)
    (hk : Kept a b) : Gets env a b :=
  ⟨[l], by simp [run, h], by simpa using hl, hk⟩

theorem kept_of {s s' : St} (h1 : s'.chan = s.chan) (h2 : s'.epc = s.epc) (h3 : s'.motivation = s.motivation) :
    Kept s s' := ⟨⟨[], by simp [h1], by simp⟩, h2, h3⟩

theorem safe_of_off {env : Env} (h : env.overflowChecks = false) (n : Nat) (t : Task) : Safe env n t := by
  intro hx; rw [h] at hx; cases hx

theorem safe_mono {env : Env} {n m : Nat} {t : Task} (h : Safe env n t) (hm : m ≤ n) : Safe env m t :=
  fun ho => ⟨(h ho).1, (h ho).2.1, fits_mono (h ho).2.2 hm⟩

theorem safe_down {env : Env} {n : Nat} {t : Task} (h : Safe env n t) : t.downCountAndSetValid env.overflowChecks ≠ none := by
  intro hd
  unfold Task.downCountAndSetValid at hd
  split at hd
  · rename_i hf
    cases ho : env.overflowChecks
    · rw [ho] at hf
      cases hq : t.frequency <;> simp_all [FrequencyInner.downCount, decU64]
      all_goals (split at hf <;> cases hf)
    · have h1 := (h ho).1
      rw [ho] at hf
      cases hq : t.frequency <;> simp_all [FrequencyInner.downCount, decU64, runsLeft]
  · cases hd

theorem safe_again {env : Env} {n : Nat} {t t' : Task} (h : Safe env n t)
    (hd : t.downCountAndSetValid env.overflowChecks = some (true, t')) : Safe env n t' := by
  intro ho
  obtain ⟨h1, h2, h3⟩ := h ho
  obtain ⟨d1, d2, _, _, _, _, d3, _⟩ := down_runs hd
  rw [d3]
  refine ⟨?_, h2, fits_down hd h3⟩
  rcases hr : runsLeft t with _ | _ | r
  · rw [(d1 hr).2]; simp
  · exact absurd hr h1
  · obtain ⟨e1, e2⟩ := d2 r hr
    rw [e1]
    have := e2.1 rfl
    simpa using this

theorem asked_limit (t : Task) : t.getNextExecTimestamp.2.maximumRunningTime = t.maximumRunningTime := by
  unfold Task.getNextExecTimestamp; rfl

theorem safe_ask {env : Env} {n : Nat} {t : Task} (h : Safe env (n + 1) t) : Safe env n t.getNextExecTimestamp.2 := by
  intro ho
  rw [runsLeft_ask, asked_limit]
  exact ⟨(h ho).1, (h ho).2.1, fits_ask (h ho).2.2⟩

theorem limit_ok {env : Env} {s : St} {p : List Nat} {t : Task} {box : HandlerBox} (hc : ¬ Crashed env s)
    (h : s.tpc = .append p t box) : (env.overflowChecks && t.limitOverflows box.startTime) = false := by
  cases ho : env.overflowChecks
  · rfl
  · unfold Task.limitOverflows
    split
    · rfl
    · rename_i m hm
      have : ¬ 2 ^ 64 ≤ box.startTime + m := fun hx => hc ⟨ho, Or.inl ⟨p, t, box, m, h, hm, hx⟩⟩
      simp
      omega

theorem alarm_ok {env : Env} {s : St} {p : List Nat} {t : Task} {upd : Bool} (hc : ¬ Crashed env s)
    (h : s.tpc = .rearm p t upd) : (env.overflowChecks && t.alarmOverflows) = false := by
  cases ho : env.overflowChecks
  · rfl
  · by_cases hf : AlarmsFit 1 t
    · rw [alarmOverflows_iff.2 hf]; rfl
    · exact absurd ⟨ho, Or.inr ⟨p, t, upd, h, hf⟩⟩ hc

/-- The task in the hands of the scheduler. -/
def holding : TPC → Option Task
  | .check _ t => some t
  | .spawn _ t _ => some t
  | .append _ t _ => some t
  | .gate _ t _ => some t
  | .rearm _ t _ => some t
  | _ => none

/-- No task that the scheduler may come across in this iteration and the `n` after it makes it panic: a task is asked
for one alarm when it is handled. -/
structure Sound (env : Env) (n : Nat) (s : St) : Prop where
  ok : WheelOk s
  pend : PendOk s
  wheel : ∀ k i t, inWheel s.wheel k i t → Safe env n t
  due : ∀ k i t, inWheel s.wheel k i t → k ∈ pendingOf s.tpc → Safe env (n + 1) t
  held : ∀ t, holding s.tpc = some t → Safe env (n + 1) t
  free : ∀ t, holding s.tpc = some t → t.taskId ∉ pendingOf s.tpc
  alive : ¬ Crashed env s

theorem not_crashed {env : Env} {s : St} (h : ∀ p t box, s.tpc ≠ .append p t box)
    (h' : ∀ p t upd, s.tpc ≠ .rearm p t upd) : ¬ Crashed env s := by
  rintro ⟨_, ⟨p, t, box, _, hx, _⟩ | ⟨p, t, upd, hx, _⟩⟩
  · exact h p t box hx
  · exact h' p t upd hx

theorem rearm_alive {env : Env} {s : St} {n : Nat} {p : List Nat} {t : Task} {upd : Bool} (h : s.tpc = .rearm p t upd)
    (hs : Safe env (n + 1) t) : ¬ Crashed env s := by
  rintro ⟨ho, ⟨p', t', box, _, hx, _⟩ | ⟨p', t', upd', hx, hf⟩⟩
  · rw [h] at hx; cases hx
  · rw [h] at hx; cases hx
    exact hf (fits_one (hs ho).2.2)

/-- Looking at the slot begins an iteration. -/
theorem Sound.arrive {env : Env} {n : Nat} {s s' : St} (hs : Sound env (n + 1) s) (h : Act env s .tArrive s') :
    Sound env n s' := by
  obtain ⟨h1, h2, h3, h4, h5, h6, h7⟩ := hs
  have g1 := wheelOk_step h1 h
  have g2 := pendOk_step h1 h2 h
  cases h
  case arrive sl h hw =>
    have key : ∀ k i t, inWheel (set s.wheel s.secondHand (some sl.arrivalTimeTasks.2)) k i t → Safe env (n + 1) t := by
      intro k i t hi
      rw [inWheel_arrive hw] at hi
      rcases hi with ⟨_, u, hu, rfl⟩ | ⟨_, hi⟩
      · unfold Task.checkArrived
        split
        · exact h3 _ _ _ hu
        · exact (show Safe env (n + 1) u from h3 _ _ _ hu)
      · exact h3 _ _ _ hi
    exact ⟨g1, g2, fun k i t hi => safe_mono (key k i t hi) (by omega), fun k i t hi _ => key k i t hi,
      (by intro t ht; cases ht), (by intro t ht; cases ht), not_crashed (by simp) (by simp)⟩
  case arrive_missing =>
    exact ⟨g1, g2, fun k i t hi => safe_mono (h3 k i t hi) (by omega), (by intro k i t _ ht; cases ht),
      (by intro t ht; cases ht), (by intro t ht; cases ht), not_crashed (by simp) (by simp)⟩

theorem Sound.step {env : Env} {n : Nat} {s s' : St} {l : Label} (hs : Sound env n s) (hl : CleanT l)
    (hna : l ≠ .tArrive) (h : Act env s l s') : Sound env n s' := by
  obtain ⟨h1, h2, h3, h4, h5, h6, h7⟩ := hs
  have g1 := wheelOk_step h1 h
  have g2 := pendOk_step h1 h2 h
  cases h <;> try (exact hl.elim; done)
  all_goals try (exact absurd rfl hna)
  all_goals try (
    refine ⟨g1, g2, h3, ?_, ?_, ?_, not_crashed ?_ ?_⟩
    · intro k i t _ ht; cases ht; done
    · intro t ht; cases ht; done
    · intro t ht; cases ht; done
    · intro p t box hx; cases hx; done
    · intro p t box hx; cases hx; done)
  case pop_hit pending id sl t h hmem hw hr =>
    obtain ⟨h8, h9⟩ := removeTask_some hr
    have hd : ∀ x, x ∈ pending.erase id → x ∈ pending := fun x hx => List.mem_of_mem_erase hx
    rw [h] at h4
    refine ⟨g1, g2, ?_, ?_, ?_, ?_, not_crashed (by simp) (by simp)⟩
    · intro k i u hi
      dsimp only at hi
      rw [inWheel_remove hw] at hi
      exact h3 _ _ _ hi.1
    · intro k i u hi hk
      dsimp only at hi
      rw [inWheel_remove hw] at hi
      exact h4 _ _ _ hi.1 (hd k hk)
    · intro u hu
      cases hu
      exact h4 id _ _ ⟨sl, hw, h8, h9⟩ hmem
    · intro u hu
      cases hu
      unfold PendOk at h2
      rw [h] at h2
      rw [h9]
      exact (List.Nodup.not_mem_erase h2 :)
  case pop_miss pending id h hmem hw =>
    rw [h] at h4
    exact ⟨g1, g2, h3, fun k i u hi hk => h4 k i u hi (List.mem_of_mem_erase hk), (by intro t ht; cases ht),
      (by intro t ht; cases ht), not_crashed (by simp) (by simp)⟩
  case check_skip pending t rec k m h hrec hmax hf hle =>
    rw [h] at h4 h5 h6
    exact ⟨g1, g2, h3, h4, (by intro u hu; cases hu; exact h5 t rfl), (by intro u hu; cases hu; exact h6 t rfl),
      rearm_alive rfl (h5 t rfl)⟩
  case spawn pending t rec h =>
    rw [h] at h4 h5 h6
    refine ⟨g1, g2, h3, h4, (by intro u hu; cases hu; exact h5 t rfl), (by intro u hu; cases hu; exact h6 t rfl), ?_⟩
    rintro ⟨ho, ⟨p, u, box, m, hx, hm, hb⟩ | ⟨p, u, upd, hx, _⟩⟩
    · cases hx
      have := (h5 t rfl ho).2.1 m hm s.ticks
      dsimp only at hb
      omega
    · cases hx
  case gate_again pending t t' rec h hd =>
    rw [h] at h4 h5 h6
    have hsafe := safe_again (h5 t rfl) hd
    exact ⟨g1, g2, h3, h4, (by intro u hu; cases hu; exact hsafe),
      (by intro u hu; cases hu; rw [down_taskId hd]; exact h6 t rfl), rearm_alive rfl hsafe⟩
  case slot_ok pending t upd exec sl step slot h hn hstep hslot hw =>
    rw [h] at h4 h5 h6
    refine ⟨g1, g2, ?_, ?_, (by intro t ht; cases ht), (by intro t ht; cases ht), not_crashed (by simp) (by simp)⟩
    · intro k i u hi
      dsimp only at hi
      rw [inWheel_add hw] at hi
      rcases hi with ⟨_, rfl, hk⟩ | ⟨hi, _⟩
      · exact safe_ask (h5 t rfl)
      · exact h3 _ _ _ hi
    · intro k i u hi hmem
      dsimp only at hi
      rw [inWheel_add hw] at hi
      rcases hi with ⟨_, rfl, hk⟩ | ⟨hi, _⟩
      · rw [← hk] at hmem
        exact absurd hmem (h6 t rfl)
      · exact h4 _ _ _ hi hmem
  all_goals (
    rw [‹s.tpc = _›] at h4 h5 h6
    refine ⟨g1, g2, h3, ?_, ?_, ?_, not_crashed ?_ ?_⟩
    · first | exact h4 | (intro k i t _ ht; cases ht; done)
    · intro u hu; cases hu; try (exact h5 _ rfl)
    · intro u hu; cases hu; try (exact h6 _ rfl)
    · simp
    · simp)

theorem Sound.of_off {env : Env} (h : env.overflowChecks = false) (n : Nat) {s : St} (hr : Reachable env s)
    (hf : ∀ t, holding s.tpc = some t → t.taskId ∉ pendingOf s.tpc) : Sound env n s :=
  ⟨wheelOk hr, pendOk hr, fun _ _ t _ => safe_of_off h _ t, fun _ _ t _ _ => safe_of_off h _ t,
    fun t _ => safe_of_off h _ t, hf, fun ⟨hx, _⟩ => by rw [h] at hx; cases hx⟩

/-- The scheduler can finish with the task at hand: from `s` it gets to the rest `p` of the batch. -/
def Finishes (env : Env) (n : Nat) (s : St) (p : List Nat) : Prop :=
  ∃ s', Gets env s s' ∧ s'.tpc = .batch p ∧ s'.ticks = s.ticks ∧ s'.secondHand = s.secondHand ∧ Sound env n s'

/-- A step that touches neither the channel, the event thread, the motivation, the ticks nor the hand. -/
structure Same (s s' : St) : Prop where
  chan : s'.chan = s.chan
  epc : s'.epc = s.epc
  motivation : s'.motivation = s.motivation
  ticks : s'.ticks = s.ticks
  hand : s'.secondHand = s.secondHand

theorem Same.kept {s s' : St} (h : Same s s') : Kept s s' := kept_of h.chan h.epc h.motivation

theorem Finishes.last {env : Env} {n : Nat} {s s' : St} {p : List Nat} {l : Label} (hs : Sound env n s)
    (h : step env s l = some s') (hl : CleanT l) (hna : l ≠ .tArrive) (hp : s'.tpc = .batch p) (hk : Same s s') :
    Finishes env n s p :=
  ⟨s', .one h hl hk.kept, hp, hk.ticks, hk.hand, hs.step hl hna (step_act h)⟩

theorem Finishes.first {env : Env} {n : Nat} {s s' : St} {p : List Nat} {l : Label} (hs : Sound env n s)
    (h : step env s l = some s') (hl : CleanT l) (hna : l ≠ .tArrive) (hk : Kept s s') (ht : s'.ticks = s.ticks)
    (hh : s'.secondHand = s.secondHand) (hf : Sound env n s' → Finishes env n s' p) : Finishes env n s p := by
  obtain ⟨s2, h1, h2, h3, h4, h5⟩ := hf (hs.step hl hna (step_act h))
  exact ⟨s2, (Gets.one h hl hk).trans h1, h2, h3.trans ht, h4.trans hh, h5⟩

theorem finish_mark {env : Env} {n : Nat} {s : St} {p : List Nat} {id slot : Nat} {upd : Bool}
    (h : s.tpc = .mark p id slot upd) (hs : Sound env n s) : Finishes env n s p := by
  cases hf : s.flags id with
  | none =>
    exact .last (l := .tMark) (s' := { s with tpc := .batch p }) hs (by simp [step, tMark, h, hf]) trivial (by simp) rfl
      ⟨rfl, rfl, rfl, rfl, rfl⟩
  | some m =>
    obtain ⟨s1, h1⟩ : ∃ s1, step env s .tMark = some s1 := by simp [step, tMark, h, hf]
    have h2 := h1
    simp only [step, tMark, h, hf] at h2
    cases h2
    exact .last hs h1 trivial (by simp) rfl ⟨rfl, rfl, rfl, rfl, rfl⟩

theorem finish_rearm {env : Env} {n : Nat} {s : St} {p : List Nat} {t : Task} {upd : Bool}
    (h : s.tpc = .rearm p t upd) (hs : Sound env n s) : Finishes env n s p := by
  have hok := alarm_ok hs.alive h
  rcases hx : t.getNextExecTimestamp with ⟨_ | exec, t'⟩
  · exact .last (l := .tSlot) (s' := { s with tpc := .batch p }) hs (by simp only [step, tSlot, h, hok, hx]; rfl) trivial
      (by simp) rfl ⟨rfl, rfl, rfl, rfl, rfl⟩
  · cases hw : s.wheel (((checkedSub exec (env.clock s.ticks)).getD 1 + nextSecondHand s) % SLOT_COUNT) with
    | none =>
      exact .last (l := .tSlot) (s' := { s with tpc := .batch p }) hs
        (by simp only [step, tSlot, h, hok, hx, hw, Bool.false_eq_true, if_false]) trivial
        (by simp) rfl ⟨rfl, rfl, rfl, rfl, rfl⟩
    | some sl =>
      obtain ⟨s1, h1⟩ : ∃ s1, step env s .tSlot = some s1 := by
        simp only [step, tSlot, h, hok, hx, hw, Bool.false_eq_true, if_false]; exact ⟨_, rfl⟩
      have h2 := h1
      simp only [step, tSlot, h, hok, hx, hw, Bool.false_eq_true, if_false] at h2
      cases h2
      exact .first hs h1 trivial (by simp) (kept_of rfl rfl rfl) rfl rfl (finish_mark rfl)

theorem finish_gate {env : Env} {n : Nat} {s : St} {p : List Nat} {t : Task} {rec : Int}
    (h : s.tpc = .gate p t rec) (hs : Sound env n s) : Finishes env n s p := by
  rcases hx : t.downCountAndSetValid env.overflowChecks with _ | ⟨_ | _, t'⟩
  · exact absurd hx (safe_down (hs.held t (by rw [h]; rfl)))
  · obtain ⟨s1, h1⟩ : ∃ s1, step env s .tGate = some s1 := by simp [step, tGate, h, hx]
    have h2 := h1
    simp only [step, tGate, h, hx] at h2
    cases h2
    exact .last hs h1 trivial (by simp) rfl ⟨rfl, rfl, rfl, rfl, rfl⟩
  · obtain ⟨s1, h1⟩ : ∃ s1, step env s .tGate = some s1 := by simp [step, tGate, h, hx]
    have h2 := h1
    simp only [step, tGate, h, hx] at h2
    cases h2
    exact .first hs h1 trivial (by simp) (kept_of rfl rfl rfl) rfl rfl (finish_rearm rfl)

theorem finish_append {env : Env} {n : Nat} {s : St} {p : List Nat} {t : Task} {box : HandlerBox}
    (h : s.tpc = .append p t box) (hs : Sound env n s) : Finishes env n s p := by
  have h1 : step env s .tAppend = some
      { push s (.appendTaskHandle t.taskId box) with tpc := .gate p t box.recordId } := by
    simp only [step, tAppend, h, limit_ok hs.alive h, Bool.false_eq_true, if_false]
  exact .first hs h1 trivial (by simp)
    ⟨⟨[_], rfl, by intro e he; rw [List.mem_singleton] at he; exact ⟨_, _, he⟩⟩, rfl, rfl⟩ rfl rfl (finish_gate rfl)

theorem finish_spawn {env : Env} {n : Nat} {s : St} {p : List Nat} {t : Task} {rec : Int}
    (h : s.tpc = .spawn p t rec) (hs : Sound env n s) : Finishes env n s p := by
  obtain ⟨s1, h1⟩ : ∃ s1, step env s (.tSpawn false) = some s1 := by simp [step, tSpawn, h]
  have h2 := h1
  simp only [step, tSpawn, h] at h2
  cases h2
  exact .first hs h1 rfl (by simp) (kept_of rfl rfl rfl) rfl rfl (finish_append rfl)

theorem finish_check {env : Env} {n : Nat} {s : St} {p : List Nat} {t : Task}
    (h : s.tpc = .check p t) (hs : Sound env n s) : Finishes env n s p := by
  obtain ⟨rec, hlt⟩ := exists_fresh env s.recs
  cases hm : t.maximumParallelRunnableNum with
  | none =>
    have h1 : step env s (.tCheck rec) = some
        { s with recs := rec :: s.recs, tpc := .spawn p t rec } := by
      simp only [step, tCheck, h, hm, if_pos hlt]
    exact .first hs h1 trivial (by simp) (kept_of rfl rfl rfl) rfl rfl (finish_spawn rfl)
  | some m =>
    cases hf : s.flags t.taskId with
    | none =>
      have h1 : step env s (.tCheck rec) = some
          { s with recs := rec :: s.recs, tpc := .batch p } := by
        simp only [step, tCheck, h, hm, hf, if_pos hlt]
      exact .last hs h1 trivial (by simp) rfl ⟨rfl, rfl, rfl, rfl, rfl⟩
    | some mark =>
      by_cases hle : m ≤ mark.parallelRunnableNum
      · have h1 : step env s (.tCheck rec) = some
            { s with recs := rec :: s.recs, tpc := .rearm p t false,
                     log := .skipped t.taskId s.ticks :: s.log } := by
          simp only [step, tCheck, h, hm, hf, if_pos hlt, if_pos hle]
        exact .first hs h1 trivial (by simp) (kept_of rfl rfl rfl) rfl rfl (finish_rearm rfl)
      · have h1 : step env s (.tCheck rec) = some
            { s with recs := rec :: s.recs, tpc := .spawn p t rec } := by
          simp only [step, tCheck, h, hm, hf, if_pos hlt, if_neg hle]
        exact .first hs h1 trivial (by simp) (kept_of rfl rfl rfl) rfl rfl (finish_spawn rfl)

theorem finish_batch {env : Env} {n : Nat} : ∀ (m : Nat) {s : St} {p : List Nat},
    p.length = m → s.tpc = .batch p → Sound env n s → Finishes env n s [] := by
  intro m
  induction m with
  | zero =>
    intro s p hp h hs
    rw [List.length_eq_zero_iff] at hp
    subst hp
    exact ⟨s, .refl _ _, h, rfl, rfl, hs⟩
  | succ m ih =>
    intro s p hp h hs
    cases p with
    | nil => simp at hp
    | cons id rest =>
      have herase : (id :: rest).erase id = rest := by simp
      have hlen : rest.length = m := by simpa using hp
      have hmiss : step env s (.tPop id) = some { s with tpc := .batch rest } → Finishes env n s [] := fun h1 =>
        .first hs h1 trivial (by simp) (kept_of rfl rfl rfl) rfl rfl (ih hlen rfl)
      cases hw : s.wheel s.secondHand with
      | none =>
        exact hmiss (by simp only [step, tPop, h, hw, List.mem_cons, true_or, if_true, herase])
      | some sl =>
        rcases hr : sl.removeTask id with ⟨_ | t, sl'⟩
        · exact hmiss (by simp only [step, tPop, h, hw, hr, List.mem_cons, true_or, if_true, herase])
        · obtain ⟨s1, h1⟩ : ∃ s1, step env s (.tPop id) = some s1 := by simp [step, tPop, h, hw, hr]
          have h2 := h1
          simp only [step, tPop, h, hw, hr, List.mem_cons, true_or, if_true, herase] at h2
          cases h2
          refine .first hs h1 trivial (by simp) (kept_of rfl rfl rfl) rfl rfl (fun hs1 => ?_)
          obtain ⟨s2, h8, h9, h10, h11, h12⟩ := finish_check rfl hs1
          obtain ⟨s3, i1, i2, i3, i4, i5⟩ := ih hlen h9 h12
          exact ⟨s3, h8.trans i1, i2, i3.trans h10, i4.trans h11, i5⟩

/-- The scheduler can get to the next loop head. -/
def NextHead (env : Env) (n : Nat) (s : St) : Prop :=
  ∃ s', Gets env s s' ∧ s'.tpc = .head ∧ s'.ticks = s.ticks + 1 ∧ Sound env n s'

/-- From the end of the batch to the next loop head. -/
theorem finish_tick {env : Env} {n : Nat} {s : St} {p : List Nat} (h : s.tpc = .batch p) (hs : Sound env n s) :
    NextHead env n s := by
  obtain ⟨s1, h1, h2, h3, h4, h5⟩ := finish_batch p.length rfl h hs
  have h6 : step env s1 .tLapse = some
      { s1 with secondHand := (s1.secondHand + 1) % SLOT_COUNT, ticks := s1.ticks + 1, tpc := .head } := by
    simp only [step, tLapse, h2]
  exact ⟨_, h1.trans (.one h6 trivial (kept_of rfl rfl rfl)), rfl, by simp [h3],
    h5.step (l := .tLapse) trivial (by simp) (step_act h6)⟩

theorem Sound.mono {env : Env} {n m : Nat} {s : St} (h : Sound env n s) (hm : m ≤ n) : Sound env m s :=
  ⟨h.ok, h.pend, fun k i t hi => safe_mono (h.wheel k i t hi) hm,
    fun k i t hi hk => safe_mono (h.due k i t hi hk) (by omega), fun t ht => safe_mono (h.held t ht) (by omega), h.free,
    h.alive⟩

theorem finish_iteration {env : Env} {n : Nat} {s : St} (hs : Sound env (n + 1) s)
    (hm : s.motivation = true) (hh : s.tpc ≠ .halted) (hp : s.tpc ≠ .panicked) : NextHead env n s := by
  have item : ∀ {p : List Nat}, Finishes env n s p → NextHead env n s := by
    rintro p ⟨s2, h1, h2, h3, _, hs2⟩
    obtain ⟨s3, h4, h5, h6, h7⟩ := finish_tick h2 hs2
    exact ⟨s3, h1.trans h4, h5, by rw [h6, h3], h7⟩
  have arrive : ∀ {s2 : St}, Gets env s s2 → s2.tpc = .arrive → s2.ticks = s.ticks → Sound env (n + 1) s2 →
      NextHead env n s := by
    intro s2 h1 h2 h3 hs2
    have hsl := (hs2.ok.shape.1 s2.secondHand).2 hs2.ok.hand_lt
    obtain ⟨sl, hsl⟩ := Option.isSome_iff_exists.1 hsl
    obtain ⟨s3, h6⟩ : ∃ s3, step env s2 .tArrive = some s3 := by simp [step, tArrive, h2, hsl]
    have h7 := h6
    simp only [step, tArrive, h2, hsl] at h7
    cases h7
    obtain ⟨s3, i1, i2, i3, i4⟩ := finish_tick rfl (hs2.arrive (step_act h6))
    exact ⟨s3, (h1.trans (.one h6 trivial (kept_of rfl rfl rfl))).trans i1, i2, i3.trans (by simp [h3]), i4⟩
  have store : ∀ {s2 : St}, Gets env s s2 → s2.tpc = .store → s2.ticks = s.ticks → Sound env (n + 1) s2 →
      NextHead env n s := by
    intro s2 h1 h2 h3 hs2
    have h6 : step env s2 .tStore = some { s2 with globalTime := env.clock s2.ticks, tpc := .arrive } := by
      simp only [step, tStore, h2]
    exact arrive (h1.trans (.one h6 trivial (kept_of rfl rfl rfl))) rfl h3 (hs2.step (l := .tStore) trivial (by simp) (step_act h6))
  have hs0 := hs.mono (m := n) (by omega)
  cases h : s.tpc with
  | head =>
    have h6 : step env s .tLoad = some { s with tpc := .store } := by
      simp only [step, tLoad, h]; rw [if_pos hm]
    exact store (.one h6 trivial (kept_of rfl rfl rfl)) rfl rfl (hs.step (l := .tLoad) trivial (by simp) (step_act h6))
  | store => exact store (.refl _ _) h rfl hs
  | arrive => exact arrive (.refl _ _) h rfl hs
  | batch p => exact finish_tick h hs0
  | check p t => exact item (finish_check h hs0)
  | spawn p t rec => exact item (finish_spawn h hs0)
  | append p t box => exact item (finish_append h hs0)
  | gate p t rec => exact item (finish_gate h hs0)
  | rearm p t upd => exact item (finish_rearm h hs0)
  | mark p id slot upd => exact item (finish_mark h hs0)
  | halted => exact absurd h hh
  | panicked => exact absurd h hp

/-- Any number of further ticks is possible. -/
theorem finish_ticks {env : Env} (n : Nat) : ∀ {s : St}, Sound env (n + 1) s →
    s.motivation = true → s.tpc ≠ .halted → s.tpc ≠ .panicked →
    ∃ s', Gets env s s' ∧ s'.tpc = .head ∧ s'.ticks = s.ticks + (n + 1) := by
  induction n with
  | zero =>
    intro s hs hm hh hp
    obtain ⟨s1, h1, h2, h3, _⟩ := finish_iteration hs hm hh hp
    exact ⟨s1, h1, h2, h3⟩
  | succ n ih =>
    intro s hs hm hh hp
    obtain ⟨s1, h1, h2, h3, h4⟩ := finish_iteration hs hm hh hp
    obtain ⟨_, _, _, h5⟩ := id h1
    obtain ⟨s2, h6, h7, h8⟩ := ih h4 (h5.motivation.trans hm) (by rw [h2]; simp) (by rw [h2]; simp)
    exact ⟨s2, h1.trans h6, h7, by rw [h8, h3]; omega⟩

end DelayTimer
