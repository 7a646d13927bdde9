import Verif.Spec.Alarm

namespace DelayTimer
open Spec

/-- `u64 as i64 as u64` is the identity. -/
theorem u64_i64_roundtrip (x : UInt64) : (x.toInt64).toUInt64 = x := by
  simp

/-- `asU64` is the `as u64` cast on every `i64`. -/
theorem asU64_cast (i : Int64) : asU64 i.toInt = i.toUInt64.toNat := by
  have h1 : i.toInt = i.toUInt64.toBitVec.toInt := rfl
  rw [h1, BitVec.toInt_eq_toNat_cond]
  have h2 := i.toUInt64.toBitVec.isLt
  have h3 : i.toUInt64.toNat = i.toUInt64.toBitVec.toNat := rfl
  rw [h3]
  unfold asU64
  split <;> omega

theorem alarm_seconds_after (n : Nat) : ∀ (k : Nat) (t : Task) (st : SecondsState),
    (t.frequency = .secondsRepeated st ∨ t.frequency = .secondsCountDown n st) →
    st.firstTake = false →
    alarm k t = some ((st.start + st.stepMinusOne + k * (st.stepMinusOne + 1)) % 2 ^ 64) := by
  intro k
  induction k with
  | zero =>
    intro t st hf hft
    rcases hf with hf | hf <;>
      simp [alarm, Task.getNextExecTimestamp, hf, FrequencyInner.nextAlarm, SecondsState.next, hft]
  | succ k ih =>
    intro t st hf hft
    simp only [alarm]
    have key : ((((st.start + st.stepMinusOne) % 2 ^ 64 + 1) % 2 ^ 64) + st.stepMinusOne + k * (st.stepMinusOne + 1)) % 2 ^ 64 =
        (st.start + st.stepMinusOne + (k + 1) * (st.stepMinusOne + 1)) % 2 ^ 64 := by
      rw [Nat.add_mul k 1]; omega
    rcases hf with hf | hf
    · rw [ih _ { st with start := ((st.start + st.stepMinusOne) % 2 ^ 64 + 1) % 2 ^ 64, firstTake := false }
        (by left; simp [Task.getNextExecTimestamp, hf, FrequencyInner.nextAlarm, SecondsState.next, hft])
        rfl]
      exact congrArg some key
    · rw [ih _ { st with start := ((st.start + st.stepMinusOne) % 2 ^ 64 + 1) % 2 ^ 64, firstTake := false }
        (by right; simp [Task.getNextExecTimestamp, hf, FrequencyInner.nextAlarm, SecondsState.next, hft])
        rfl]
      exact congrArg some key

theorem alarm_seconds_new (n x s : Nat) (hs : 0 < s) (hx : x < 2 ^ 64) (t : Task)
    (hf : t.frequency = .secondsRepeated (.new x s) ∨ t.frequency = .secondsCountDown n (.new x s)) :
    ∀ k, alarm k t = some ((x + k * s) % 2 ^ 64) := by
  intro k
  cases k with
  | zero =>
    have : x = x % 2 ^ 64 := (Nat.mod_eq_of_lt hx).symm
    rcases hf with hf | hf <;>
      simp [alarm, Task.getNextExecTimestamp, hf, FrequencyInner.nextAlarm, SecondsState.next,
        SecondsState.new] <;> exact this
  | succ k =>
    simp only [alarm]
    have key : ((x + 1) % 2 ^ 64 + (s - 1) + k * (s - 1 + 1)) % 2 ^ 64 = (x + (k + 1) * s) % 2 ^ 64 := by
      have : s - 1 + 1 = s := by omega
      rw [this, Nat.add_mul]; omega
    rcases hf with hf | hf
    · rw [alarm_seconds_after n k _ { start := (x + 1) % 2 ^ 64, stepMinusOne := s - 1, firstTake := false }
        (by left; simp [Task.getNextExecTimestamp, hf, FrequencyInner.nextAlarm, SecondsState.next,
              SecondsState.new]) rfl]
      exact congrArg some key
    · rw [alarm_seconds_after n k _ { start := (x + 1) % 2 ^ 64, stepMinusOne := s - 1, firstTake := false }
        (by right; simp [Task.getNextExecTimestamp, hf, FrequencyInner.nextAlarm, SecondsState.next,
              SecondsState.new]) rfl]
      exact congrArg some key

/-! ## Alarms that fit -/

theorem alarmOverflows_iff {t : Task} : t.alarmOverflows = false ↔ AlarmsFit 1 t := by
  unfold Task.alarmOverflows AlarmsFit plainAlarm
  cases t.frequency <;> simp [SecondsState.overflows]
  all_goals omega

theorem plain_ask {t : Task} (h : AlarmsFit 1 t) (j : Nat) : plainAlarm j t.getNextExecTimestamp.2 = plainAlarm (j + 1) t := by
  have h0 := h 0 (by omega)
  have key : ∀ st : SecondsState, (if st.firstTake then st.start else st.start + st.stepMinusOne) + 1 < 2 ^ 64 →
      (if st.next.2.firstTake then st.next.2.start else st.next.2.start + st.next.2.stepMinusOne) +
        j * (st.next.2.stepMinusOne + 1) =
      (if st.firstTake then st.start else st.start + st.stepMinusOne) + (j + 1) * (st.stepMinusOne + 1) := by
    intro st hs
    rw [Nat.add_mul j 1]
    simp only [SecondsState.next]
    split at hs
    · rename_i hf; simp only [hf, if_true, Bool.false_eq_true, if_false]; omega
    · rename_i hf; simp only [hf, if_false, Bool.false_eq_true]; omega
  unfold plainAlarm at *
  simp only [Task.getNextExecTimestamp]
  cases hf : t.frequency <;> simp only [hf, FrequencyInner.nextAlarm] at *
  · exact congrArg some (key _ (by simpa using h0 _ rfl))
  · exact congrArg some (key _ (by simpa using h0 _ rfl))

theorem fits_one {n : Nat} {t : Task} (h : AlarmsFit (n + 1) t) : AlarmsFit 1 t := fun j hj => h j (by omega)

theorem fits_ask {n : Nat} {t : Task} (h : AlarmsFit (n + 1) t) : AlarmsFit n t.getNextExecTimestamp.2 := by
  intro j hj a ha
  rw [plain_ask (fits_one h)] at ha
  exact h (j + 1) (by omega) a ha

theorem fits_mono {n m : Nat} {t : Task} (h : AlarmsFit n t) (hm : m ≤ n) : AlarmsFit m t := fun j hj => h j (by omega)

theorem plain_down {oc b : Bool} {t t' : Task} (h : t.downCountAndSetValid oc = some (b, t')) (j : Nat) :
    plainAlarm j t' = plainAlarm j t := by
  unfold Task.downCountAndSetValid at h
  split at h
  · cases h
  · rename_i f hd
    cases h
    unfold plainAlarm
    cases hf : t.frequency <;> simp_all [FrequencyInner.downCount]
    all_goals
      try (obtain ⟨a, _, rfl⟩ := hd; rfl)
      try (subst hd; rfl)

theorem fits_down {n : Nat} {oc b : Bool} {t t' : Task} (h : t.downCountAndSetValid oc = some (b, t')) (hf : AlarmsFit n t) :
    AlarmsFit n t' := by
  intro j hj a ha
  rw [plain_down h] at ha
  exact hf j hj a ha

/-- As long as they fit, the alarms are the plain ones. -/
theorem alarm_plain : ∀ (j : Nat) (t : Task) (a : Nat), AlarmsFit (j + 1) t → plainAlarm j t = some a → alarm j t = some a := by
  intro j
  induction j with
  | zero =>
    intro t a h ha
    have h0 := h 0 (by omega) a ha
    simp only [alarm, Task.getNextExecTimestamp]
    unfold plainAlarm at ha
    cases hf : t.frequency <;> simp [hf] at ha <;> subst ha <;>
      simp only [FrequencyInner.nextAlarm, SecondsState.next, Option.some.injEq]
    all_goals (split <;> simp_all; try omega)
  | succ j ih =>
    intro t a h ha
    exact ih _ a (fits_ask h) (by rw [plain_ask (fits_one h)]; exact ha)

/-- Alarms depend on the iterator only, not on the remaining count. -/
theorem alarm_congr : ∀ (k : Nat) (t t' : Task),
    (∀ st, t.frequency = .secondsRepeated st → t'.frequency = .secondsRepeated st) →
    (∀ c, t.frequency = .cronRepeated c → t'.frequency = .cronRepeated c) →
    (∀ n st, t.frequency = .secondsCountDown n st → ∃ m, t'.frequency = .secondsCountDown m st) →
    (∀ n c, t.frequency = .cronCountDown n c → ∃ m, t'.frequency = .cronCountDown m c) →
    alarm k t = alarm k t' := by
  intro k
  induction k with
  | zero =>
    intro t t' h1 h2 h3 h4
    cases hf : t.frequency with
    | secondsRepeated st =>
      simp [alarm, Task.getNextExecTimestamp, hf, h1 st hf]
    | cronRepeated c => simp [alarm, Task.getNextExecTimestamp, hf, h2 c hf]
    | secondsCountDown n st =>
      obtain ⟨m, hm⟩ := h3 n st hf
      simp [alarm, Task.getNextExecTimestamp, hf, hm, FrequencyInner.nextAlarm]
    | cronCountDown n c =>
      obtain ⟨m, hm⟩ := h4 n c hf
      simp [alarm, Task.getNextExecTimestamp, hf, hm, FrequencyInner.nextAlarm]
  | succ k ih =>
    intro t t' h1 h2 h3 h4
    simp only [alarm]
    apply ih <;> cases hf : t.frequency with
    | secondsRepeated st =>
      simp [Task.getNextExecTimestamp, hf, h1 st hf, FrequencyInner.nextAlarm]
    | cronRepeated c => simp [Task.getNextExecTimestamp, hf, h2 c hf, FrequencyInner.nextAlarm]
    | secondsCountDown n st =>
      obtain ⟨m, hm⟩ := h3 n st hf
      simp [Task.getNextExecTimestamp, hf, hm, FrequencyInner.nextAlarm]
    | cronCountDown n c =>
      obtain ⟨m, hm⟩ := h4 n c hf
      simp [Task.getNextExecTimestamp, hf, hm, FrequencyInner.nextAlarm]

theorem alarm_downCount (oc : Bool) (k : Nat) (t t' : Task) (b : Bool)
    (h : t.downCountAndSetValid oc = some (b, t')) : alarm k t' = alarm k t := by
  unfold Task.downCountAndSetValid at h
  symm
  split at h
  · contradiction
  · rename_i f hd
    cases h
    apply alarm_congr
    all_goals
      intros
      simp_all [FrequencyInner.downCount]
      try (obtain ⟨a, _, rfl⟩ := hd; simp)
      try (subst hd; simp)

theorem alarm_downs (oc : Bool) (k : Nat) : ∀ (c : Nat) (t t' : Task), downs oc c t = some t' →
    alarm k t' = alarm k t := by
  intro c
  induction c with
  | zero => intro t t' h; cases h; rfl
  | succ c ih =>
    intro t t' h
    simp only [downs, Option.bind_eq_some_iff] at h
    obtain ⟨⟨b, r⟩, h1, h2⟩ := h
    rw [ih _ _ h2, alarm_downCount oc k t r b h1]

end DelayTimer
