import Verif.Model.Locks

/-! The order of the locks: C44. -/

namespace DelayTimer.Locks

/-- Thread `t` asks for lock `l`. -/
def Asks (s : LSt) (t : Nat) (l : Lock) : Prop := ∃ m r, s.rest t = .acq l m :: r

/-- Thread `t` holds lock `l`. -/
def Holds (s : LSt) (t : Nat) (l : Lock) : Prop := ∃ m, (l, m) ∈ s.held t

/-- Thread `t` may have to wait for thread `u` (possibly itself). -/
def Waits (s : LSt) (t u : Nat) : Prop := ∃ l, Asks s t l ∧ Holds s u l

/-- A set of threads each of which may have to wait for another one of the set. -/
def Deadlock (s : LSt) (D : Nat → Prop) : Prop := (∃ t, D t) ∧ ∀ t, D t → ∃ u, D u ∧ Waits s t u

def rank : Lock → Nat
  | .idGen => 0
  | .heap => 0
  | .flag _ => 1
  | .wheel _ => 2

/-- The locks in `h` may be held when `l` is asked for. -/
def InOrder (h : List (Lock × Mode)) (l : Lock) : Prop := ∀ x ∈ h, (∃ a, x.1 = .flag a) ∧ ∃ b, l = .wheel b

/-- Locks are asked for in order, and all are given back. -/
def Disc : List (Lock × Mode) → List Op → Prop
  | h, [] => h = []
  | h, .acq l m :: r => InOrder h l ∧ Disc ((l, m) :: h) r
  | h, .rel l :: r => Disc (h.filter (fun x => x.1 ≠ l)) r

theorem disc_runs {sh : Shards} {role : Role} {p : List Op} (h : Runs sh role p) : Disc [] p := by
  cases h
  case add id slot => cases slot <;> simp [addTask, holding, Disc, InOrder]
  case update id slot => cases slot <;> simp [updateTask, holding, Disc, InOrder]
  case advance id slot found hand => cases slot <;> cases found <;> simp [advanceTask, holding, Disc, InOrder]
  case remove id slot => cases slot <;> simp [removeTask, holding, Disc, InOrder]
  case touch id known => cases known <;> simp [touchMark, holding, Disc, InOrder]
  case slot slot => simp [atSlot, holding, Disc, InOrder]
  case maintain id limited slot => cases slot <;> cases limited <;> simp [maintainTask, handleTask, holding, Disc, InOrder]
  case recycle => simp [recycle, holding, Disc, InOrder]
  case feed => simp [addRecycleUnit, holding, Disc, InOrder]
  case conf => simp [updateIdGenerator, holding, Disc, InOrder]

theorem disc {sh : Shards} {role : Nat → Role} {s : LSt} (h : LReachable sh role s) (t : Nat) :
    Disc (s.held t) (s.rest t) := by
  induction h with
  | start => rfl
  | step _ hs ih =>
    cases hs with
    | begin u p h hp =>
      by_cases hu : t = u
      · subst hu
        rw [h] at ih
        simp only [setAt, if_true]
        rw [show _ = [] from ih]; exact disc_runs hp
      · simpa [setAt, hu] using ih
    | acq u l m r h hf =>
      by_cases hu : t = u
      · subst hu
        rw [h] at ih
        simpa [setAt] using ih.2
      · simpa [setAt, hu] using ih
    | rel u l r h =>
      by_cases hu : t = u
      · subst hu
        rw [h] at ih
        simp only [setAt, if_true]
        exact ih
      · simpa [setAt, hu] using ih

/-- **C44**, the order: a thread that asks for a lock while it holds another one holds a shard of the flag map, and
nothing else, and asks for a shard of the wheel. -/
theorem C44_order {sh : Shards} {role : Nat → Role} {s : LSt} (h : LReachable sh role s) {t : Nat} {l l' : Lock}
    (ha : Asks s t l) (hh : Holds s t l') : (∃ a, l' = .flag a) ∧ ∃ b, l = .wheel b := by
  obtain ⟨m, r, ha⟩ := ha
  obtain ⟨m', hh⟩ := hh
  have := disc h t
  rw [ha] at this
  exact this.1 _ hh

theorem asks_above {sh : Shards} {role : Nat → Role} {s : LSt} (h : LReachable sh role s) {t : Nat} {l l' : Lock}
    (ha : Asks s t l) (hh : Holds s t l') : rank l' < rank l := by
  obtain ⟨⟨a, rfl⟩, b, rfl⟩ := C44_order h ha hh
  simp [rank]

theorem rank_le (l : Lock) : rank l ≤ 2 := by cases l <;> simp [rank]

/-- **C44.** In no reachable state is there a set of threads (of whatever number, in whatever roles, even a single one)
each of which asks for a lock that a member of the set holds. -/
theorem C44_no_deadlock {sh : Shards} {role : Nat → Role} {s : LSt} (h : LReachable sh role s) (D : Nat → Prop) :
    ¬ Deadlock s D := by
  rintro ⟨⟨t, ht⟩, hD⟩
  have key : ∀ n t l, D t → Asks s t l → 3 ≤ rank l + n → False := by
    intro n
    induction n with
    | zero => intro t l _ _ hn; have := rank_le l; omega
    | succ n ih =>
      intro t l ht ha hn
      obtain ⟨u, hu, l1, ha1, hh⟩ := hD t ht
      have : l1 = l := by
        obtain ⟨_, _, ha⟩ := ha
        obtain ⟨_, _, ha1⟩ := ha1
        rw [ha] at ha1; cases ha1; rfl
      subst this
      obtain ⟨v, hv, l2, ha2, _⟩ := hD u hu
      have := asks_above h ha2 hh
      exact ih u l2 hu ha2 (by omega)
  obtain ⟨u, _, l, ha, _⟩ := hD t ht
  exact key 3 t l ht ha (by omega)

/-- The next step of thread `t` does not depend on any other thread. -/
def Free (s : LSt) (t : Nat) : Prop :=
  (∃ l r, s.rest t = .rel l :: r) ∨ ∃ l m r, s.rest t = .acq l m :: r ∧ ∀ u, ¬ Holds s u l

/-- **C44**, progress: as long as some thread is at work, some thread can go on, whatever the others do. -/
theorem C44_progress {sh : Shards} {role : Nat → Role} {s : LSt} (h : LReachable sh role s) {t : Nat}
    (ht : s.rest t ≠ []) : ∃ u, Free s u := by
  have key : ∀ n t, s.rest t ≠ [] → (∀ l, Asks s t l → 3 ≤ rank l + n) → ∃ u, Free s u := by
    intro n
    induction n with
    | zero =>
      intro t ht hn
      cases hr : s.rest t with
      | nil => exact absurd hr ht
      | cons o r =>
        cases o with
        | rel l => exact ⟨t, Or.inl ⟨l, r, hr⟩⟩
        | acq l m => have := hn l ⟨m, r, hr⟩; have := rank_le l; omega
    | succ n ih =>
      intro t ht hn
      cases hr : s.rest t with
      | nil => exact absurd hr ht
      | cons o r =>
        cases o with
        | rel l => exact ⟨t, Or.inl ⟨l, r, hr⟩⟩
        | acq l m =>
          by_cases hu : ∃ u, Holds s u l
          · obtain ⟨u, hu⟩ := hu
            refine ih u ?_ ?_
            · intro h0
              have := disc h u
              rw [h0] at this
              obtain ⟨m', hu⟩ := hu
              rw [show s.held u = [] from this] at hu
              cases hu
            · intro l2 ha
              have := asks_above h ha hu
              have := hn l ⟨m, r, hr⟩
              omega
          · exact ⟨t, Or.inr ⟨l, m, r, hr, fun u hx => hu ⟨u, hx⟩⟩⟩
  exact key 3 t ht (fun l _ => by omega)

/-- A thread that is free in that sense does go on. -/
theorem free_steps {sh : Shards} {role : Nat → Role} {s : LSt} {t : Nat} (h : Free s t) :
    ∃ s', LStep sh role s s' ∧ (s'.rest t).length < (s.rest t).length := by
  rcases h with ⟨l, r, h⟩ | ⟨l, m, r, h, hf⟩
  · exact ⟨_, .rel t l r h, by simp [setAt, h]⟩
  · exact ⟨_, .acq t l m r h (fun u m' hx => (hf u ⟨m', hx⟩).elim), by simp [setAt, h]⟩

/-! ## Examples -/

namespace Ex

/-- All ids in one shard, all slots in one shard. -/
def one : Shards := ⟨fun _ => 0, fun _ => 0⟩

/-- Thread 0 is the event thread, thread 1 the scheduler. -/
def roles : Nat → Role := fun t => if t = 0 then .event else if t = 1 then .scheduler else .caller

/-- The scheduler is in its slot; the event thread advances task 1, holds its mark and asks for a slot. -/
def contended : LSt where
  rest := fun t => if t = 0 then (advanceTask one 1 (some 5) true 4).drop 1 else if t = 1 then [.rel (.wheel 0)] else []
  held := fun t => if t = 0 then [(.flag 0, .read)] else if t = 1 then [(.wheel 0, .write)] else []

theorem contended_reachable : LReachable one roles contended := by
  have h1 := LReachable.step (.start) (.begin (sh := one) (role := roles) 0 (advanceTask one 1 (some 5) true 4) rfl (.advance ..))
  have h2 := h1.step (.begin 1 (atSlot one 5) rfl (.slot ..))
  have h3 := h2.step (.acq 0 (.flag 0) .read ((advanceTask one 1 (some 5) true 4).drop 1) rfl (by intro u m' h; cases h))
  have h4 := h3.step (.acq 1 (.wheel 0) .write [.rel (.wheel 0)] rfl (by
    intro u m' h
    by_cases hu : u = 0
    · subst hu; simp [setAt] at h; cases h
    · simp [setAt, hu, start] at h))
  refine Eq.mp (congrArg (LReachable one roles) ?_) h4
  rw [contended, LSt.mk.injEq]
  constructor
  · funext t
    by_cases h0 : t = 0
    · subst h0; rfl
    · by_cases h1 : t = 1
      · subst h1; rfl
      · simp [setAt, h0, h1, start]
  · funext t
    by_cases h0 : t = 0
    · subst h0; rfl
    · by_cases h1 : t = 1
      · subst h1; rfl
      · simp [setAt, h0, h1, start]

/-- The event thread does wait for the scheduler here, holding a lock, and the scheduler is free: `C44_order` and
`C44_progress` say something about this state. -/
example : Waits contended 0 1 ∧ Holds contended 0 (.flag 0) ∧ Asks contended 0 (.wheel 0) ∧ Free contended 1 ∧
    contended.rest 0 ≠ [] :=
  ⟨⟨.wheel 0, ⟨_, _, rfl⟩, _, List.mem_cons_self⟩, ⟨_, List.mem_cons_self⟩, ⟨_, _, rfl⟩, Or.inl ⟨_, _, rfl⟩, by
    intro h; cases h⟩

end Ex

end DelayTimer.Locks
