import Verif.Props.Fine

/-!
# C83: who holds a guard of `task_flag_map` does not wait, and not for long

C36 looks at the places where locks are taken one after the other; here the same question is asked of whole executions of
`Model/Fine.lean`, in which the values decide how far a dispatch gets with its guard.
-/

namespace DelayTimer

open Fine Spec
open Locks (Shards Mode conflict)

namespace Fine

/-- How many accesses the event thread makes at most until it drops its guard, the dropping included. -/
def holds (f : FSt) : Nat :=
  match f.pos with
  | .level =>
    match f.core.epc with
    | .adv1 _ => 3
    | .adv2 _ _ => 2
    | _ => 1
  | .looked _ _ => 4
  | .locked _ _ _ _ => 5
  | .found _ _ _ _ _ _ => 4
  | .stored _ _ _ _ _ _ _ => 3
  | .uncounted _ => 2
  | .registering _ _ _ _ => 4
  | .pushing _ _ _ _ _ => 3
  | .listing _ _ _ _ _ => 2
  | _ => 1

/-- Where it can have a guard. -/
def Holding (f : FSt) : Prop :=
  match f.pos with
  | .level =>
    match f.core.epc with
    | .idle | .remove _ _ | .adv1 _ | .adv2 _ _ => True
    | _ => f.gE = none
  | .took _ | .quitted _ _ | .tracing _ _ => f.gE = none
  | .looked e _ => ∃ id, target e = some id
  | _ => True

theorem holds_pos (f : FSt) : 0 < holds f ∧ holds f ≤ 5 := by
  unfold holds
  split <;> try split
  all_goals exact ⟨by decide, by decide⟩

theorem endsHolding {env : Env} {f : FSt} {s : St} {e : TimerEvent} {r : Option Bool} : Holding (ends env f s e r) := trivial

theorem quit_holding {env : Env} {f : FSt} {k : Stop} (h : f.gE = none) : Holding (quit env f k) := by
  unfold quit
  split
  · trivial
  · exact h

theorem look_holding {env : Env} {sh : Shards} {f f' : FSt} {e : TimerEvent} {id : Nat} (ht : target e = some id)
    (h : look env sh f e id = some f') : Holding f' := by
  unfold look at h
  split at h
  · cases h
  · split at h
    · cases h; exact ⟨id, ht⟩
    · split at h <;> cases h <;> trivial

theorem lockMark_holding {env : Env} {sh : Shards} {f f' : FSt} {k : Stop} {old : List HandlerBox}
    (h : lockMark env sh f k old = some f') : Holding f' := by
  unfold lockMark at h
  split at h
  · cases h
  · split at h
    · cases h; trivial
    · dsimp only at h
      split at h <;> cases h <;> trivial

theorem lockRegister_holding {sh : Shards} {f f' : FSt} {id : Nat} {box : HandlerBox}
    (h : lockRegister sh f id box = some f') : Holding f' := by
  unfold lockRegister at h
  split at h
  · cases h
  · split at h
    · cases h; trivial
    · dsimp only at h
      split at h <;> cases h <;> trivial

theorem eNext_epc {env : Env} {s s' : St} (h : eNext env s = some s') :
    (∃ t c hand, s.epc = .add1 t c hand) ∨ (∃ t c hand x y, s.epc = .add2 t c hand x y) ∨ s'.epc = .idle ∨
    ∃ t, s.epc = .adv1 t ∧ s'.epc = .adv2 t s.secondHand := by
  unfold eNext at h
  split at h
  · cases h
  · rename_i t c hand e; exact Or.inl ⟨t, c, hand, e⟩
  · rename_i t c hand x y e; exact Or.inr (Or.inl ⟨t, c, hand, x, y, e⟩)
  · cases h; exact Or.inr (Or.inr (Or.inl rfl))
  · cases h; exact Or.inr (Or.inr (Or.inl rfl))
  · rename_i t e; cases h; exact Or.inr (Or.inr (Or.inr ⟨t, e, rfl⟩))
  · split at h <;> cases h <;> exact Or.inr (Or.inr (Or.inl rfl))

/-- One access of the event thread: a guard it has is dropped, or there is one access less to make. -/
theorem micro_guard {env : Env} {sh : Shards} {f f' : FSt} (hh : Holding f) (h : micro env sh f = some f') :
    Holding f' ∧ (f.gE ≠ none → f'.gE = none ∨ f'.gE = f.gE ∧ holds f' < holds f) := by
  obtain ⟨core, pos, gE, gT⟩ := f
  cases pos with
  | level =>
    simp only [micro] at h
    split at h
    · rename_i e
      split at h
      · cases h
        exact ⟨by simp only [Holding, release, e], fun _ => Or.inl rfl⟩
      · rename_i hg
        have hg : gE = none := by simpa using hg
        split at h
        · cases h
        · cases h; exact ⟨hg, fun hne => absurd hg hne⟩
    · rename_i id ok e
      split at h
      · cases h
        exact ⟨by simp only [Holding, release, e], fun _ => Or.inl rfl⟩
      · rename_i hg
        have hg : gE = none := by simpa using hg
        split at h
        · cases h
        · rw [Option.map_eq_some_iff] at h
          obtain ⟨s', h1, rfl⟩ := h
          refine ⟨?_, fun hne => absurd hg hne⟩
          simp only [eNext, e] at h1
          cases h1
          trivial
    · rename_i tag m e
      have hg : gE = none := by simpa only [Holding, e] using hh
      split at h
      · cases h
      · rw [Option.map_eq_some_iff] at h
        obtain ⟨s', h1, rfl⟩ := h
        refine ⟨?_, fun hne => absurd hg hne⟩
        simp only [eNext, e] at h1
        cases h1
        trivial
    · rename_i n1 n2 n3
      rw [Option.map_eq_some_iff] at h
      obtain ⟨s', h1, rfl⟩ := h
      cases e : core.epc with
      | idle => exact absurd e n1
      | remove id ok => exact absurd e (n2 id ok)
      | add3 tag m => exact absurd e (n3 tag m)
      | add1 t c hand =>
        have hg : gE = none := by simpa only [Holding, e] using hh
        refine ⟨?_, fun hne => absurd hg hne⟩
        simp only [Holding]
        split <;> first | trivial | exact hg
      | add2 t c hand x y =>
        have hg : gE = none := by simpa only [Holding, e] using hh
        refine ⟨?_, fun hne => absurd hg hne⟩
        simp only [Holding]
        split <;> first | trivial | exact hg
      | adv1 t =>
        simp only [eNext, e] at h1
        cases h1
        exact ⟨trivial, fun _ => Or.inr ⟨rfl, by simp only [holds, e]; decide⟩⟩
      | adv2 t hand =>
        simp only [eNext, e] at h1
        split at h1 <;> cases h1 <;>
          exact ⟨trivial, fun _ => Or.inr ⟨rfl, by simp only [holds, e, done]; decide⟩⟩
  | took ev =>
    have hg : gE = none := hh
    refine ⟨?_, fun hne => absurd hg hne⟩
    simp only [micro] at h
    split at h
    · cases h; trivial
    · cases h; exact hg
    · cases h; exact hg
    · exact look_holding rfl h
    · exact look_holding rfl h
    · exact look_holding rfl h
    · cases h; exact quit_holding hg
    · cases h; exact quit_holding hg
    · cases h; exact quit_holding hg
    · exact lockRegister_holding h
  | looked ev slot =>
    simp only [micro, atWheel] at h
    split at h
    · split at h <;> cases h <;> exact ⟨trivial, fun _ => Or.inr ⟨rfl, Nat.le_of_ble_eq_true rfl⟩⟩
    · split at h
      · cases h; exact ⟨trivial, fun _ => Or.inr ⟨rfl, Nat.le_of_ble_eq_true rfl⟩⟩
      · split at h <;> cases h <;> exact ⟨trivial, fun _ => Or.inr ⟨rfl, Nat.le_of_ble_eq_true rfl⟩⟩
    · split at h <;> cases h <;> exact ⟨trivial, fun _ => Or.inr ⟨rfl, Nat.le_of_ble_eq_true rfl⟩⟩
    · cases h
  | quitted k old =>
    have hg : gE = none := hh
    exact ⟨lockMark_holding h, fun hne => absurd hg hne⟩
  | locked k old m mt =>
    simp only [micro, loadChain] at h
    split at h
    · cases h; exact ⟨trivial, fun _ => Or.inr ⟨rfl, Nat.le_of_ble_eq_true rfl⟩⟩
    · split at h
      · cases h; exact ⟨trivial, fun _ => Or.inr ⟨rfl, Nat.le_of_ble_eq_true rfl⟩⟩
      · split at h <;> cases h <;> exact ⟨trivial, fun _ => Or.inr ⟨rfl, Nat.le_of_ble_eq_true rfl⟩⟩
  | found k old m mt cs inst => cases h; exact ⟨trivial, fun _ => Or.inr ⟨rfl, Nat.le_of_ble_eq_true rfl⟩⟩
  | stored k old m mt cs inst was =>
    simp only [micro, notifyAll] at h
    split at h <;> cases h <;> exact ⟨trivial, fun _ => Or.inr ⟨rfl, Nat.le_of_ble_eq_true rfl⟩⟩
  | uncounted k => cases h; exact ⟨trivial, fun _ => Or.inr ⟨rfl, Nat.le_of_ble_eq_true rfl⟩⟩
  | registering id box m mt =>
    simp only [micro, loadRegister] at h
    split at h <;> cases h <;> exact ⟨trivial, fun _ => Or.inr ⟨rfl, Nat.le_of_ble_eq_true rfl⟩⟩
  | pushing id box m mt cs => cases h; exact ⟨trivial, fun _ => Or.inr ⟨rfl, Nat.le_of_ble_eq_true rfl⟩⟩
  | listing id box m mt inst => cases h; exact ⟨trivial, fun _ => Or.inr ⟨rfl, Nat.le_of_ble_eq_true rfl⟩⟩
  | units id box =>
    simp only [micro] at h
    split at h
    · cases h; exact ⟨trivial, fun _ => Or.inl rfl⟩
    · rename_i hg
      have hg : gE = none := by simpa using hg
      cases h
      exact ⟨hg, fun hne => absurd hg hne⟩
  | tracing id box =>
    have hg : gE = none := hh
    cases h
    exact ⟨trivial, fun hne => absurd hg hne⟩
  | report ps =>
    simp only [micro] at h
    split at h
    · cases h; exact ⟨trivial, fun _ => Or.inl rfl⟩
    · rename_i hg
      have hg : gE = none := by simpa using hg
      cases h
      refine ⟨?_, fun hne => absurd hg hne⟩
      simp only [Holding]
      split <;> first | trivial | exact hg

/-- With a guard in its hands the event thread can always go on. -/
theorem micro_some {env : Env} {sh : Shards} {f : FSt} (hh : Holding f) (hg : f.gE ≠ none) : (micro env sh f).isSome := by
  obtain ⟨core, pos, gE, gT⟩ := f
  have hs : gE.isSome = true := by cases gE with
    | none => exact absurd rfl hg
    | some g => rfl
  cases pos with
  | level =>
    simp only [micro]
    split
    · simp only [hs, if_true]; rfl
    · simp only [hs, if_true]; rfl
    · rename_i tag m e
      exact absurd (by simpa only [Holding, e] using hh) hg
    · rename_i n1 n2 n3
      cases e : core.epc with
      | idle => exact absurd e n1
      | remove id ok => exact absurd e (n2 id ok)
      | add3 tag m => exact absurd e (n3 tag m)
      | add1 t c hand => exact absurd (by simpa only [Holding, e] using hh) hg
      | add2 t c hand x y => exact absurd (by simpa only [Holding, e] using hh) hg
      | adv1 t => simp only [eNext, e]; rfl
      | adv2 t hand => simp only [eNext, e]; split <;> rfl
  | took ev => exact absurd hh hg
  | looked ev slot =>
    obtain ⟨id, ht⟩ := hh
    cases ev <;> first | (cases ht; done) | skip
    all_goals simp only [micro, atWheel]
    · split <;> rfl
    · split <;> rfl
    · split
      · rfl
      · split <;> rfl
  | quitted k old => exact absurd hh hg
  | locked k old m mt => rfl
  | found k old m mt cs inst => rfl
  | stored k old m mt cs inst was => rfl
  | uncounted k => rfl
  | registering id box m mt => rfl
  | pushing id box m mt cs => rfl
  | listing id box m mt inst => rfl
  | units id box => simp only [micro]; split <;> rfl
  | tracing id box => rfl
  | report ps => simp only [micro]; split <;> rfl

/-- The other threads do not touch position and guard of the event thread. -/
theorem other_still {env : Env} {sh : Shards} {f f' : FSt} {l : FLabel} (hl : l ≠ .event) (h : fstep env sh f l = some f') :
    f'.pos = f.pos ∧ f'.gE = f.gE ∧ f'.core.epc = f.core.epc := by
  cases l with
  | event => exact absurd rfl hl
  | drop =>
    simp only [fstep] at h
    split at h <;> cases h
    exact ⟨rfl, rfl, rfl⟩
  | other l =>
    simp only [fstep] at h
    split at h
    · cases h
    · rename_i he
      have he : ofEvents l = false := by simpa using he
      split at h
      · cases h
      · split at h
        · rw [Option.map_eq_some_iff] at h
          obtain ⟨s', h1, rfl⟩ := h
          exact ⟨rfl, rfl, (other_frame he (step_act h1)).1⟩
        · split at h
          · cases h
          · rw [Option.map_eq_some_iff] at h
            obtain ⟨s', h1, rfl⟩ := h
            exact ⟨rfl, rfl, (other_frame he (step_act h1)).1⟩

theorem fstep_holding {env : Env} {sh : Shards} {f f' : FSt} {l : FLabel} (hh : Holding f) (h : fstep env sh f l = some f') :
    Holding f' := by
  by_cases e : l = .event
  · subst e; exact (micro_guard hh h).1
  · obtain ⟨h1, h2, h3⟩ := other_still e h
    simpa only [Holding, h1, h2, h3] using hh

theorem frun_holding {env : Env} {sh : Shards} {ls : List FLabel} {f f' : FSt} (hh : Holding f)
    (h : frun env sh f ls = some f') : Holding f' := by
  induction ls generalizing f with
  | nil => cases h; exact hh
  | cons l ls ih =>
    simp only [frun] at h
    split at h
    · rename_i f1 h1; exact ih (fstep_holding hh h1) h
    · cases h

theorem guardsOk {env : Env} {sh : Shards} {f : FSt} (h : FReachable env sh f) : Holding f := by
  obtain ⟨ls, h⟩ := h
  exact frun_holding (f := finit env) trivial h

/-- How many accesses of the event thread there are. -/
def accesses : List FLabel → Nat
  | [] => 0
  | .event :: ls => accesses ls + 1
  | _ :: ls => accesses ls

theorem held_long {env : Env} {sh : Shards} {ls : List FLabel} {f f' : FSt} (hh : Holding f)
    (h : frun env sh f ls = some f') (hn : holds f ≤ accesses ls) :
    ∃ a b g, ls = a ++ b ∧ frun env sh f a = some g ∧ g.gE = none ∧ accesses a ≤ holds f := by
  induction ls generalizing f with
  | nil => exact absurd hn (Nat.not_le.2 (holds_pos f).1)
  | cons l ls ih =>
    by_cases hg : f.gE = none
    · exact ⟨[], l :: ls, f, rfl, rfl, hg, Nat.zero_le _⟩
    simp only [frun] at h
    split at h
    case h_2 => cases h
    rename_i f1 h1
    by_cases e : l = .event
    · subst e
      obtain ⟨h2, h3⟩ := micro_guard hh h1
      rcases h3 hg with h3 | ⟨h3, h4⟩
      · refine ⟨[.event], ls, f1, rfl, ?_, h3, (holds_pos f).1⟩
        simp only [frun, h1]
      · obtain ⟨a, b, g, rfl, h5, h6, h7⟩ := ih h2 h (by simp only [accesses] at hn; omega)
        refine ⟨.event :: a, b, g, rfl, ?_, h6, ?_⟩
        · simp only [frun, h1]; exact h5
        · simp only [accesses]; omega
    · obtain ⟨h2, h3, h4⟩ := other_still e h1
      have h5 : holds f1 = holds f := by simp only [holds, h2, h4]
      have h6 : ∀ ms, accesses (l :: ms) = accesses ms := by
        intro ms
        cases l with
        | event => exact absurd rfl e
        | drop => rfl
        | other l => rfl
      obtain ⟨a, b, g, rfl, h7, h8, h9⟩ := ih (fstep_holding hh h1) h (by rw [h6] at hn; omega)
      refine ⟨l :: a, b, g, rfl, ?_, h8, ?_⟩
      · simp only [frun, h1]; exact h7
      · rw [h6]; omega

end Fine

/-- **C83**: a thread that holds a guard of `task_flag_map` can go on, whatever the other one holds: the event thread with its
next access, the scheduler by dropping the guard. So no two of them can be waiting for each other. -/
theorem C83_no_wait {env : Env} {sh : Shards} {f : FSt} (h : FReachable env sh f) :
    (f.gE ≠ none → (fstep env sh f .event).isSome) ∧ (f.gT ≠ none → (fstep env sh f .drop).isSome) := by
  refine ⟨fun hg => micro_some (guardsOk h) hg, fun hg => ?_⟩
  simp only [fstep]
  split
  · rfl
  · rename_i hn; exact absurd (by simpa using hn) hg

/-- **C83**: the event thread drops a guard with its fifth access at the latest, whatever the values in the tables, the chain and
the state of the run, and whatever the other threads do meanwhile. -/
theorem C83_brief {env : Env} {sh : Shards} {f f' : FSt} {ls : List FLabel} (h : FReachable env sh f)
    (hr : frun env sh f ls = some f') (hn : 5 ≤ accesses ls) :
    ∃ a b g, ls = a ++ b ∧ frun env sh f a = some g ∧ g.gE = none ∧ accesses a ≤ 5 := by
  obtain ⟨a, b, g, h1, h2, h3, h4⟩ := held_long (guardsOk h) hr (Nat.le_trans (holds_pos f).2 hn)
  exact ⟨a, b, g, h1, h2, h3, Nat.le_trans h4 (holds_pos f).2⟩

/-! ## Executions -/

namespace Ex

/-- The body of the run of `taken` has returned, and the event thread has got the mark to take the run out of the books. -/
def atEnd : FSt := fplay oneShard (finit env0) (split (taken ++ [.rBody 0, .rFinish 0 3]) ++ events 3)

/-- C83: hypotheses met, and the bound is exact: after four accesses the guard is still held, after five it is dropped. -/
example : FReachable env0 oneShard atEnd ∧ atEnd.gE.isSome ∧ accesses (events 5) = 5 ∧
    (frun env0 oneShard atEnd (events 5)).isSome ∧
    (List.range 6).map (fun n => (fplay oneShard atEnd (events n)).gE.isSome) = [true, true, true, true, true, false] :=
  ⟨fplay_goes _ _, by decide +kernel, rfl, by decide +kernel, by decide +kernel⟩

/-- C83: each of the two has its guard, and goes on: the event thread reads one mark while the scheduler reads another one. -/
def bothHold : FSt :=
  fplay oneShard (finit env0) (split (ins pair ++ ins { pair with taskId := 2 } ++
    [.tLoad, .tStore, .tArrive, .tLapse, .tLoad, .tStore, .tArrive, .tLapse, .tLoad, .tStore, .tArrive, .tPop 1]) ++ [.other (.tCheck 0)] ++
    [.other (.uSend (.update { pair with taskId := 2 }))] ++ events 2)

example : FReachable env0 oneShard bothHold ∧ bothHold.gE.isSome ∧ bothHold.gT.isSome :=
  ⟨fplay_goes _ _, by decide +kernel, by decide +kernel⟩

end Ex

end DelayTimer
