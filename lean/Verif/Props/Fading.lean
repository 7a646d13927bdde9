import Verif.Props.Certain
import Verif.Props.Fair
import Verif.Proofs.Copies

/-!
# A removed task with a limit on parallel runs leaves memory (C93)

A removal that misses its task leaves it in the wheel, without a mark. There it stays until its due tick; then the scheduler
takes it out, finds no mark and drops it.
-/

namespace DelayTimer
open Spec

/-- All copies of `k` in the wheel are due by tick `D`, and the scheduler has at most one in its hands, just taken out. -/
structure Fading (k D : Nat) (s : St) : Prop where
  hand : ∀ u ∈ tpcTok k s.tpc, (∃ p, s.tpc = .check p u) ∧ s.ticks ≤ D
  wheel : ∀ j u, inWheel s.wheel k j u → (k ∈ pendingOf s.tpc ∧ j = s.secondHand ∧ s.ticks ≤ D) ∨
    nextVisit (base s) j + 3600 * u.cylinderLine ≤ D

theorem Fading.frame {k D : Nat} {s s' : St} (h : Fading k D s) (hw : ∀ j u, inWheel s'.wheel k j u → inWheel s.wheel k j u)
    (ht : s'.tpc = s.tpc ∨ tpcTok k s'.tpc = []) (hp : k ∈ pendingOf s.tpc → k ∈ pendingOf s'.tpc)
    (hpast : past s'.tpc = past s.tpc) (htk : s'.ticks = s.ticks) (hh : s'.secondHand = s.secondHand) : Fading k D s' := by
  have hb : base s' = base s := by unfold base; rw [hpast, htk]
  refine ⟨?_, ?_⟩
  · rcases ht with ht | ht <;> rw [ht, htk]
    · exact h.hand
    · intro u hu; cases hu
  · intro j u hj
    rw [hb, hh, htk]
    exact (h.wheel j u (hw j u hj)).imp_left fun ⟨h1, h2⟩ => ⟨hp h1, h2⟩

theorem Fading.gone {k D : Nat} {s : St} (h : Fading k D s) (hD : D < s.ticks) :
    tpcTok k s.tpc = [] ∧ ∀ j u, ¬ inWheel s.wheel k j u := by
  refine ⟨?_, fun j u hj => ?_⟩
  · cases ht : tpcTok k s.tpc with
    | nil => rfl
    | cons u r => have := (h.hand u (by rw [ht]; exact List.mem_cons_self)).2; omega
  · rcases h.wheel j u hj with ⟨_, _, h⟩ | h
    · omega
    · have : s.ticks ≤ base s := by unfold base; split <;> omega
      unfold nextVisit at h; omega

theorem fading_step {env : Env} {k D : Nat} {s : St} {l : Label} {s' : St} (hwo : WheelOk s) (hf : Forgotten k s) (hu : s.flags k = none) (hv : ∀ j u, inWheel s.wheel k j u → u.valid = true)
    (hlim : ∀ u ∈ tpcTok k s.tpc, u.maximumParallelRunnableNum ≠ none) (hnp : s'.tpc ≠ .panicked) (hs : Fading k D s)
    (h : Act env s l s') : Fading k D s' := by
  rcases forgotten_apart hf h with hq | hi
  case inr => exact hs.frame (fun j u => (hi.wheel j u).1) (Or.inl hi.tpc) (by rw [hi.tpc]; exact id) (by rw [hi.tpc]) hi.ticks hi.hand
  have hT : (∀ p u, s.tpc ≠ .check p u) → tpcTok k s.tpc = [] := by
    intro hn
    cases ht : tpcTok k s.tpc with
    | nil => rfl
    | cons u r =>
      obtain ⟨⟨p, hp⟩, _⟩ := hs.hand u (by rw [ht]; exact List.mem_cons_self)
      exact absurd hp (hn p u)
  cases h
  all_goals try (exact absurd rfl hnp)
  all_goals try (exact ⟨hs.hand, hs.wheel⟩)
  all_goals try (
    refine hs.frame ?_ (Or.inl ?_) ?_ ?_ ?_ ?_ <;> first | (intro j u; simp; done) | (simp; done))
  case check_nolimit pending t rec h hrec hmax =>
    have hk : t.taskId ≠ k := fun hk => hlim t (by rw [h]; simp [tpcTok, hk]) hmax
    exact hs.frame (fun _ _ h => h) (Or.inr (by simp [tpcTok, hk])) (by rw [h]; exact id) (by rw [h]; rfl) rfl rfl
  case check_nomark pending t rec n h hrec hmax hfl =>
    exact hs.frame (fun _ _ h => h) (Or.inr rfl) (by rw [h]; exact id) (by rw [h]; rfl) rfl rfl
  case check_skip pending t rec n m h hrec hmax hfl hle =>
    have hk : t.taskId ≠ k := fun hk => by rw [hk, hu] at hfl; cases hfl
    exact hs.frame (fun _ _ h => h) (Or.inr (by simp [tpcTok, hk])) (by rw [h]; exact id) (by rw [h]; rfl) rfl rfl
  case check_ok pending t rec n m h hrec hmax hfl hlt =>
    have hk : t.taskId ≠ k := fun hk => by rw [hk, hu] at hfl; cases hfl
    exact hs.frame (fun _ _ h => h) (Or.inr (by simp [tpcTok, hk])) (by rw [h]; exact id) (by rw [h]; rfl) rfl rfl
  case arrive sl h hw =>
    have hb : base s = s.ticks := by simp [base, h, past]
    have hh := hwo.hand
    refine ⟨fun u hu => (by cases hu), fun j u hj => ?_⟩
    rw [inWheel_arrive hw] at hj
    have hold : ∀ i u, inWheel s.wheel k i u → nextVisit s.ticks i + 3600 * u.cylinderLine ≤ D := by
      intro i u hi
      rcases hs.wheel i u hi with ⟨hp, _⟩ | hx
      · rw [h] at hp; cases hp
      · rw [← hb]; exact hx
    show _ ∨ nextVisit (s.ticks + 1) j + 3600 * u.cylinderLine ≤ D
    rcases hj with ⟨rfl, v, hv1, rfl⟩ | ⟨hne, hj⟩
    · have := hold _ v hv1
      rw [nextVisit_self _ _ hh] at this
      by_cases hc : v.cylinderLine = 0
      · left
        refine ⟨?_, rfl, by show s.ticks ≤ D; omega⟩
        show k ∈ sl.arrivalTimeTasks.1
        rw [mem_arrival_ids]
        have hval := hv _ _ hv1
        obtain ⟨sl', g1, g2, g3⟩ := hv1
        rw [hw] at g1; cases g1
        exact ⟨v, g2, g3, hc, hval⟩
      · right
        rw [checkArrived_pos hc, nextVisit_succ_self _ _ hh]
        show s.ticks + 3600 + 3600 * (v.cylinderLine - 1) ≤ D
        omega
    · right
      have hi : j < 3600 := by
        obtain ⟨sl', hsl', _⟩ := hj
        exact (hwo.shape.1 j).1 (by rw [hsl']; rfl)
      rw [nextVisit_succ_other _ _ hi (by rw [← hh]; exact hne)]
      exact hold _ _ hj
  case pop_hit pending id sl u h hmem hw hr =>
    obtain ⟨hm, hid⟩ := removeTask_some hr
    have hb : base s = s.ticks + 1 := by simp [base, h, past]
    refine ⟨?_, ?_⟩
    · intro v hv'
      obtain ⟨rfl, hk⟩ := tok_eq' hv'
      refine ⟨⟨_, rfl⟩, ?_⟩
      show s.ticks ≤ D
      rcases hs.wheel _ _ ⟨sl, hw, hm, hk⟩ with ⟨_, _, hx⟩ | hx
      · exact hx
      · have : s.ticks ≤ base s := by unfold base; split <;> omega
        unfold nextVisit at hx; omega
    · intro j v hj
      show _ ∨ nextVisit (s.ticks + 1) j + 3600 * v.cylinderLine ≤ D
      rw [← hb]
      rw [show St.wheel _ = _ from rfl, inWheel_remove hw] at hj
      rcases hs.wheel j v hj.1 with ⟨h1, h2, h3⟩ | hx
      · left
        refine ⟨?_, h2, h3⟩
        rw [h] at h1
        exact (List.mem_erase_of_ne (fun e => hj.2 h2 e.symm)).2 h1
      · exact Or.inr hx
  case pop_miss pending id h hmem hw =>
    have hb : base s = s.ticks + 1 := by simp [base, h, past]
    refine ⟨fun u hu => (by cases hu), fun j v hj => ?_⟩
    show _ ∨ nextVisit (s.ticks + 1) j + 3600 * v.cylinderLine ≤ D
    rw [← hb]
    rcases hs.wheel j v hj with ⟨h1, h2, h3⟩ | hx
    · left
      refine ⟨?_, h2, h3⟩
      rw [h] at h1
      refine (List.mem_erase_of_ne ?_).2 h1
      rintro rfl
      rw [h2] at hj
      obtain ⟨sl, h9, h10, h11⟩ := hj
      exact removeTask_none (hw sl h9) _ h10 h11
    · exact Or.inr hx
  case lapse h =>
    refine ⟨fun u hu => (by cases hu), fun j v hj => ?_⟩
    rcases hs.wheel j v hj with ⟨h1, _⟩ | hx
    · rw [h] at h1; cases h1
    · right
      have : base s = s.ticks + 1 := by simp [base, h, past]
      rw [this] at hx
      exact hx
  case recv_update u rest m sl he hc hfl hw =>
    have hk : u.taskId ≠ k := hq.head rfl (.updateTask u) rest hc
    refine hs.frame ?_ (Or.inl rfl) id rfl rfl rfl
    intro j v hj
    rw [done_wheel, inWheel_update hw] at hj
    exact hj.elim (fun h => absurd h.2.2 hk) (fun h => h.1)
  case recv_advance id rest m sl u he hc hfl hw hr =>
    refine hs.frame ?_ (Or.inl rfl) (fun h => h) rfl rfl rfl
    intro j v hj
    rw [show St.wheel _ = _ from rfl, inWheel_remove hw] at hj
    exact hj.1
  case recv_remove id rest m sl he hc hfl hw =>
    refine hs.frame ?_ (Or.inl rfl) (fun h => h) rfl rfl rfl
    intro j v hj
    rw [show St.wheel _ = _ from rfl, inWheel_remove hw] at hj
    exact hj.1
  case next_add2 u chain hand exec ts seed slot sl he hseed hslot hw =>
    have hk : u.taskId ≠ k := by have := hq.epc rfl; rw [he] at this; exact this
    refine hs.frame ?_ (Or.inl rfl) (fun h => h) rfl rfl rfl
    intro j v hj
    rw [show St.wheel _ = _ from rfl, inWheel_add hw] at hj
    exact hj.elim (fun h => absurd h.2.2 hk) (fun h => h.1)
  case next_adv2 u hand sl he hw =>
    have hk : u.taskId ≠ k := by have := hq.epc rfl; rw [he] at this; exact this
    refine hs.frame ?_ (Or.inl rfl) (fun h => h) rfl rfl rfl
    intro j v hj
    rw [done_wheel, inWheel_add hw] at hj
    exact hj.elim (fun h => absurd h.2.2 hk) (fun h => h.1)
  all_goals try (
    refine hs.frame (fun _ _ h => h) (Or.inr rfl) ?_ ?_ rfl rfl
    · simp [‹s.tpc = _›, pendingOf]
    · simp [‹s.tpc = _›, past])
  all_goals have hT := hT (by rw [‹s.tpc = _›]; intro _ _ h; cases h)
  case gate_again pending u u' rec h hd =>
    refine hs.frame (fun _ _ h => h) (Or.inr ?_) (by rw [h]; exact id) (by rw [h]; rfl) rfl rfl
    rw [h] at hT; simpa [tpcTok, down_taskId hd] using hT
  case slot_ok pending u upd exec sl step slot h hn hstep hslot hw =>
    have hk : u.taskId ≠ k := by
      intro hk; rw [h] at hT; simp [tpcTok, hk] at hT
    refine hs.frame ?_ (Or.inr rfl) (by rw [h]; exact id) (by rw [h]; rfl) rfl rfl
    intro j v hj
    rw [show St.wheel _ = _ from rfl, inWheel_add hw] at hj
    exact hj.elim (fun h => absurd h.2.2 hk) (fun h => h.1)
  all_goals
    refine hs.frame (fun _ _ h => h) (Or.inr ?_) ?_ ?_ rfl rfl
    · rw [‹s.tpc = _›] at hT; exact hT
    · rw [‹s.tpc = _›]; exact id
    · rw [‹s.tpc = _›]; rfl

/-- Some tick by which everything in the wheel is due. -/
theorem all_due {s : St} (hwo : WheelOk s) (k b : Nat) :
    ∃ D, ∀ j u, inWheel s.wheel k j u → nextVisit b j + 3600 * u.cylinderLine ≤ D := by
  have one : ∀ (l : List Task) (x : Nat), ∃ D, ∀ u ∈ l, x + 3600 * u.cylinderLine ≤ D := by
    intro l x
    induction l with
    | nil => exact ⟨0, fun _ h => (by cases h)⟩
    | cons a l ih =>
      obtain ⟨D, hD⟩ := ih
      refine ⟨D + (x + 3600 * a.cylinderLine), fun u hu => ?_⟩
      rcases List.mem_cons.1 hu with rfl | hu
      · omega
      · have := hD u hu; omega
  have many : ∀ n, ∃ D, ∀ j u, j < n → inWheel s.wheel k j u → nextVisit b j + 3600 * u.cylinderLine ≤ D := by
    intro n
    induction n with
    | zero => exact ⟨0, fun j _ h => absurd h (by omega)⟩
    | succ n ih =>
      obtain ⟨D, hD⟩ := ih
      obtain ⟨E, hE⟩ := one ((s.wheel n).getD []) (nextVisit b n)
      refine ⟨D + E, fun j u hj hu => ?_⟩
      by_cases hjn : j = n
      · subst hjn
        obtain ⟨sl, h1, h2, _⟩ := hu
        have := hE u (by rw [h1]; exact h2)
        omega
      · have := hD j u (by omega) hu
        omega
  obtain ⟨D, hD⟩ := many 3600
  refine ⟨D, fun j u hu => hD j u ?_ hu⟩
  obtain ⟨sl, h1, _⟩ := hu
  exact (hwo.shape.1 j).1 (by rw [h1]; rfl)

/-- Each tick begins with empty hands. -/
theorem comes_head {env : Env} (c : Course env) (hfs : c.WeaklyFair (ByScheduler · = true)) (htn : c.Turning) (n : Nat) :
    c.Comes n fun s => s.tpc = .head := by
  obtain ⟨m, hm, ht⟩ := one_tick c hfs htn n
  suffices H : ∀ d, (c.st n).ticks < (c.st (n + d)).ticks → ∃ k, n ≤ k ∧ (c.st k).tpc = .head by
    exact H (m - n) (by rw [Nat.add_sub_cancel' hm]; exact ht)
  intro d
  induction d with
  | zero => intro h; exact absurd h (by simp)
  | succ d ih =>
    intro h
    by_cases hx : (c.st n).ticks < (c.st (n + d)).ticks
    · exact ih hx
    · refine ⟨n + d + 1, by omega, ?_⟩
      cases hl : c.lab (n + d) with
      | none =>
        have := c.next (n + d)
        rw [hl] at this
        have this : c.st (n + d + 1) = c.st (n + d) := this
        rw [← Nat.add_assoc, this] at h; omega
      | some l =>
        have ha := step_act (course_step c hl)
        rcases ticks_step ha with ⟨_, e⟩ | ⟨e, _⟩
        · rw [← Nat.add_assoc, e] at h; omega
        · subst e
          generalize c.st (n + d + 1) = x at ha
          cases ha
          rfl

/-- All copies are valid and have a limit, if all tasks handed in are and have. -/
theorem course_copies {env : Env} (c : Course env) {k : Nat}
    (hin : ∀ m l t, c.lab m = some l → t ∈ broughtBy k l → t.maximumParallelRunnableNum ≠ none ∧ t.valid = true) (n : Nat) :
    Copies (fun t => t.maximumParallelRunnableNum ≠ none ∧ t.valid = true) (fun t => t.maximumParallelRunnableNum ≠ none) k
      (c.st n) := by
  induction n with
  | zero => rw [c.start]; exact (Nobody.init env k).copies
  | succ n ih =>
    cases hl : c.lab n with
    | none =>
      have := c.next n
      rw [hl] at this
      have this : c.st (n + 1) = c.st n := this
      rw [this]; exact ih
    | some l =>
      refine copies_step (fun _ _ h => h) (fun t h => ?_) (fun t t' h hd => ?_) (fun _ h => h.1) (fun t ht => hin n l t hl ht) ih
        (step_act (course_step c hl))
      · exact h
      · obtain ⟨_, _, e1, _, _, e2, _⟩ := down_runs hd
        exact ⟨by rw [e2]; exact h, e1⟩

/-- **C93** In an unending execution in which the wheel turns: a removal of `k` is called, no task is added under this id
afterwards, and all that were handed in under it have a limit. From some moment on nothing is left of `k`: no mark, nothing in the
wheel, nothing in the hands of the scheduler. -/
theorem C93_gone {env : Env} (c : Course env) (hfe : c.WeaklyFair (ByEvents · = true))
    (hfs : c.WeaklyFair (ByScheduler · = true)) (hli : c.Listening) (htn : c.Turning) {k n1 : Nat}
    (hlab : c.lab n1 = some (.uSend (.remove k))) (hno : ∀ m l, n1 < m → c.lab m = some l → ¬ Adds k l)
    (hin : ∀ m l t, c.lab m = some l → t ∈ broughtBy k l → t.maximumParallelRunnableNum ≠ none ∧ t.valid = true) :
    ∃ n, n1 < n ∧ ∀ m, n ≤ m → (c.st m).flags k = none ∧
      (∀ i sl t, (c.st m).wheel i = some sl → t ∈ sl → t.taskId ≠ k) ∧
      ∀ t, heldTask (c.st m).tpc = some t → t.taskId ≠ k := by
  obtain ⟨m0, h0, hd⟩ := C70_processed c hfe hli (n1 + 1)
  have hst := course_step c hlab
  have hq : (queuedTags (c.st (n1 + 1)).log).length = (queuedTags (c.st n1).log).length + 1 := by
    simp only [step] at hst
    generalize c.st (n1 + 1) = x at hst
    cases hst
    simp [push, queuedTags, UserOp.event]
  have hf : ∀ n, m0 ≤ n → Forgotten k (c.st n) ∧ (c.st n).flags k = none := by
    intro n hn
    obtain ⟨ls, f1, f2, _⟩ := between_mem c (n := n1 + 1) (m := n) (P := fun l => ¬ Adds k l) (by omega)
      (fun i l hi h => hno i l (by omega) h)
    have hle := hd.length_le
    obtain ⟨ls3, _, e1⟩ := course_between c hn
    have hgrow : (dispatchedTags (c.st m0).log).length ≤ (dispatchedTags (c.st n).log).length := by
      obtain ⟨news, hn⟩ := log_grows e1
      rw [hn, dispatchedTags_append, List.length_append]; omega
    exact struck_done (course_reach c n) (struck_run ls (struck_called hst) f1 f2) (by omega)
  have hcop := course_copies c hin
  have hlim : ∀ n, ∀ u ∈ tpcTok k (c.st n).tpc, u.maximumParallelRunnableNum ≠ none := by
    intro n u hu
    cases hp : (c.st n).tpc <;> rw [hp] at hu <;> simp only [tpcTok] at hu <;> first
      | exact ((hcop n).held u (by rw [hp]; exact hu)).1
      | exact (hcop n).started u (by rw [hp]; exact hu)
  obtain ⟨m1, h1, hhead⟩ := comes_head c hfs htn m0
  have hhead : (c.st m1).tpc = .head := hhead
  obtain ⟨D, hD⟩ := all_due (wheelOk (course_reach c m1)) k (base (c.st m1))
  have hfade : ∀ d, Fading k D (c.st (m1 + d)) := by
    intro d
    induction d with
    | zero => exact ⟨fun u hu => (by rw [Nat.add_zero, hhead] at hu; cases hu), fun j u hj => Or.inr (hD j u hj)⟩
    | succ d ih =>
      cases hl : c.lab (m1 + d) with
      | none =>
        have := c.next (m1 + d)
        rw [hl] at this
        have this : c.st (m1 + d + 1) = c.st (m1 + d) := this
        rw [← Nat.add_assoc, this]; exact ih
      | some l =>
        obtain ⟨g1, g2⟩ := hf (m1 + d) (by omega)
        exact fading_step (wheelOk (course_reach c _)) g1 g2 (fun j u hj => ((hcop _).wheel j u hj).2) (hlim _)
          (course_turns c htn _).2.1 ih (step_act (course_step c hl))
  obtain ⟨n, hn, htick⟩ := C71_turns c hfs htn m1 (D + 1)
  have htick : D + 1 ≤ (c.st n).ticks := htick
  refine ⟨n, by omega, fun m hm => ?_⟩
  have ht := course_ticks c hm
  have hx := hfade (m - m1)
  rw [Nat.add_sub_cancel' (by omega)] at hx
  obtain ⟨e1, e2⟩ := hx.gone (by omega)
  refine ⟨(hf m (by omega)).2, fun i sl t hi ht hk => e2 i t ⟨sl, hi, ht, hk⟩, fun t hh hk => ?_⟩
  cases hp : (c.st m).tpc <;> rw [hp] at hh e1 <;> simp only [heldTask, tpcTok] at hh e1 <;> first
    | cases hh; done
    | (cases hh; rw [if_pos hk] at e1; cases e1)

end DelayTimer

namespace DelayTimer.Ex

open Spec

/-- C93: an unending execution of this kind, in which the task is in the hands of the scheduler when its removal is called. -/
example : ∃ (c : Course env0) (n1 : Nat), c.WeaklyFair (ByEvents · = true) ∧ c.WeaklyFair (ByScheduler · = true) ∧
    c.Listening ∧ c.Turning ∧ c.lab n1 = some (.uSend (.remove 1)) ∧ (∀ m l, n1 < m → c.lab m = some l → ¬ Adds 1 l) ∧
    (∀ m l t, c.lab m = some l → t ∈ broughtBy 1 l → t.maximumParallelRunnableNum ≠ none ∧ t.valid = true) ∧
    ∃ t, heldTask (c.st n1).tpc = some t ∧ t.taskId = 1 := by
  obtain ⟨c, h1, h2, h3, _, h4⟩ := fair_course (pre := handy ++ [.uSend (.remove 1)]) (play_run (env := env0) (by decide +kernel))
  have hlen : (handy ++ [Label.uSend (.remove 1)]).length = handy.length + 1 := by simp
  have hup := upTo_take (c := c) (n := (handy ++ [Label.uSend (.remove 1)]).length) (by rw [h1])
  have hall : ∀ n l, c.lab n = some l → l ∈ handy ++ [Label.uSend (.remove 1)] ∨ Unasked l := fun n l h =>
    unasked_upTo h1 h4 ((mem_upTo c (n + 1)).2 ⟨n, by omega, h⟩)
  have hpre : ∀ l ∈ handy ++ [Label.uSend (.remove 1)], l ≠ .uSend .stop ∧ l ≠ .tSpawn true := by
    have : (handy ++ [Label.uSend (.remove 1)]).all (fun l => match l with | .uSend .stop => false | .tSpawn true => false | _ => true) = true := by
      decide +kernel
    intro l hl
    have := List.all_eq_true.1 this l hl
    constructor <;> (rintro rfl; cases this)
  have hst : c.st handy.length = play env0 handy := by
    have h5 := course_run c handy.length
    rw [(hup _ (by omega)).1, h1, List.take_left, play_run (by decide +kernel)] at h5
    exact (Option.some.inj h5).symm
  refine ⟨c, handy.length, h3.events, h3.scheduler, (unchecked_lives rfl c).1,
    C71_turning c ?_ ?_ (fun n k t _ j h => by cases h), ?_, ?_, ?_, ?_⟩
  · intro n h
    rcases hall n _ h with h | h
    · exact (hpre _ h).1 rfl
    · exact h
  · intro n h
    rcases hall n _ h with h | h
    · exact (hpre _ h).2 rfl
    · exact h
  · rw [(hup _ (by omega)).2 (by omega), h1]; simp
  · intro m l hm hl
    have := h4 m l (by omega) hl
    cases l <;> first | exact id | exact False.elim this
  · intro m l t hl ht
    rcases hall m l hl with h | h
    · have ht : t ∈ handed 1 (handy ++ [.uSend (.remove 1)]) := List.mem_flatMap.2 ⟨l, h, ht⟩
      simp [handy, handed, broughtBy, add, idles, idle] at ht
      rw [ht.2]; exact ⟨by simp, rfl⟩
    · cases l <;> first | (cases ht) | exact h.elim
  · rw [hst]; exact ⟨_, rfl, rfl⟩

end DelayTimer.Ex
