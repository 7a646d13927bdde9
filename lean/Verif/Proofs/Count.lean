import Verif.Proofs.Copies

/-! The runs that all copies of a count-down task have left. -/

namespace DelayTimer
open Spec

theorem find_map_replace (sl : Slot) (t : Task) (k : Nat) :
    (sl.map (fun x => if x.taskId = t.taskId then t else x)).find? (fun x => x.taskId == k) =
      if t.taskId = k then (if sl.any (fun x => x.taskId == t.taskId) then some t else none)
      else sl.find? (fun x => x.taskId == k) := by
  induction sl with
  | nil => simp
  | cons x sl ih =>
    rw [List.map_cons, List.find?_cons, ih, List.find?_cons, List.any_cons]
    by_cases hx : x.taskId = t.taskId
    · rw [if_pos hx, hx]
      by_cases hk : t.taskId = k
      · rw [if_pos hk]; simp [hk]
      · rw [if_neg hk, if_neg hk, beq_false_of_ne hk]
    · rw [if_neg hx, beq_false_of_ne hx, Bool.false_or]
      by_cases hk : t.taskId = k
      · simp only [if_pos hk, beq_false_of_ne (hk ▸ hx)]
      · simp only [if_neg hk]

theorem find_addTask (sl : Slot) (t : Task) (k : Nat) :
    (sl.addTask t).find? (fun x => x.taskId == k) =
      if t.taskId = k then some t else sl.find? (fun x => x.taskId == k) := by
  unfold Slot.addTask
  split
  · rename_i h; rw [find_map_replace, h]; simp
  · rename_i h
    rw [List.find?_append]
    split
    · rename_i hk
      have : sl.find? (fun x => x.taskId == k) = none := by
        rw [List.find?_eq_none]
        intro x hx hxk
        exact h (List.any_eq_true.2 ⟨x, hx, by simpa [hk] using hxk⟩)
      simp [this, hk]
    · rename_i hk; simp [hk]

theorem find_updateTask (sl : Slot) (t : Task) (k : Nat) :
    (sl.updateTask t).find? (fun x => x.taskId == k) =
      if t.taskId = k then some t else sl.find? (fun x => x.taskId == k) := by
  unfold Slot.updateTask
  split
  · rename_i x hx
    have : sl.any (fun x => x.taskId == t.taskId) = true :=
      List.any_eq_true.2 ⟨x, List.mem_of_find?_eq_some hx, by simpa using List.find?_some hx⟩
    rw [find_map_replace, this]; simp
  · exact find_addTask sl t k

theorem find_removeTask (sl : Slot) (id k : Nat) :
    (sl.removeTask id).2.find? (fun x => x.taskId == k) =
      if id = k then none else sl.find? (fun x => x.taskId == k) := by
  simp only [Slot.removeTask]
  induction sl with
  | nil => simp
  | cons x sl ih =>
    by_cases hx : x.taskId = id
    · rw [List.filter_cons_of_neg (by simpa using hx), ih]
      split
      · rfl
      · rename_i hk; rw [List.find?_cons, hx, beq_false_of_ne hk]
    · rw [List.filter_cons_of_pos (by simpa using hx), List.find?_cons, ih]
      by_cases hk : id = k
      · simp only [if_pos hk, beq_false_of_ne (hk ▸ hx)]
      · simp only [if_neg hk, List.find?_cons]

theorem find_arrival (sl : Slot) (k : Nat) :
    sl.arrivalTimeTasks.2.find? (fun x => x.taskId == k) =
      (sl.find? (fun x => x.taskId == k)).map (fun t => t.checkArrived.2) := by
  simp only [Slot.arrivalTimeTasks, List.find?_map]
  congr 1
  congr 1
  funext x; simp

/-- Runs left in a copy. -/
def weight (t : Task) : Nat := (runsLeft t).getD 0

def optW : Option Task → Nat
  | some t => weight t
  | none => 0

def slotW (k : Nat) : Option Slot → Nat
  | none => 0
  | some sl => optW (sl.find? (fun x => x.taskId == k))

theorem slotW_of {k : Nat} {sl : Slot} {o : Option Task} (h : sl.find? (fun x => x.taskId == k) = o) :
    slotW k (some sl) = optW o := by
  subst h; rfl

theorem slotW_add (k : Nat) (sl : Slot) (t : Task) :
    slotW k (some (sl.addTask t)) = if t.taskId = k then weight t else slotW k (some sl) := by
  rw [slotW_of (find_addTask sl t k)]
  by_cases hk : t.taskId = k
  · rw [if_pos hk, if_pos hk]; rfl
  · rw [if_neg hk, if_neg hk]; rfl

theorem slotW_update (k : Nat) (sl : Slot) (t : Task) :
    slotW k (some (sl.updateTask t)) = if t.taskId = k then weight t else slotW k (some sl) := by
  rw [slotW_of (find_updateTask sl t k)]
  by_cases hk : t.taskId = k
  · rw [if_pos hk, if_pos hk]; rfl
  · rw [if_neg hk, if_neg hk]; rfl

theorem slotW_remove (k id : Nat) (sl : Slot) :
    slotW k (some (sl.removeTask id).2) = if id = k then 0 else slotW k (some sl) := by
  rw [slotW_of (find_removeTask sl id k)]
  by_cases hk : id = k
  · rw [if_pos hk, if_pos hk]; rfl
  · rw [if_neg hk, if_neg hk]; rfl

/-- Runs left in the copies in the first `n` slots. -/
def wheelW (k : Nat) (w : Nat → Option Slot) : Nat → Nat
  | 0 => 0
  | n + 1 => wheelW k w n + slotW k (w n)

theorem wheelW_set_ge (k : Nat) (w : Nat → Option Slot) (i : Nat) (x : Option Slot) :
    ∀ n, n ≤ i → wheelW k (set w i x) n = wheelW k w n := by
  intro n
  induction n with
  | zero => intro _; rfl
  | succ n ih =>
    intro h
    simp only [wheelW]
    rw [ih (by omega), set_other _ _ _ (by omega)]

theorem wheelW_set (k : Nat) (w : Nat → Option Slot) (i : Nat) (x : Option Slot) :
    ∀ n, i < n → wheelW k (set w i x) n + slotW k (w i) = wheelW k w n + slotW k x := by
  intro n
  induction n with
  | zero => intro h; omega
  | succ n ih =>
    intro h
    simp only [wheelW]
    by_cases hi : i = n
    · subst hi
      rw [wheelW_set_ge _ _ _ _ _ (Nat.le_refl _), set_same]; omega
    · rw [set_other _ _ _ (Ne.symm hi)]
      have := ih (by omega); omega

/-- Runs brought by an event. -/
def eventW (k : Nat) : TimerEvent → Nat
  | .addTask t => if t.taskId = k then weight t else 0
  | .insertTask t _ => if t.taskId = k then weight t else 0
  | .updateTask t => if t.taskId = k then weight t else 0
  | _ => 0

def chanW (k : Nat) (c : List TimerEvent) : Nat := (c.map (eventW k)).sum

def epcW (k : Nat) (e : EPC) : Nat := ((epcTok k e).map weight).sum

/-- The run of a copy that has just been started counts no more. -/
def tpcW (k : Nat) (p : TPC) : Nat :=
  ((heldTok k p).map weight).sum + ((startedTok k p).map (fun t => weight t - 1)).sum

/-- Runs left in all copies of `k`. -/
def total (k : Nat) (s : St) : Nat :=
  chanW k s.chan + epcW k s.epc + tpcW k s.tpc + wheelW k s.wheel 3600

theorem weight_cyl (t : Task) (c : Nat) : weight { t with cylinderLine := c } = weight t := rfl

theorem weight_ask (t : Task) : weight t.getNextExecTimestamp.2 = weight t := by
  unfold weight; rw [runsLeft_ask]

theorem weight_arrived (t : Task) : weight t.checkArrived.2 = weight t := by
  unfold Task.checkArrived; split <;> rfl

/-- A counted copy with at least one run. -/
def Counted (t : Task) : Prop := ∃ n, runsLeft t = some n ∧ 1 ≤ n

theorem Counted.weight {t : Task} (h : Counted t) : 1 ≤ weight t := by
  obtain ⟨n, h1, h2⟩ := h; simp [DelayTimer.weight, h1, h2]

theorem counted_down {oc : Bool} {t t' : Task} {b : Bool} (h : Counted t)
    (hd : t.downCountAndSetValid oc = some (b, t')) : weight t' + 1 = weight t ∧ (b = true → Counted t') := by
  obtain ⟨n, h1, h2⟩ := h
  obtain ⟨r, rfl⟩ : ∃ r, n = r + 1 := ⟨n - 1, by omega⟩
  obtain ⟨h3, h4⟩ := (down_runs hd).2.1 r h1
  refine ⟨by simp [weight, h1, h3], fun hb => ⟨r, h3, ?_⟩⟩
  have := h4.1 hb; omega

theorem counted_step {env : Env} {k : Nat} {s : St} {l : Label} {s' : St}
    (hb : ∀ t ∈ broughtBy k l, Counted t) (hs : Copies Counted Counted k s) (h : Act env s l s') :
    Copies Counted Counted k s' := by
  refine copies_step ?_ ?_ ?_ (fun _ h => h) hb hs h
  · rintro t c ⟨n, h1, h2⟩; exact ⟨n, h1, h2⟩
  · rintro t ⟨n, h1, h2⟩; exact ⟨n, by rw [runsLeft_ask]; exact h1, h2⟩
  · intro t t' h1 h2; exact (counted_down h1 h2).2 rfl

theorem chanW_cons (k : Nat) (e : TimerEvent) (c : List TimerEvent) : chanW k (e :: c) = eventW k e + chanW k c := by
  simp [chanW]

theorem chanW_append (k : Nat) (e : TimerEvent) (c : List TimerEvent) : chanW k (c ++ [e]) = chanW k c + eventW k e := by
  simp [chanW]

theorem slotW_le_of_find {k : Nat} {sl : Slot} {t : Task} (h : (sl.removeTask k).1 = some t) :
    slotW k (some sl) = weight t := by
  simp only [Slot.removeTask] at h
  simp [slotW, optW, h]

theorem sum_tok (t : Task) (k : Nat) (f : Task → Nat) :
    ((if t.taskId = k then [t] else []).map f).sum = if t.taskId = k then f t else 0 := by
  split <;> simp

theorem wheelW_put {k : Nat} {w : Nat → Option Slot} {i : Nat} {sl : Slot} (hi : i < 3600)
    (hw : w i = some sl) (t : Task) :
    wheelW k (set w i (some (sl.addTask t))) 3600 ≤ wheelW k w 3600 + if t.taskId = k then weight t else 0 := by
  have h1 := wheelW_set k w i (some (sl.addTask t)) 3600 hi
  rw [hw, slotW_add] at h1
  split at h1 <;> simp_all <;> omega

theorem wheelW_upd {k : Nat} {w : Nat → Option Slot} {i : Nat} {sl : Slot} (hi : i < 3600)
    (hw : w i = some sl) (t : Task) :
    wheelW k (set w i (some (sl.updateTask t))) 3600 ≤ wheelW k w 3600 + if t.taskId = k then weight t else 0 := by
  have h1 := wheelW_set k w i (some (sl.updateTask t)) 3600 hi
  rw [hw, slotW_update] at h1
  split at h1 <;> simp_all <;> omega

theorem wheelW_del {k : Nat} {w : Nat → Option Slot} {i : Nat} {sl : Slot} (hi : i < 3600)
    (hw : w i = some sl) (id : Nat) :
    wheelW k (set w i (some (sl.removeTask id).2)) 3600 ≤ wheelW k w 3600 := by
  have h1 := wheelW_set k w i (some (sl.removeTask id).2) 3600 hi
  rw [hw, slotW_remove] at h1
  split at h1 <;> omega

theorem wheelW_take {k : Nat} {w : Nat → Option Slot} {i : Nat} {sl : Slot} (hi : i < 3600)
    (hw : w i = some sl) {id : Nat} {t : Task} (hr : (sl.removeTask id).1 = some t) :
    wheelW k (set w i (some (sl.removeTask id).2)) 3600 + (if t.taskId = k then weight t else 0) =
      wheelW k w 3600 := by
  have h1 := wheelW_set k w i (some (sl.removeTask id).2) 3600 hi
  have h3 := (removeTask_some hr).2
  rw [hw, slotW_remove] at h1
  rw [h3]
  by_cases hk : id = k
  · subst hk
    rw [slotW_le_of_find hr] at h1
    simp_all
  · simp_all

theorem tokW (t : Task) (k : Nat) :
    ((if t.taskId = k then [t] else []).map weight).sum = if t.taskId = k then weight t else 0 := sum_tok t k weight

/-- The measure never rises except by what is brought; a start uses up one run. -/
theorem total_step {env : Env} {k : Nat} {s : St} {l : Label} {s' : St} (hw : WheelOk s)
    (hc : Copies Counted Counted k s) (h : Act env s l s') :
    (startTicks k s'.log).length + total k s' ≤
      (startTicks k s.log).length + total k s + ((broughtBy k l).map weight).sum := by
  have hstart := starts_step k h
  by_cases hsp : startTicks k s'.log = startTicks k s.log
  · rw [hsp]
    suffices total k s' ≤ total k s + ((broughtBy k l).map weight).sum by omega
    have hlt : ∀ {i sl}, s.wheel i = some sl → i < 3600 := fun hi => (hw.shape.1 _).1 (by rw [hi]; rfl)
    clear hstart
    cases h
    all_goals try (simp [total]; done)
    all_goals try (simp [total, tpcW, heldTok, startedTok, epcW, epcTok, *]; done)
    case arrive sl h hw =>
      have := wheelW_set k s.wheel s.secondHand (some sl.arrivalTimeTasks.2) 3600 (hlt hw)
      have h2 : slotW k (some sl.arrivalTimeTasks.2) = slotW k (s.wheel s.secondHand) := by
        rw [hw, slotW_of (find_arrival sl k)]; simp only [slotW]
        cases sl.find? (fun x => x.taskId == k) <;> simp [optW, weight_arrived]
      simp [total, tpcW, heldTok, startedTok, h]; omega
    case pop_hit pending id sl t h hmem hw hr =>
      have h1 := wheelW_take (k := k) (hlt hw) hw hr
      simp only [total, tpcW, heldTok, startedTok, h, tokW, List.map_nil, List.sum_nil]; omega
    case spawn pending t rec h =>
      by_cases hk : t.taskId = k
      · simp [startTicks, hk] at hsp
      · simp [total, tpcW, heldTok, startedTok, h, hk]
    case append pending t box h =>
      simp [total, tpcW, heldTok, startedTok, h, chanW_append, eventW]
    case gate_again pending t t' rec h hd =>
      have hid := down_taskId hd
      simp only [total, tpcW, heldTok, startedTok, h, sum_tok, hid]
      by_cases hk : t.taskId = k
      · have := counted_down (hc.started t (by rw [h]; simp [startedTok, hk])) hd
        simp [hk]; omega
      · simp [hk]
    case slot_ok pending t upd exec sl step slot h hn hstep hslot hw =>
      obtain ⟨u, hu1, hu2, hu3⟩ : ∃ u : Task,
          u = { t.getNextExecTimestamp.2 with cylinderLine := step / SLOT_COUNT } ∧
          u.taskId = t.taskId ∧ weight u = weight t := ⟨_, rfl, rfl, by rw [weight_cyl, weight_ask]⟩
      have h1 := wheelW_put (k := k) (hlt hw) hw u
      rw [hu2, hu3] at h1
      simp only [total, tpcW, heldTok, startedTok, h, tokW, List.map_nil, List.sum_nil, ← hu1]; omega
    case recv_add t rest he hc =>
      simp only [total, hc, he, chanW_cons, eventW, epcW, epcTok, sum_tok]; simp; omega
    case recv_insert t c rest he hc =>
      simp only [total, hc, he, chanW_cons, eventW, epcW, epcTok, sum_tok]; simp; omega
    case recv_update t rest m sl he hc hf hw =>
      have h1 := wheelW_upd (k := k) (hlt hw) hw t
      simp only [total, hc, he, chanW_cons, eventW, epcW, epcTok, done_wheel, done_tpc, done_chan, done_epc,
        List.map_nil, List.sum_nil]
      omega
    case recv_advance id rest m sl t he hc hf hw hr =>
      have h1 := wheelW_take (k := k) (hlt hw) hw hr
      have h2 := tokW { t with cylinderLine := 0 } k
      rw [weight_cyl] at h2
      simp only [total, hc, he, chanW_cons, eventW, epcW, epcTok, h2, List.map_nil, List.sum_nil]; omega
    case recv_remove id rest m sl he hc hf hw =>
      have h1 := wheelW_del (k := k) (hlt hw) hw id
      simp only [total, hc, he, chanW_cons, eventW, epcW, epcTok, List.map_nil, List.sum_nil]; omega
    case next_add1 t chain hand exec he hn =>
      simp only [total, he, epcW, epcTok]
      by_cases hk : t.taskId = k
      · simp [hk, weight_ask]
      · simp [hk]
    case next_add2 t chain hand exec ts seed slot sl he hseed hslot hw =>
      have h1 := wheelW_put (k := k) (hlt hw) hw { t with cylinderLine := seed / SLOT_COUNT }
      rw [weight_cyl] at h1
      dsimp only at h1
      simp only [total, he, epcW, epcTok, tokW, List.map_nil, List.sum_nil]; omega
    case next_adv2 t hand sl he hw =>
      have h1 := wheelW_put (k := k) (hlt hw) hw t
      simp only [total, he, epcW, epcTok, tokW, List.map_nil, List.sum_nil, done_wheel, done_tpc, done_chan,
        done_epc]
      omega
    case usend op =>
      simp only [total, push_chan, chanW_append]
      cases op <;> simp [UserOp.event, eventW, broughtBy, push, sum_tok] <;> omega
    case uinsert t =>
      simp only [total, uInsert, push_chan, chanW_append]
      simp [eventW, broughtBy, push, sum_tok]; omega
    all_goals first
      | (simp_all [total, chanW_cons, chanW_append, eventW, epcW, epcTok]; done)
      | (simp only [total]; rw [‹s.tpc = _›]; simp [tpcW, heldTok, startedTok]; done)
      | (simp only [total]; rw [‹s.tpc = _›]; simp [tpcW, heldTok, startedTok]; omega)
      | (simp_all [total, chanW_cons, eventW, epcW, epcTok]; omega)
  · rcases hstart with h1 | ⟨rfl, p, t, rec, box, h1, h2, h3, h4⟩
    · exact absurd h1.1 hsp
    · cases h with
      | spawn p' t' rec' h5 =>
        rw [h1] at h5; cases h5
        have := (hc.held t (by rw [h1]; simp [heldTok, h3])).weight
        simp only [startTicks, h3, if_true, List.length_append, List.length_singleton]
        simp [total, tpcW, heldTok, startedTok, h1, h3]; omega

theorem total_run {env : Env} {k : Nat} : ∀ (ls : List Label) {s s' : St}, WheelOk s →
    Copies Counted Counted k s → (∀ t ∈ handed k ls, Counted t) → run env s ls = some s' →
    (startTicks k s'.log).length + total k s' ≤
      (startTicks k s.log).length + total k s + ((handed k ls).map weight).sum := by
  intro ls
  induction ls with
  | nil => intro s s' _ _ _ hr; cases hr; simp [handed]
  | cons l ls ih =>
    intro s s' hw hc ht hr
    simp only [run] at hr
    have hh : handed k (l :: ls) = broughtBy k l ++ handed k ls := by simp [handed]
    rw [hh] at ht ⊢
    split at hr
    · rename_i s1 h1
      have h1 := step_act h1
      have h2 := total_step hw hc h1
      have h3 := ih (wheelOk_step hw h1)
        (counted_step (fun t h => ht t (List.mem_append_left _ h)) hc h1)
        (fun t h => ht t (List.mem_append_right _ h)) hr
      rw [List.map_append, List.sum_append]; omega
    · cases hr

end DelayTimer
