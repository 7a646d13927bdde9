import Verif.Spec.PipesLazy
import Verif.Props.Pipes

/-!
# C62: pipelines whose programs need not end by themselves (`yes | head`)

The last process ends as soon as it has what it needs, whatever the other ones would go on to do.
-/

namespace DelayTimer
open Spec

section
variable {σ : Type} {P : Pipeline} {next : Nat → σ → ProcAct σ} {start : Nat → σ} {r : AsNeeded P next start}

/-! Inversion of `Partly` by the next action. -/

theorem Spec.Partly.of_zero {f : σ → ProcAct σ} {s : σ} {xs o : List Nat} {e : Nat} {b d : Bool} (h : Partly f s xs o e 0 b d) :
    o = [] ∧ d = false := by
  cases h; exact ⟨rfl, rfl⟩

theorem Spec.Partly.of_exit {f : σ → ProcAct σ} {s : σ} {xs o : List Nat} {e n : Nat} {b d : Bool} (h : Partly f s xs o e n b d)
    (h0 : 0 < n) (hn : f s = .exit) : o = [] ∧ n = 1 ∧ d = true := by
  cases h <;> simp_all

theorem Spec.Partly.of_think {f : σ → ProcAct σ} {s k : σ} {xs o : List Nat} {e n : Nat} {b d : Bool} (h : Partly f s xs o e n b d)
    (h0 : 0 < n) (hn : f s = .think k) : ∃ m, n = m + 1 ∧ Partly f k xs o e m b d := by
  cases h <;> simp_all

theorem Spec.Partly.of_out {f : σ → ProcAct σ} {s k : σ} {x : Nat} {xs o : List Nat} {e n : Nat} {b d : Bool}
    (h : Partly f s xs o e n b d) (h0 : 0 < n) (hn : f s = .out x k) :
    ∃ m o', n = m + 1 ∧ o = x :: o' ∧ Partly f k xs o' e m b d := by
  cases h <;> simp_all

theorem Spec.Partly.of_err {f : σ → ProcAct σ} {s k : σ} {xs o : List Nat} {e n : Nat} {b d : Bool} (h : Partly f s xs o e n b d)
    (h0 : 0 < n) (hn : f s = .err k) : ∃ m e', n = m + 1 ∧ e = e' + 1 ∧ Partly f k xs o e' m b d := by
  cases h <;> simp_all

theorem Spec.Partly.of_read {f : σ → ProcAct σ} {s : σ} {k : Option Nat → σ} {xs o : List Nat} {e n : Nat} {b d : Bool}
    (h : Partly f s xs o e n b d) (h0 : 0 < n) (hn : f s = .read k) :
    (∃ m x ys, n = m + 1 ∧ xs = x :: ys ∧ Partly f (k (some x)) ys o e m b d) ∨
    (∃ m b', n = m + 1 ∧ xs = [] ∧ b = true ∧ Partly f (k none) [] o e m b' d) := by
  cases h with
  | byte h r => rw [hn] at h; cases h; exact Or.inl ⟨_, _, _, rfl, rfl, r⟩
  | eof h r => rw [hn] at h; cases h; exact Or.inr ⟨_, _, rfl, rfl, rfl, r⟩
  | stop => omega
  | exit h => rw [hn] at h; cases h
  | think h => rw [hn] at h; cases h
  | out h => rw [hn] at h; cases h
  | err h => rw [hn] at h; cases h

/-- What is needed of the input. -/
def Spec.AsNeeded.src (r : AsNeeded P next start) : Nat → List Nat
  | 0 => P.input
  | i + 1 => r.outs i

/-- The input ends after that. -/
def Spec.AsNeeded.closed (r : AsNeeded P next start) : Nat → Prop
  | 0 => True
  | i + 1 => r.ends i = true

/-- A process of which `m` more actions are needed. -/
def Needed (r : AsNeeded P next start) (c : PipeSt σ) (i m : Nat) (s : σ) : Prop :=
  ∃ used xs o e f, 0 < m ∧ Partly (next i) s xs o e m f (r.ends i) ∧ used ++ xs = r.src i ∧
    used ++ c.avail i = c.received P i ∧ c.written i ++ o = r.outs i ∧ c.errPipe i + e = r.errs i ∧ (f = true → r.closed i)

/-- A process that has done what is needed. -/
def Spare (r : AsNeeded P next start) (c : PipeSt σ) (i m : Nat) : Prop :=
  m = 0 ∧ r.ends i = false ∧ r.outs i <+: c.written i

/-- A process that has ended: nobody reads its output any more, or it has done what is needed. -/
def Left (r : AsNeeded P next start) (c : PipeSt σ) (i : Nat) : Prop :=
  (i + 1 < P.count ∧ c.st (i + 1) = none) ∨ (r.ends i = true ∧ c.written i = r.outs i) ∨
    (r.ends i = false ∧ r.outs i <+: c.written i)

structure LazyOk (r : AsNeeded P next start) (c : PipeSt σ) (left : Nat → Nat) : Prop where
  going : ∀ i s, i < P.count → c.st i = some s → Needed r c i (left i) s ∨ Spare r c i (left i)
  over : ∀ i, i < P.count → c.st i = none → Left r c i
  beyond : ∀ i, P.count ≤ i → c.st i = none
  last : P.toFile = false → ∀ i, i + 1 = P.count → c.pipe i = c.written i

theorem needed_or {c : PipeSt σ} {i m e : Nat} {s : σ} {used xs o : List Nat} {f : Bool}
    (h1 : Partly (next i) s xs o e m f (r.ends i)) (h2 : used ++ xs = r.src i) (h3 : used ++ c.avail i = c.received P i)
    (h4 : c.written i ++ o = r.outs i) (h5 : c.errPipe i + e = r.errs i) (h6 : f = true → r.closed i) :
    Needed r c i m s ∨ Spare r c i m := by
  cases m with
  | zero =>
    obtain ⟨rfl, hd⟩ := h1.of_zero
    rw [List.append_nil] at h4
    exact Or.inr ⟨rfl, hd, h4 ▸ List.prefix_rfl⟩
  | succ m => exact Or.inl ⟨used, xs, o, e, f, Nat.succ_pos _, h1, h2, h3, h4, h5, h6⟩

theorem LazyOk.init (r : AsNeeded P next start) : LazyOk r (PipeSt.init P start) r.ns where
  going := by
    intro i s hi hs
    simp only [PipeSt.init, if_pos hi, Option.some.injEq] at hs
    subst hs
    cases i with
    | zero => exact needed_or (used := []) (r.first hi) rfl rfl rfl (by simp [PipeSt.init]) (fun _ => trivial)
    | succ i => exact needed_or (used := []) (r.later i hi) rfl rfl rfl (by simp [PipeSt.init]) (fun h => r.whole i hi h)
  over := by
    intro i hi hs
    simp [PipeSt.init, if_pos hi] at hs
  beyond := by
    intro i hi
    simp only [PipeSt.init]
    rw [if_neg (by omega)]
  last := fun _ _ _ => rfl

/-- What has been written and what is needed agree, if somebody reads it. -/
theorem LazyOk.agree {c : PipeSt σ} {left : Nat → Nat} (h : LazyOk r c left) {j : Nat} (hj : j < P.count)
    (hr : j + 1 < P.count → c.st (j + 1) ≠ none) :
    c.written j <+: r.outs j ∨ (r.ends j = false ∧ r.outs j <+: c.written j) := by
  cases hp : c.st j with
  | none =>
    rcases h.over j hj hp with ⟨h1, h2⟩ | ⟨_, h2⟩ | h2
    · exact absurd h2 (hr h1)
    · exact Or.inl (h2 ▸ List.prefix_rfl)
    · exact Or.inr h2
  | some q =>
    rcases h.going j q hj hp with ⟨_, _, o, _, _, _, _, _, _, h1, _⟩ | ⟨_, h2⟩
    · exact Or.inl ⟨o, h1⟩
    · exact Or.inr h2

/-- An action of process `i` leaves the others as they were. -/
theorem LazyOk.update {c c' : PipeSt σ} {left : Nat → Nat} (h : LazyOk r c left) {i m : Nat} {s : σ} {v : Option σ}
    (hs : c.st i = some s) (hst : c'.st = set c.st i v) (hw : ∀ j, j ≠ i → c'.written j = c.written j)
    (he : ∀ j, j ≠ i → c'.errPipe j = c.errPipe j)
    (ha : ∀ j, j ≠ i → j < P.count → ∀ used, used ++ c.avail j = c.received P j → used ++ c'.avail j = c'.received P j)
    (hsome : ∀ k, v = some k → Needed r c' i m k ∨ Spare r c' i m) (hnone : v = none → Left r c' i)
    (h6 : P.toFile = false → ∀ j, j + 1 = P.count → c'.pipe j = c'.written j) : LazyOk r c' (set left i m) := by
  have hstay : ∀ j, c.st j = none → c'.st j = none := by
    intro j hj
    rw [hst, set_apply]
    split
    · rename_i hji; rw [hji, hs] at hj; cases hj
    · exact hj
  have hlt : i < P.count := by
    refine Nat.lt_of_not_le fun hle => ?_
    rw [h.beyond i hle] at hs; cases hs
  refine ⟨?_, ?_, fun j hj => hstay j (h.beyond j hj), h6⟩
  · intro j q hj hq
    rw [hst, set_apply] at hq
    rw [set_apply]
    split at hq
    · rename_i hji; subst hji
      rw [if_pos rfl]
      exact hsome q hq
    · rename_i hji
      rw [if_neg hji]
      rcases h.going j q hj hq with ⟨used, xs, o, e, f, h0, h1, h2, h3, h4, h5, h7⟩ | ⟨h1, h2, h3⟩
      · exact Or.inl ⟨used, xs, o, e, f, h0, h1, h2, ha j hji hj used h3, by rw [hw j hji]; exact h4,
          by rw [he j hji]; exact h5, h7⟩
      · exact Or.inr ⟨h1, h2, by rw [hw j hji]; exact h3⟩
  · intro j hj hq
    rw [hst, set_apply] at hq
    split at hq
    · rename_i hji; subst hji
      exact hnone hq
    · rename_i hji
      unfold Left
      rw [hw j hji]
      rcases h.over j hj hq with ⟨h1, h2⟩ | h1
      · exact Or.inl ⟨h1, hstay _ h2⟩
      · exact Or.inr h1

theorem LazyOk.step {c c' : PipeSt σ} {left : Nat → Nat} {i : Nat} (hok : LazyOk r c left)
    (h : PipeAct P next c i c') : ∃ m, (left i = 0 → m = 0) ∧ (0 < left i → m < left i) ∧ LazyOk r c' (set left i m) := by
  have key : ∀ s, c.st i = some s → i < P.count ∧ (Needed r c i (left i) s ∨ Spare r c i (left i)) := by
    intro s hs
    have hlt : i < P.count := by
      refine Nat.lt_of_not_le fun hle => ?_
      rw [hok.beyond i hle] at hs; cases hs
    exact ⟨hlt, hok.going i s hlt hs⟩
  have same : ∀ (j : Nat), j ≠ i → j < P.count → ∀ used, used ++ c.avail j = c.received P j →
      used ++ c.avail j = c.received P j := fun _ _ _ _ h => h
  cases h with
  | exit s hs hn =>
    obtain ⟨hi, ⟨used, xs, o, e, f, h0, h1, h2, h3, h4, h5, h6⟩ | ⟨h0, h1, h2⟩⟩ := key s hs
    · obtain ⟨rfl, hm, hd⟩ := h1.of_exit h0 hn
      refine ⟨0, fun _ => rfl, fun h => h, hok.update hs rfl (fun _ _ => rfl) (fun _ _ => rfl) same (by intro k hk; cases hk) ?_
        hok.last⟩
      intro _
      rw [List.append_nil] at h4
      exact Or.inr (Or.inl ⟨hd, h4⟩)
    · exact ⟨0, fun _ => rfl, fun h => h, hok.update hs rfl (fun _ _ => rfl) (fun _ _ => rfl) same (by intro k hk; cases hk)
        (fun _ => Or.inr (Or.inr ⟨h1, h2⟩)) hok.last⟩
  | think s k hs hn =>
    obtain ⟨hi, ⟨used, xs, o, e, f, h0, h1, h2, h3, h4, h5, h6⟩ | ⟨h0, h1, h2⟩⟩ := key s hs
    · obtain ⟨m, hm, h1⟩ := h1.of_think h0 hn
      refine ⟨m, by omega, by omega, hok.update hs rfl (fun _ _ => rfl) (fun _ _ => rfl) same ?_ (by intro hk; cases hk)
        hok.last⟩
      intro k' hk; cases hk
      exact needed_or h1 h2 h3 h4 h5 h6
    · exact ⟨0, fun _ => rfl, fun h => h, hok.update hs rfl (fun _ _ => rfl) (fun _ _ => rfl) same
        (fun _ _ => Or.inr ⟨rfl, h1, h2⟩) (by intro hk; cases hk) hok.last⟩
  | err s k hs hn hc =>
    obtain ⟨hi, ⟨used, xs, o, e, f, h0, h1, h2, h3, h4, h5, h6⟩ | ⟨h0, h1, h2⟩⟩ := key s hs
    · obtain ⟨m, e', hm, he, h1⟩ := h1.of_err h0 hn
      refine ⟨m, by omega, by omega, hok.update hs rfl (fun _ _ => rfl) (fun j hj => set_other _ _ _ hj) same ?_
        (by intro hk; cases hk) hok.last⟩
      intro k' hk; cases hk
      refine needed_or h1 h2 h3 h4 ?_ h6
      show set c.errPipe i _ i + e' = _
      rw [set_same]; omega
    · exact ⟨0, fun _ => rfl, fun h => h, hok.update hs rfl (fun _ _ => rfl) (fun j hj => set_other _ _ _ hj) same
        (fun _ _ => Or.inr ⟨rfl, h1, h2⟩) (by intro hk; cases hk) hok.last⟩
  | file s k b hs hn hi hf =>
    have ha : ∀ j, j ≠ i → j < P.count → ∀ used, used ++ c.avail j = c.received P j → used ++ c.avail j =
        PipeSt.received P { c with st := set c.st i (some k), written := set c.written i (c.written i ++ [b]) } j := by
      intro j hj hlt used h
      cases j with
      | zero => exact h
      | succ j =>
        show used ++ c.pipe j = set c.written i _ j
        rw [set_other _ _ _ (by omega)]; exact h
    obtain ⟨_, ⟨used, xs, o, e, f, h0, h1, h2, h3, h4, h5, h6⟩ | ⟨h0, h1, h2⟩⟩ := key s hs
    · obtain ⟨m, o', hm, rfl, h1'⟩ := h1.of_out h0 hn
      refine ⟨m, by omega, by omega, hok.update hs rfl (fun j hj => set_other _ _ _ hj) (fun _ _ => rfl) ha ?_
        (by intro hk; cases hk) (by rw [hf]; intro h; cases h)⟩
      intro k' hk; cases hk
      refine needed_or h1' h2 ?_ ?_ h5 h6
      · cases i with
        | zero => exact h3
        | succ i =>
          show used ++ c.pipe i = set c.written (i + 1) _ i
          rw [set_other _ _ _ (by omega)]; exact h3
      · show set c.written i _ i ++ o' = _
        rw [set_same, List.append_assoc]; exact h4
    · refine ⟨0, fun _ => rfl, fun h => h, hok.update hs rfl (fun j hj => set_other _ _ _ hj) (fun _ _ => rfl) ha
        (fun _ _ => Or.inr ⟨rfl, h1, ?_⟩) (by intro hk; cases hk) (by rw [hf]; intro h; cases h)⟩
      show _ <+: set c.written i _ i
      rw [set_same]
      exact h2.trans (List.prefix_append _ _)
  | sigpipe s k b hs hn hi hr =>
    refine ⟨0, fun _ => rfl, fun h => h, hok.update hs rfl (fun _ _ => rfl) (fun _ _ => rfl) same (by intro k hk; cases hk)
      (fun _ => Or.inl ⟨hi, ?_⟩) hok.last⟩
    show set c.st i none (i + 1) = none
    rw [set_other _ _ _ (by omega)]; exact hr
  | out s k b hs hn hi hr hc =>
    have ha : ∀ j, j ≠ i → j < P.count → ∀ used, used ++ c.avail j = c.received P j →
        used ++ PipeSt.avail { c with
          st := set c.st i (some k)
          pipe := set c.pipe i (c.pipe i ++ [b])
          written := set c.written i (c.written i ++ [b]) } j = PipeSt.received P { c with
          st := set c.st i (some k)
          pipe := set c.pipe i (c.pipe i ++ [b])
          written := set c.written i (c.written i ++ [b]) } j := by
      intro j hj hlt used h
      cases j with
      | zero => exact h
      | succ j =>
        show used ++ set c.pipe i _ j = set c.written i _ j
        rw [set_apply, set_apply]
        split
        · rename_i hji; subst hji
          rw [← List.append_assoc]
          exact congrArg (· ++ [b]) h
        · exact h
    have hl : P.toFile = false → ∀ j, j + 1 = P.count →
        set c.pipe i (c.pipe i ++ [b]) j = set c.written i (c.written i ++ [b]) j := by
      intro hf j hj
      rw [set_apply, set_apply]; split
      · rename_i hji; subst hji
        rw [hok.last hf _ hj]
      · exact hok.last hf j hj
    obtain ⟨_, ⟨used, xs, o, e, f, h0, h1, h2, h3, h4, h5, h6⟩ | ⟨h0, h1, h2⟩⟩ := key s hs
    · obtain ⟨m, o', hm, rfl, h1'⟩ := h1.of_out h0 hn
      refine ⟨m, by omega, by omega, hok.update hs rfl (fun j hj => set_other _ _ _ hj) (fun _ _ => rfl) ha ?_
        (by intro hk; cases hk) hl⟩
      intro k' hk; cases hk
      refine needed_or h1' h2 ?_ ?_ h5 h6
      · cases i with
        | zero => exact h3
        | succ i =>
          show used ++ set c.pipe (i + 1) _ i = set c.written (i + 1) _ i
          rw [set_other _ _ _ (by omega), set_other _ _ _ (by omega)]; exact h3
      · show set c.written i _ i ++ o' = _
        rw [set_same, List.append_assoc]; exact h4
    · refine ⟨0, fun _ => rfl, fun h => h, hok.update hs rfl (fun j hj => set_other _ _ _ hj) (fun _ _ => rfl) ha
        (fun _ _ => Or.inr ⟨rfl, h1, ?_⟩) (by intro hk; cases hk) hl⟩
      show _ <+: set c.written i _ i
      rw [set_same]
      exact h2.trans (List.prefix_append _ _)
  | stdin s k b rest hs hn hi hl =>
    subst hi
    have ha : ∀ j, j ≠ 0 → j < P.count → ∀ used, used ++ c.avail j = c.received P j →
        used ++ PipeSt.avail { c with st := set c.st 0 (some (k (some b))), inLeft := rest } j = c.received P j := by
      intro j hj hlt used h
      cases j with
      | zero => exact absurd rfl hj
      | succ j => exact h
    obtain ⟨_, ⟨used, xs, o, e, f, h0, h1, h2, h3, h4, h5, h6⟩ | ⟨h0, h1, h2⟩⟩ := key s hs
    · have hx : xs = b :: rest := by
        have : used ++ xs = used ++ c.inLeft := by rw [h2]; exact h3.symm
        rw [List.append_cancel_left this, hl]
      rcases h1.of_read h0 hn with ⟨m, x, ys, hm, hx', h1⟩ | ⟨_, _, _, hx', _⟩
      · rw [hx] at hx'; cases hx'
        refine ⟨m, by omega, by omega, hok.update hs rfl (fun _ _ => rfl) (fun _ _ => rfl) ha ?_ (by intro hk; cases hk)
          hok.last⟩
        intro k' hk; cases hk
        refine needed_or (used := used ++ [b]) h1 ?_ ?_ h4 h5 h6
        · rw [List.append_assoc, ← h2, hx]; rfl
        · rw [List.append_assoc]
          rw [show c.avail 0 = b :: rest from hl] at h3
          exact h3
      · rw [hx] at hx'; cases hx'
    · exact ⟨0, fun _ => rfl, fun h => h, hok.update hs rfl (fun _ _ => rfl) (fun _ _ => rfl) ha
        (fun _ _ => Or.inr ⟨rfl, h1, h2⟩) (by intro hk; cases hk) hok.last⟩
  | read s k b rest j hs hn hi hl =>
    subst hi
    have ha : ∀ q, q ≠ j + 1 → q < P.count → ∀ used, used ++ c.avail q = c.received P q →
        used ++ PipeSt.avail { c with st := set c.st (j + 1) (some (k (some b))), pipe := set c.pipe j rest } q =
          c.received P q := by
      intro q hq hlt used h
      cases q with
      | zero => exact h
      | succ q =>
        show used ++ set c.pipe j _ q = _
        rw [set_other _ _ _ (by omega)]; exact h
    obtain ⟨hi, hcase⟩ := key s hs
    have hlast : P.toFile = false → ∀ q, q + 1 = P.count → set c.pipe j rest q = c.written q := by
      intro hf q hq
      rw [set_other _ _ _ (by omega)]; exact hok.last hf q hq
    rcases hcase with ⟨used, xs, o, e, f, h0, h1, h2, h3, h4, h5, h6⟩ | ⟨h0, h1, h2⟩
    · have h3' : used ++ b :: rest = c.written j := by rw [← hl]; exact h3
      have h2' : used ++ xs = r.outs j := h2
      have hagree := hok.agree (j := j) (by omega) (fun _ => by rw [hs]; simp)
      rcases h1.of_read h0 hn with ⟨m, x, ys, hm, hx', h1'⟩ | ⟨_, _, _, hx', hf', _⟩
      · subst hx'
        have hbx : b = x := by
          rcases hagree with ⟨z, hz⟩ | ⟨_, z, hz⟩
          · rw [← h3', ← h2', List.append_assoc] at hz
            have := List.append_cancel_left hz
            simp at this; exact this.1
          · rw [← h3', ← h2', List.append_assoc] at hz
            have := List.append_cancel_left hz
            simp at this; exact this.1.symm
        subst hbx
        refine ⟨m, by omega, by omega, hok.update hs rfl (fun _ _ => rfl) (fun _ _ => rfl) ha ?_ (by intro hk; cases hk) hlast⟩
        intro k' hk; cases hk
        refine needed_or (used := used ++ [b]) h1' ?_ ?_ h4 h5 h6
        · rw [List.append_assoc, ← h2]; rfl
        · show used ++ [b] ++ set c.pipe j _ j = c.written j
          rw [set_same, List.append_assoc]; exact h3'
      · exfalso
        subst hx'
        rw [List.append_nil] at h2'
        rcases hagree with ⟨z, hz⟩ | ⟨hz, _⟩
        · rw [← h3', h2'] at hz
          have := congrArg List.length hz
          simp at this
        · have : r.ends j = true := h6 hf'
          rw [hz] at this; cases this
    · exact ⟨0, fun _ => rfl, fun h => h, hok.update hs rfl (fun _ _ => rfl) (fun _ _ => rfl) ha
        (fun _ _ => Or.inr ⟨rfl, h1, h2⟩) (by intro hk; cases hk) hlast⟩
  | eof s k hs hn hl hf =>
    obtain ⟨hi, ⟨used, xs, o, e, f, h0, h1, h2, h3, h4, h5, h6⟩ | ⟨h0, h1, h2⟩⟩ := key s hs
    · have hx : xs = [] := by
        rw [hl, List.append_nil] at h3
        have hpre : r.src i <+: c.received P i := by
          cases i with
          | zero => exact List.prefix_rfl
          | succ j =>
            have hj : c.st j = none := Classical.not_not.1 hf
            rcases hok.over j (by omega) hj with ⟨_, h7⟩ | ⟨_, h7⟩ | ⟨_, h7⟩
            · rw [hs] at h7; cases h7
            · show r.outs j <+: c.written j
              rw [h7]
              exact List.prefix_rfl
            · exact h7
        obtain ⟨z, hz⟩ := hpre
        rw [← h2, ← h3, List.append_assoc] at hz
        have := congrArg List.length hz
        simp at this
        exact this.1
      rcases h1.of_read h0 hn with ⟨_, _, _, _, hx', _⟩ | ⟨m, b', hm, _, hf', h1⟩
      · rw [hx] at hx'; cases hx'
      · refine ⟨m, by omega, by omega, hok.update hs rfl (fun _ _ => rfl) (fun _ _ => rfl) same ?_ (by intro hk; cases hk)
          hok.last⟩
        intro k' hk; cases hk
        exact needed_or h1 (by rw [← h2, hx]) h3 h4 h5 (fun _ => h6 hf')
    · exact ⟨0, fun _ => rfl, fun h => h, hok.update hs rfl (fun _ _ => rfl) (fun _ _ => rfl) same
        (fun _ _ => Or.inr ⟨rfl, h1, h2⟩) (by intro hk; cases hk) hok.last⟩

/-! ## Nobody is in the way of what is needed -/

theorem LazyOk.able {c : PipeSt σ} {left : Nat → Nat} (hok : LazyOk r c left) (hcap : 0 < P.cap) (hroom : Room r) :
    ∀ (i : Nat) {s : σ}, i < P.count → c.st i = some s → Needed r c i (left i) s → (i + 1 < P.count → c.pipe i = []) →
      ∃ j, 0 < left j ∧ c.step P next j ≠ none := by
  intro i
  induction i with
  | zero =>
    intro s hi hs hneed hpipe
    obtain ⟨used, xs, o, e, f, h0, h1, h2, h3, h4, h5, h6⟩ := hneed
    refine ⟨0, h0, fun hb => ?_⟩
    simp only [PipeSt.step, hs] at hb
    split at hb
    · cases hb
    · cases hb
    · rename_i k hn
      split at hb
      · cases hb
      · obtain ⟨m, e', hm, he, _⟩ := h1.of_err h0 hn
        have := hroom.errs 0 hi
        omega
    · rename_i b k hn
      obtain ⟨m, o', hm, rfl, _⟩ := h1.of_out h0 hn
      split at hb
      · cases hb
      · rename_i hf
        split at hb
        · cases hb
        · split at hb
          · cases hb
          · rename_i hc
            by_cases hlast : 0 + 1 = P.count
            · have htf : P.toFile = false := by
                cases h : P.toFile with
                | false => rfl
                | true => exact absurd ⟨hlast, h⟩ hf
              have h7 := hroom.last htf 0 hlast
              rw [hok.last htf 0 hlast] at hc
              rw [← h4, List.length_append, List.length_cons] at h7
              omega
            · exact hc (by rw [hpipe (by omega)]; exact hcap)
    · split at hb <;> cases hb
  | succ i ih =>
    intro s hi hs hneed hpipe
    obtain ⟨used, xs, o, e, f, h0, h1, h2, h3, h4, h5, h6⟩ := hneed
    cases hb : c.step P next (i + 1) with
    | some c' => exact ⟨i + 1, h0, by rw [hb]; exact fun h => nomatch h⟩
    | none =>
      simp only [PipeSt.step, hs] at hb
      split at hb
      · cases hb
      · cases hb
      · rename_i k hn
        split at hb
        · cases hb
        · obtain ⟨m, e', hm, he, _⟩ := h1.of_err h0 hn
          have := hroom.errs (i + 1) hi
          omega
      · rename_i b k hn
        obtain ⟨m, o', hm, rfl, _⟩ := h1.of_out h0 hn
        split at hb
        · cases hb
        · rename_i hf
          split at hb
          · cases hb
          · split at hb
            · cases hb
            · rename_i hc
              exfalso
              by_cases hlast : i + 1 + 1 = P.count
              · have htf : P.toFile = false := by
                  cases h : P.toFile with
                  | false => rfl
                  | true => exact absurd ⟨hlast, h⟩ hf
                have h7 := hroom.last htf (i + 1) hlast
                rw [hok.last htf (i + 1) hlast] at hc
                rw [← h4, List.length_append, List.length_cons] at h7
                omega
              · exact hc (by rw [hpipe (by omega)]; exact hcap)
      · rename_i k hn
        split at hb
        · cases hb
        · rename_i hl
          split at hb
          · cases hb
          · rename_i hd
            cases hp : c.st i with
            | none => rw [hp] at hd; exact absurd rfl hd
            | some q =>
              rcases hok.going i q (by omega) hp with hneed | ⟨_, g1, g2⟩
              · exact ih (by omega) hp hneed (fun _ => hl)
              · exfalso
                have h3' : used ++ c.pipe i = c.written i := h3
                have h2' : used ++ xs = r.outs i := h2
                rw [hl, List.append_nil] at h3'
                obtain ⟨z, hz⟩ := g2
                rw [← h2', ← h3', List.append_assoc] at hz
                have hx : xs = [] := by
                  have := congrArg List.length hz
                  simp at this
                  exact this.1
                rcases h1.of_read h0 hn with ⟨_, _, _, _, hx', _⟩ | ⟨_, _, _, _, hf', _⟩
                · rw [hx] at hx'; cases hx'
                · have : r.ends i = true := h6 hf'
                  rw [g1] at this; cases this

/-- A process that can go on can still go on after an action of another one. -/
theorem able_stays {c c' : PipeSt σ} {i j : Nat} (hij : j ≠ i) (h : PipeAct P next c j c')
    (hi : c.step P next i ≠ none) : c'.step P next i ≠ none := by
  have h1 : c'.st i = c.st i := by cases h <;> exact set_other _ _ _ (Ne.symm hij)
  have h2 : c'.errPipe i = c.errPipe i := by
    cases h <;> first | rfl | exact set_other _ _ _ (Ne.symm hij)
  have h3 : (c'.pipe i).length ≤ (c.pipe i).length := by
    cases h with
    | out => exact Nat.le_of_eq (congrArg _ (set_other _ _ _ (Ne.symm hij)))
    | read s k b rest q hs hn hq hl =>
      show (set c.pipe q rest i).length ≤ _
      rw [set_apply]
      split
      · rename_i hiq; rw [hiq, hl]; simp
      · exact Nat.le_refl _
    | _ => exact Nat.le_refl _
  have h4 : ∀ q, c.st q = none → c'.st q = none := by
    intro q hq
    have hjq : q ≠ j := by
      rintro rfl
      cases h <;> simp_all
    cases h <;> exact (set_other _ _ _ hjq).trans hq
  have h5 : i = 0 → c'.inLeft = c.inLeft := by
    intro hi0
    cases h <;> first | rfl | (subst hi0; simp_all)
  have h6 : ∀ q, i = q + 1 → c.pipe q ≠ [] → c'.pipe q ≠ [] := by
    intro q hq hne
    cases h with
    | out =>
      show set c.pipe j _ q ≠ []
      rw [set_apply]
      split <;> simp_all
    | read s k b rest p hs hn hp hl =>
      show set c.pipe p rest q ≠ []
      rw [set_other _ _ _ (by omega)]; exact hne
    | _ => exact hne
  intro hb
  apply hi
  simp only [PipeSt.step, h1] at hb ⊢
  cases hs : c.st i with
  | none => rfl
  | some s =>
    rw [hs] at hb
    simp only at hb ⊢
    cases hn : next i s with
    | exit => rw [hn] at hb; cases hb
    | think k => rw [hn] at hb; cases hb
    | err k =>
      rw [hn] at hb
      simp only [h2] at hb ⊢
      split at hb
      · cases hb
      · rename_i hc; rw [if_neg hc]
    | out b k =>
      rw [hn] at hb
      simp only at hb ⊢
      split at hb
      · cases hb
      · rename_i hf
        rw [if_neg hf]
        split at hb
        · cases hb
        · rename_i hr
          split at hb
          · cases hb
          · rename_i hc
            rw [if_neg, if_neg (by omega)]
            rintro ⟨g1, g2⟩
            exact hr ⟨g1, by rw [h4 _ (by simpa using g2)]; rfl⟩
    | read k =>
      rw [hn] at hb
      cases i with
      | zero =>
        simp only at hb
        split at hb <;> cases hb
      | succ q =>
        simp only at hb ⊢
        split at hb
        · cases hb
        · rename_i hl
          split at hb
          · cases hb
          · rename_i hd
            have hp : c.pipe q = [] := Classical.byContradiction fun hne => h6 q rfl hne hl
            rw [hp]
            simp only
            rw [if_neg]
            intro hq
            exact hd (by rw [h4 q (by simpa using hq)]; rfl)

/-! ## Executions -/

theorem toGo_le {n i m : Nat} {left : Nat → Nat} (hi : i < n) (hm : m ≤ left i) : toGo n (set left i m) ≤ toGo n left := by
  rcases Nat.lt_or_eq_of_le hm with h | h
  · exact Nat.le_of_lt (toGo_set hi h)
  · rw [h]
    have : set left i (left i) = left := by
      funext j; rw [set_apply]; split
      · rename_i hj; rw [hj]
      · rfl
    rw [this]
    exact Nat.le_refl _

theorem LazyOk.run {c c' : PipeSt σ} {left : Nat → Nat} {is : List Nat} (hok : LazyOk r c left)
    (h : c.run P next is = some c') : ∃ left', LazyOk r c' left' := by
  induction is generalizing c left with
  | nil => cases h; exact ⟨left, hok⟩
  | cons i is ih =>
    simp only [PipeSt.run] at h
    split at h
    · rename_i c1 h1
      obtain ⟨m, _, _, hok1⟩ := hok.step (pipe_act h1)
      exact ih hok1 h
    · cases h

/-- **C62, the output.** Also if the other processes would not end by themselves (`yes | head`): however they are
interleaved, what the last process has written is the beginning of what it writes if each process is run just as far as
the next one needs it, and all of that when it has ended. -/
theorem C62_needed_output (r : AsNeeded P next start) {is : List Nat} {c : PipeSt σ}
    (h : (PipeSt.init P start).run P next is = some c) {i : Nat} (hi : i + 1 = P.count) :
    c.written i <+: r.outs i ∧ (c.st i = none → c.written i = r.outs i) := by
  obtain ⟨left, hok⟩ := (LazyOk.init r).run h
  constructor
  · rcases hok.agree (j := i) (by omega) (fun h => by omega) with h | ⟨h, _⟩
    · exact h
    · rw [r.last i hi] at h; cases h
  · intro hn
    rcases hok.over i (by omega) hn with ⟨h, _⟩ | ⟨_, h⟩ | ⟨h, _⟩
    · omega
    · exact h
    · rw [r.last i hi] at h; cases h

theorem LazyOk.turn {c : PipeSt σ} {left : Nat → Nat} (hok : LazyOk r c left) (i : Nat) :
    ∃ left', LazyOk r ((c.step P next i).getD c) left' ∧ (∀ j, j ≠ i → left' j = left j) ∧ left' i ≤ left i ∧
      (c.step P next i ≠ none → 0 < left i → left' i < left i) ∧ toGo P.count left' ≤ toGo P.count left ∧
      (left' i < left i → toGo P.count left' < toGo P.count left) := by
  cases h : c.step P next i with
  | none =>
    exact ⟨left, hok, fun _ _ => rfl, Nat.le_refl _, fun h => absurd rfl h, Nat.le_refl _, fun h => absurd h (Nat.lt_irrefl _)⟩
  | some c' =>
    have ha := pipe_act h
    obtain ⟨m, hm0, hm, hok'⟩ := hok.step ha
    have hi : i < P.count := by
      refine Nat.lt_of_not_le fun hle => ?_
      have := hok.beyond i hle
      cases ha <;> simp_all
    have hle : m ≤ left i := by
      rcases Nat.eq_zero_or_pos (left i) with h | h
      · rw [hm0 h]; exact Nat.zero_le _
      · exact Nat.le_of_lt (hm h)
    refine ⟨set left i m, hok', fun j hj => set_other _ _ _ hj, ?_, ?_, toGo_le hi hle, ?_⟩
    · rw [set_same]; exact hle
    · intro _ h; rw [set_same]; exact hm h
    · intro h; rw [set_same] at h; exact toGo_set hi h

/-- While process `i` gets no turn, it can go on still. -/
theorem able_until {w : Nat → Nat} {i : Nat} : ∀ (d n : Nat) {left : Nat → Nat}, (∀ m, n ≤ m → m < n + d → w m ≠ i) →
    LazyOk r (turnsOf P next start w n) left → (turnsOf P next start w n).step P next i ≠ none →
    ∃ left', LazyOk r (turnsOf P next start w (n + d)) left' ∧ (turnsOf P next start w (n + d)).step P next i ≠ none ∧
      left' i = left i ∧ toGo P.count left' ≤ toGo P.count left
  | 0, n, left, _, hok, hi => ⟨left, hok, hi, rfl, Nat.le_refl _⟩
  | d + 1, n, left, hw, hok, hi => by
    obtain ⟨left1, h1, h2, _, _, h3, _⟩ := hok.turn (w n)
    have hne : w n ≠ i := hw n (Nat.le_refl _) (by omega)
    have hi1 : (turnsOf P next start w (n + 1)).step P next i ≠ none := by
      show (((turnsOf P next start w n).step P next (w n)).getD (turnsOf P next start w n)).step P next i ≠ none
      cases hs : (turnsOf P next start w n).step P next (w n) with
      | none => exact hi
      | some c' => exact able_stays hne (pipe_act hs) hi
    obtain ⟨left2, g1, g2, g3, g4⟩ := able_until d (n + 1) (left := left1) (fun m hm hm' => hw m (by omega) (by omega)) h1 hi1
    rw [show n + 1 + d = n + (d + 1) by omega] at g1 g2
    exact ⟨left2, g1, g2, g3.trans (h2 i (Ne.symm hne)), Nat.le_trans g4 h3⟩

theorem first_turn {w : Nat → Nat} {i n m : Nat} (hm : n ≤ m) (hw : w m = i) :
    ∃ d, w (n + d) = i ∧ ∀ q, n ≤ q → q < n + d → w q ≠ i := by
  obtain ⟨d, rfl⟩ : ∃ d, m = n + d := ⟨m - n, by omega⟩
  clear hm
  induction d using Nat.strongRecOn with
  | ind d ih =>
    by_cases h : ∃ q, n ≤ q ∧ q < n + d ∧ w q = i
    · obtain ⟨q, h1, h2, h3⟩ := h
      obtain ⟨e, rfl⟩ : ∃ e, q = n + e := ⟨q - n, by omega⟩
      exact ih e (by omega) h3
    · exact ⟨d, hw, fun q h1 h2 h3 => h ⟨q, h1, h2, h3⟩⟩

/-- **C62, the end.** If all processes get turn after turn and what nobody reads fits into the pipes, the last process ends,
although the others may not end by themselves; it has written what it should. That is when `unblock_process_task_fn`
returns. -/
theorem C62_needed_ends (r : AsNeeded P next start) (hcap : 0 < P.cap) (hroom : Room r) {w : Nat → Nat}
    (hw : FairTurns P w) {i : Nat} (hi : i + 1 = P.count) :
    ∃ n, (turnsOf P next start w n).st i = none ∧ (turnsOf P next start w n).written i = r.outs i := by
  suffices H : ∀ (g n : Nat) (left : Nat → Nat), LazyOk r (turnsOf P next start w n) left → toGo P.count left ≤ g →
      ∃ m left', LazyOk r (turnsOf P next start w m) left' ∧ (turnsOf P next start w m).st i = none by
    obtain ⟨m, left, hok, hn⟩ := H _ 0 r.ns (LazyOk.init r) (Nat.le_refl _)
    refine ⟨m, hn, ?_⟩
    rcases hok.over i (by omega) hn with ⟨h, _⟩ | ⟨_, h⟩ | ⟨h, _⟩
    · omega
    · exact h
    · rw [r.last i hi] at h; cases h
  intro g
  induction g with
  | zero =>
    intro n left hok hg
    cases hs : (turnsOf P next start w n).st i with
    | none => exact ⟨n, left, hok, hs⟩
    | some s =>
      exfalso
      rcases hok.going i s (by omega) hs with hneed | ⟨_, h, _⟩
      · obtain ⟨j, hj, hable⟩ := hok.able hcap hroom i (by omega) hs hneed (fun h => by omega)
        obtain ⟨left', _, _, _, h2, _, h3⟩ := hok.turn j
        have := h3 (h2 hable hj)
        omega
      · rw [r.last i hi] at h; cases h
  | succ g ih =>
    intro n left hok hg
    cases hs : (turnsOf P next start w n).st i with
    | none => exact ⟨n, left, hok, hs⟩
    | some s =>
      rcases hok.going i s (by omega) hs with hneed | ⟨_, h, _⟩
      · obtain ⟨j, hj, hable⟩ := hok.able hcap hroom i (by omega) hs hneed (fun h => by omega)
        have hjlt : j < P.count := by
          refine Nat.lt_of_not_le fun hle => hable ?_
          simp [PipeSt.step, hok.beyond j hle]
        obtain ⟨m0, hm0, hwm⟩ := hw j hjlt n
        obtain ⟨d, hd, hno⟩ := first_turn hm0 hwm
        obtain ⟨left1, g1, g2, g3, g4⟩ := able_until d n hno hok hable
        obtain ⟨left2, k1, _, _, k2, _, k3⟩ := g1.turn j
        have hlt := k3 (k2 g2 (by rw [g3]; exact hj))
        have hst : turnsOf P next start w (n + d + 1) =
            ((turnsOf P next start w (n + d)).step P next j).getD (turnsOf P next start w (n + d)) := by
          show ((turnsOf P next start w (n + d)).step P next (w (n + d))).getD _ = _
          rw [hd]
        exact ih (n + d + 1) left2 (by rw [hst]; exact k1) (by omega)
      · rw [r.last i hi] at h; cases h

/-! ## Conversely -/

/-- What a process has done so far: from state `s0` it has come to `s`, and has ended there if `d`. -/
inductive Trod (next : σ → ProcAct σ) (s0 : σ) : σ → List Nat → List Nat → Nat → Nat → Bool → Bool → Prop
  | refl : Trod next s0 s0 [] [] 0 0 false false
  | exit {s xs o e n f} (h : next s = .exit) (r : Trod next s0 s xs o e n f false) : Trod next s0 s xs o e (n + 1) f true
  | think {s k xs o e n f} (h : next s = .think k) (r : Trod next s0 s xs o e n f false) :
      Trod next s0 k xs o e (n + 1) f false
  | out {s b k xs o e n f} (h : next s = .out b k) (r : Trod next s0 s xs o e n f false) :
      Trod next s0 k xs (o ++ [b]) e (n + 1) f false
  | err {s k xs o e n f} (h : next s = .err k) (r : Trod next s0 s xs o e n f false) :
      Trod next s0 k xs o (e + 1) (n + 1) f false
  | byte {s k x xs o e n} (h : next s = .read k) (r : Trod next s0 s xs o e n false false) :
      Trod next s0 (k (some x)) (xs ++ [x]) o e (n + 1) false false
  | eof {s k xs o e n f} (h : next s = .read k) (r : Trod next s0 s xs o e n f false) :
      Trod next s0 (k none) xs o e (n + 1) true false

theorem trod_partly {f : σ → ProcAct σ} {s0 s : σ} {xs o : List Nat} {e n : Nat} {b d : Bool}
    (h : Trod f s0 s xs o e n b d) : ∀ {ys o' : List Nat} {e' n' : Nat} {b' d' : Bool}, d = false →
      Partly f s ys o' e' n' b' d' → (b = true → ys = []) → Partly f s0 (xs ++ ys) (o ++ o') (e + e') (n + n') (b || b') d' := by
  induction h with
  | refl => intro ys o' e' n' b' d' _ hp _; simpa using hp
  | exit h r ih => intro ys o' e' n' b' d' hd; cases hd
  | think h r ih =>
    intro ys o' e' n' b' d' _ hp hb
    have := ih rfl (.think h hp) hb
    rwa [show ∀ n, n + (n' + 1) = n + 1 + n' by omega] at this
  | out h r ih =>
    intro ys o' e' n' b' d' _ hp hb
    have := ih rfl (.out h hp) hb
    rwa [show ∀ n, n + (n' + 1) = n + 1 + n' by omega, List.append_cons] at this
  | err h r ih =>
    intro ys o' e' n' b' d' _ hp hb
    have := ih rfl (.err h hp) hb
    rwa [show ∀ n, n + (n' + 1) = n + 1 + n' by omega, show ∀ n, n + (e' + 1) = n + 1 + e' by omega] at this
  | @byte s k x xs o e n h r ih =>
    intro ys o' e' n' b' d' _ hp hb
    have := ih rfl (.byte (x := x) h hp) (fun h => nomatch h)
    rwa [show ∀ n, n + (n' + 1) = n + 1 + n' by omega, List.append_cons] at this
  | eof h r ih =>
    intro ys o' e' n' b' d' _ hp hb
    obtain rfl := hb rfl
    have := ih rfl (.eof h hp) (fun _ => rfl)
    rw [show ∀ n, n + (n' + 1) = n + 1 + n' by omega] at this
    simpa using this

/-- What a process has done is something a process does. -/
theorem partly_of_trod {f : σ → ProcAct σ} {s0 s : σ} {xs o ys : List Nat} {e n : Nat} {b d : Bool}
    (h : Trod f s0 s xs o e n b d) (hb : b = true → ys = []) : Partly f s0 (xs ++ ys) o e n b d := by
  cases d with
  | false =>
    have := trod_partly h rfl (.stop (xs := ys)) hb
    simpa using this
  | true =>
    cases h with
    | exit h r =>
      have := trod_partly r rfl (.exit (xs := ys) h) hb
      simpa using this

/-- `fin`: the processes that have ended by themselves. -/
structure SoFar (P : Pipeline) (next : Nat → σ → ProcAct σ) (start : Nat → σ) (c : PipeSt σ) (fin : Nat → Bool) : Prop where
  trod : ∀ i, i < P.count → ∃ used n f s, used ++ c.avail i = c.received P i ∧
    Trod (next i) (start i) s used (c.written i) (c.errPipe i) n f (fin i) ∧
    ((c.st i = some s ∧ fin i = false) ∨ (c.st i = none ∧ (fin i = true ∨ (i + 1 < P.count ∧ c.st (i + 1) = none)))) ∧
    (f = true → c.avail i = [] ∧ ∀ j, i = j + 1 → fin j = true)
  beyond : ∀ i, P.count ≤ i → c.st i = none
  errs : ∀ i, c.errPipe i ≤ P.cap
  pipes : ∀ i, (c.pipe i).length ≤ P.cap
  last : P.toFile = false → ∀ i, i + 1 = P.count → c.pipe i = c.written i

theorem SoFar.init (P : Pipeline) (next : Nat → σ → ProcAct σ) (start : Nat → σ) :
    SoFar P next start (PipeSt.init P start) (fun _ => false) where
  trod := by
    intro i hi
    refine ⟨[], 0, false, start i, ?_, .refl, Or.inl ⟨by simp [PipeSt.init, hi], rfl⟩, fun h => nomatch h⟩
    cases i <;> rfl
  beyond := by
    intro i hi
    simp only [PipeSt.init]
    rw [if_neg (by omega)]
  errs := fun _ => Nat.zero_le _
  pipes := fun _ => Nat.zero_le _
  last := fun _ _ _ => rfl

theorem SoFar.update {c c' : PipeSt σ} {fin fin' : Nat → Bool} (h : SoFar P next start c fin) {i : Nat} {s : σ} {v : Option σ}
    (hs : c.st i = some s) (hst : c'.st = set c.st i v) (hfin : ∀ j, j ≠ i → fin' j = fin j)
    (hw : ∀ j, j ≠ i → c'.written j = c.written j) (he : ∀ j, j ≠ i → c'.errPipe j = c.errPipe j)
    (ha : ∀ j, j ≠ i → j < P.count → ∀ used, used ++ c.avail j = c.received P j → used ++ c'.avail j = c'.received P j)
    (hav : ∀ j, j ≠ i → j ≠ i + 1 → c.avail j = [] → c'.avail j = [])
    (hmine : ∀ used n f, used ++ c.avail i = c.received P i →
      Trod (next i) (start i) s used (c.written i) (c.errPipe i) n f false →
      (f = true → c.avail i = [] ∧ ∀ j, i = j + 1 → fin j = true) →
      ∃ used n f s', used ++ c'.avail i = c'.received P i ∧
        Trod (next i) (start i) s' used (c'.written i) (c'.errPipe i) n f (fin' i) ∧
        ((v = some s' ∧ fin' i = false) ∨ (v = none ∧ (fin' i = true ∨ (i + 1 < P.count ∧ c.st (i + 1) = none)))) ∧
        (f = true → c'.avail i = [] ∧ ∀ j, i = j + 1 → fin j = true))
    (h4 : ∀ j, c'.errPipe j ≤ P.cap) (h5 : ∀ j, (c'.pipe j).length ≤ P.cap)
    (h6 : P.toFile = false → ∀ j, j + 1 = P.count → c'.pipe j = c'.written j) : SoFar P next start c' fin' := by
  have hstay : ∀ j, c.st j = none → c'.st j = none := by
    intro j hj
    rw [hst, set_apply]
    split
    · rename_i hji; rw [hji, hs] at hj; cases hj
    · exact hj
  have hlt : i < P.count := by
    refine Nat.lt_of_not_le fun hle => ?_
    rw [h.beyond i hle] at hs; cases hs
  have hi0 : fin i = false := by
    obtain ⟨_, _, _, _, _, _, hst, _⟩ := h.trod i hlt
    rcases hst with ⟨_, h⟩ | ⟨h, _⟩
    · exact h
    · rw [hs] at h; cases h
  refine ⟨?_, fun j hj => hstay j (h.beyond j hj), h4, h5, h6⟩
  intro j hj
  obtain ⟨used, n, f, s1, g1, g2, g3, g4⟩ := h.trod j hj
  by_cases hji : j = i
  · subst hji
    have hs1 : s1 = s := by
      rcases g3 with ⟨g, _⟩ | ⟨g, _⟩ <;> rw [hs] at g <;> cases g
      rfl
    subst hs1
    rw [hi0] at g2
    obtain ⟨used', n', f', s', k1, k2, k3, k4⟩ := hmine used n f g1 g2 g4
    refine ⟨used', n', f', s', k1, k2, ?_, fun hf => ⟨(k4 hf).1, fun q hq => ?_⟩⟩
    · rw [hst, set_same, set_other _ _ _ (by omega)]
      exact k3
    · rw [hfin q (by omega)]; exact (k4 hf).2 q hq
  · refine ⟨used, n, f, s1, ha j hji hj used g1, ?_, ?_, fun hf => ?_⟩
    · rw [hw j hji, he j hji, hfin j hji]; exact g2
    · rw [hst, set_other _ _ _ hji, hfin j hji]
      rcases g3 with g3 | ⟨g3, g5 | ⟨g5, g6⟩⟩
      · exact Or.inl g3
      · exact Or.inr ⟨g3, Or.inl g5⟩
      · refine Or.inr ⟨g3, Or.inr ⟨g5, ?_⟩⟩
        rw [← hst]; exact hstay _ g6
    · obtain ⟨k1, k2⟩ := g4 hf
      have hne : ∀ q, j = q + 1 → q ≠ i := by
        rintro q hq rfl
        rw [k2 q hq] at hi0; cases hi0
      exact ⟨hav j hji (fun h => hne i h rfl) k1, fun q hq => by rw [hfin q (hne q hq)]; exact k2 q hq⟩

theorem SoFar.step {c c' : PipeSt σ} {fin : Nat → Bool} {i : Nat} (hok : SoFar P next start c fin)
    (h : PipeAct P next c i c') : ∃ fin', SoFar P next start c' fin' := by
  have same : ∀ (j : Nat), j ≠ i → j < P.count → ∀ used, used ++ c.avail j = c.received P j →
      used ++ c.avail j = c.received P j := fun _ _ _ _ h => h
  have fin0 : ∀ s, c.st i = some s → fin i = false := by
    intro s hs
    have hlt : i < P.count := by
      refine Nat.lt_of_not_le fun hle => ?_
      rw [hok.beyond i hle] at hs; cases hs
    obtain ⟨_, _, _, _, _, _, hst, _⟩ := hok.trod i hlt
    rcases hst with ⟨_, h⟩ | ⟨h, _⟩
    · exact h
    · rw [hs] at h; cases h
  cases h with
  | exit s hs hn =>
    refine ⟨set fin i true, hok.update hs rfl (fun j hj => set_other _ _ _ hj) (fun _ _ => rfl) (fun _ _ => rfl) same
      (fun _ _ _ h => h) ?_ hok.errs hok.pipes hok.last⟩
    intro used n f h1 h2 h3
    rw [set_same]
    exact ⟨used, n + 1, f, s, h1, .exit hn h2, Or.inr ⟨rfl, Or.inl rfl⟩, h3⟩
  | think s k hs hn =>
    refine ⟨fin, hok.update hs rfl (fun _ _ => rfl) (fun _ _ => rfl) (fun _ _ => rfl) same (fun _ _ _ h => h) ?_ hok.errs
      hok.pipes hok.last⟩
    intro used n f h1 h2 h3
    rw [fin0 s hs]
    exact ⟨used, n + 1, f, k, h1, .think hn h2, Or.inl ⟨rfl, rfl⟩, h3⟩
  | err s k hs hn hc =>
    refine ⟨fin, hok.update hs rfl (fun _ _ => rfl) (fun _ _ => rfl) (fun j hj => set_other _ _ _ hj) same
      (fun _ _ _ h => h) ?_ ?_ hok.pipes hok.last⟩
    · intro used n f h1 h2 h3
      rw [fin0 s hs]
      refine ⟨used, n + 1, f, k, h1, ?_, Or.inl ⟨rfl, rfl⟩, h3⟩
      show Trod _ _ _ _ _ (set c.errPipe i _ i) _ _ _
      rw [set_same]
      exact .err hn h2
    · intro j
      show set c.errPipe i _ j ≤ _
      rw [set_apply]; split
      · exact hc
      · exact hok.errs j
  | file s k b hs hn hi hf =>
    refine ⟨fin, hok.update hs rfl (fun _ _ => rfl) (fun j hj => set_other _ _ _ hj) (fun _ _ => rfl) ?_ (fun _ _ _ h => h) ?_
      hok.errs hok.pipes (by rw [hf]; intro h; cases h)⟩
    · intro j hj hlt used h
      cases j with
      | zero => exact h
      | succ j =>
        show used ++ c.pipe j = set c.written i _ j
        rw [set_other _ _ _ (by omega)]; exact h
    · intro used n f h1 h2 h3
      rw [fin0 s hs]
      refine ⟨used, n + 1, f, k, ?_, ?_, Or.inl ⟨rfl, rfl⟩, h3⟩
      · cases i with
        | zero => exact h1
        | succ i =>
          show used ++ c.pipe i = set c.written (i + 1) _ i
          rw [set_other _ _ _ (by omega)]; exact h1
      · show Trod _ _ _ _ (set c.written i _ i) _ _ _ _
        rw [set_same]
        exact .out hn h2
  | sigpipe s k b hs hn hi hr =>
    refine ⟨fin, hok.update hs rfl (fun _ _ => rfl) (fun _ _ => rfl) (fun _ _ => rfl) same (fun _ _ _ h => h) ?_ hok.errs
      hok.pipes hok.last⟩
    intro used n f h1 h2 h3
    rw [fin0 s hs]
    exact ⟨used, n, f, s, h1, h2, Or.inr ⟨rfl, Or.inr ⟨hi, hr⟩⟩, h3⟩
  | out s k b hs hn hi hr hc =>
    refine ⟨fin, hok.update hs rfl (fun _ _ => rfl) (fun j hj => set_other _ _ _ hj) (fun _ _ => rfl) ?_ ?_ ?_ hok.errs ?_ ?_⟩
    · intro j hj hlt used h
      cases j with
      | zero => exact h
      | succ j =>
        show used ++ set c.pipe i _ j = set c.written i _ j
        rw [set_apply, set_apply]
        split
        · rename_i hji; subst hji
          rw [← List.append_assoc]
          exact congrArg (· ++ [b]) h
        · exact h
    · intro j hj hj1 h
      cases j with
      | zero => exact h
      | succ j =>
        show set c.pipe i _ j = []
        rw [set_other _ _ _ (by omega)]; exact h
    · intro used n f h1 h2 h3
      rw [fin0 s hs]
      have hav : PipeSt.avail { c with
          st := set c.st i (some k)
          pipe := set c.pipe i (c.pipe i ++ [b])
          written := set c.written i (c.written i ++ [b]) } i = c.avail i := by
        cases i with
        | zero => rfl
        | succ i =>
          show set c.pipe (i + 1) _ i = _
          rw [set_other _ _ _ (by omega)]; rfl
      refine ⟨used, n + 1, f, k, ?_, ?_, Or.inl ⟨rfl, rfl⟩, by rw [hav]; exact h3⟩
      · rw [hav, h1]
        cases i with
        | zero => rfl
        | succ i =>
          show c.written i = set c.written (i + 1) _ i
          rw [set_other _ _ _ (by omega)]
      · show Trod _ _ _ _ (set c.written i _ i) _ _ _ _
        rw [set_same]
        exact .out hn h2
    · intro j
      show (set c.pipe i _ j).length ≤ _
      rw [set_apply]; split
      · rw [List.length_append]; exact hc
      · exact hok.pipes j
    · intro hf j hj
      show set c.pipe i _ j = set c.written i _ j
      rw [set_apply, set_apply]; split
      · rename_i hji; subst hji
        rw [hok.last hf _ hj]
      · exact hok.last hf j hj
  | stdin s k b rest hs hn hi hl =>
    subst hi
    refine ⟨fin, hok.update hs rfl (fun _ _ => rfl) (fun _ _ => rfl) (fun _ _ => rfl) ?_ ?_ ?_ hok.errs hok.pipes hok.last⟩
    · intro j hj hlt used h
      cases j with
      | zero => exact absurd rfl hj
      | succ j => exact h
    · intro j hj _ h
      cases j with
      | zero => exact absurd rfl hj
      | succ j => exact h
    · intro used n f h1 h2 h3
      rw [fin0 s hs]
      have hl' : c.avail 0 = b :: rest := hl
      rw [hl'] at h1 h3
      obtain rfl : f = false := by
        cases f with
        | false => rfl
        | true => cases (h3 rfl).1
      refine ⟨used ++ [b], n + 1, false, _, ?_, .byte hn h2, Or.inl ⟨rfl, rfl⟩, (fun h => nomatch h)⟩
      rw [List.append_assoc]; exact h1
  | read s k b rest q hs hn hi hl =>
    subst hi
    refine ⟨fin, hok.update hs rfl (fun _ _ => rfl) (fun _ _ => rfl) (fun _ _ => rfl) ?_ ?_ ?_ hok.errs ?_ ?_⟩
    · intro j hj hlt used h
      cases j with
      | zero => exact h
      | succ j =>
        show used ++ set c.pipe q _ j = _
        rw [set_other _ _ _ (by omega)]; exact h
    · intro j hj _ h
      cases j with
      | zero => exact h
      | succ j =>
        show set c.pipe q _ j = _
        rw [set_other _ _ _ (by omega)]; exact h
    · intro used n f h1 h2 h3
      rw [fin0 s hs]
      have hl' : c.avail (q + 1) = b :: rest := hl
      rw [hl'] at h1 h3
      obtain rfl : f = false := by
        cases f with
        | false => rfl
        | true => cases (h3 rfl).1
      refine ⟨used ++ [b], n + 1, false, _, ?_, .byte hn h2, Or.inl ⟨rfl, rfl⟩, (fun h => nomatch h)⟩
      show used ++ [b] ++ set c.pipe q _ q = _
      rw [set_same, List.append_assoc]; exact h1
    · intro j
      show (set c.pipe q _ j).length ≤ _
      rw [set_apply]; split
      · have := hok.pipes q
        rw [hl, List.length_cons] at this
        omega
      · exact hok.pipes j
    · intro hf j hj
      have hlt : q + 1 < P.count := Nat.lt_of_not_le fun hle => by
        rw [hok.beyond _ hle] at hs; cases hs
      show set c.pipe q _ j = _
      rw [set_other _ _ _ (by omega)]; exact hok.last hf j hj
  | eof s k hs hn hl hf =>
    refine ⟨fin, hok.update hs rfl (fun _ _ => rfl) (fun _ _ => rfl) (fun _ _ => rfl) same (fun _ _ _ h => h) ?_ hok.errs
      hok.pipes hok.last⟩
    intro used n f h1 h2 h3
    rw [fin0 s hs]
    refine ⟨used, n + 1, true, k none, h1, .eof hn h2, Or.inl ⟨rfl, rfl⟩, fun _ => ⟨hl, ?_⟩⟩
    rintro q rfl
    have hq : c.st q = none := Classical.not_not.1 hf
    have hlt : q + 1 < P.count := Nat.lt_of_not_le fun hle => by
      rw [hok.beyond _ hle] at hs; cases hs
    obtain ⟨_, _, _, _, _, _, hst, _⟩ := hok.trod q (by omega)
    rcases hst with ⟨g, _⟩ | ⟨_, g | ⟨_, g⟩⟩
    · rw [hq] at g; cases g
    · exact g
    · rw [hs] at g; cases g

theorem SoFar.run {c c' : PipeSt σ} {fin : Nat → Bool} {is : List Nat} (hok : SoFar P next start c fin)
    (h : c.run P next is = some c') : ∃ fin', SoFar P next start c' fin' := by
  induction is generalizing c fin with
  | nil => cases h; exact ⟨fin, hok⟩
  | cons i is ih =>
    simp only [PipeSt.run] at h
    split at h
    · rename_i c1 h1
      obtain ⟨fin1, hok1⟩ := hok.step (pipe_act h1)
      exact ih hok1 h
    · cases h

/-- What happened in an execution in which the last process has ended is what is needed, and there was room for it. -/
theorem SoFar.asNeeded {c : PipeSt σ} {fin : Nat → Bool} (h : SoFar P next start c fin)
    (hd : ∀ i, i + 1 = P.count → c.st i = none) :
    ∃ r : AsNeeded P next start, Room r ∧ ∀ i, r.outs i = c.written i := by
  have hp : ∀ i, i < P.count → ∃ n f, Partly (next i) (start i) (c.received P i) (c.written i) (c.errPipe i) n f (fin i) ∧
      (f = true → ∀ j, i = j + 1 → fin j = true) := by
    intro i hi
    obtain ⟨used, n, f, s, h1, h2, _, h4⟩ := h.trod i hi
    exact ⟨n, f, h1 ▸ partly_of_trod h2 (fun hf => (h4 hf).1), fun hf => (h4 hf).2⟩
  have hp' : ∀ i, ∃ n f, i < P.count → Partly (next i) (start i) (c.received P i) (c.written i) (c.errPipe i) n f (fin i) ∧
      (f = true → ∀ j, i = j + 1 → fin j = true) := by
    intro i
    by_cases hi : i < P.count
    · obtain ⟨n, f, h⟩ := hp i hi
      exact ⟨n, f, fun _ => h⟩
    · exact ⟨0, false, fun h => absurd h hi⟩
  refine ⟨{ outs := c.written, errs := c.errPipe, ns := fun i => (hp' i).choose, eofs := fun i => (hp' i).choose_spec.choose,
            ends := fin, first := fun hi => ((hp' 0).choose_spec.choose_spec hi).1,
            later := fun i hi => ((hp' (i + 1)).choose_spec.choose_spec hi).1,
            whole := fun i hi hf => ((hp' (i + 1)).choose_spec.choose_spec hi).2 hf i rfl, last := ?_ }, ⟨?_, ?_⟩, fun _ => rfl⟩
  · intro i hi
    obtain ⟨_, _, _, _, _, _, hst, _⟩ := h.trod i (by omega)
    rcases hst with ⟨g, _⟩ | ⟨_, g | ⟨g, _⟩⟩
    · rw [hd i hi] at g; cases g
    · exact g
    · omega
  · exact fun i _ => h.errs i
  · intro hf i hi
    show (c.written i).length ≤ P.cap
    rw [← h.last hf i hi]
    exact h.pipes i

theorem pipe_run_append {c c1 : PipeSt σ} {is js : List Nat} (h : c.run P next is = some c1) :
    c.run P next (is ++ js) = c1.run P next js := by
  induction is generalizing c with
  | nil => cases h; rfl
  | cons i is ih =>
    simp only [PipeSt.run, List.cons_append] at h ⊢
    split at h
    · exact ih h
    · cases h

/-- Turns are an execution. -/
theorem turns_run (w : Nat → Nat) : ∀ n, ∃ is, (PipeSt.init P start).run P next is = some (turnsOf P next start w n)
  | 0 => ⟨[], rfl⟩
  | n + 1 => by
    obtain ⟨is, h⟩ := turns_run w n
    cases hs : (turnsOf P next start w n).step P next (w n) with
    | none => exact ⟨is, by rw [h]; show _ = some (Option.getD _ _); rw [hs]; rfl⟩
    | some c' =>
      refine ⟨is ++ [w n], ?_⟩
      rw [pipe_run_append h]
      show _ = some (Option.getD _ _)
      simp only [PipeSt.run, hs, Option.getD]

/-- **C62, exactly**, for whatever programs: the run of a pipeline can come to its end if and only if there is something
the processes do, each on the output of the one before, after which the last one has ended, and the standard errors and
the output nobody reads fit into the pipes up to there. -/
theorem C62_iff (hcap : 0 < P.cap) {l : Nat} (hl : l + 1 = P.count) :
    (∃ is c, (PipeSt.init P start).run P next is = some c ∧ c.st l = none) ↔ ∃ r : AsNeeded P next start, Room r := by
  constructor
  · rintro ⟨is, c, h, hd⟩
    obtain ⟨fin, hok⟩ := (SoFar.init P next start).run h
    obtain ⟨r, hr, _⟩ := hok.asNeeded (fun i hi => by
      have : i = l := by omega
      subst this; exact hd)
    exact ⟨r, hr⟩
  · rintro ⟨r, hr⟩
    obtain ⟨n, h1, _⟩ := C62_needed_ends r hcap hr (w := fun n => n % P.count) (by
      intro i hi n
      refine ⟨i + P.count * n, ?_, ?_⟩
      · have := Nat.mul_le_mul_right n (show 1 ≤ P.count by omega)
        omega
      · show (i + P.count * n) % P.count = i
        rw [Nat.add_mul_mod_self_left, Nat.mod_eq_of_lt hi]) hl
    obtain ⟨is, h⟩ := turns_run (P := P) (next := next) (start := start) (fun n => n % P.count) n
    exact ⟨is, _, h, h1⟩

/-- **C62: once is always.** If the run of a pipeline comes to its end in one execution, it does in every execution in
which all processes get turn after turn, and with the same output. -/
theorem C62_always (hcap : 0 < P.cap) {l : Nat} (hl : l + 1 = P.count) {is : List Nat} {c : PipeSt σ}
    (h : (PipeSt.init P start).run P next is = some c) (hd : c.st l = none) {w : Nat → Nat} (hw : FairTurns P w) :
    ∃ n, (turnsOf P next start w n).st l = none ∧ (turnsOf P next start w n).written l = c.written l := by
  obtain ⟨fin, hok⟩ := (SoFar.init P next start).run h
  obtain ⟨r, hr, hout⟩ := hok.asNeeded (fun i hi => by
    have : i = l := by omega
    subst this; exact hd)
  obtain ⟨n, h1, h2⟩ := C62_needed_ends r hcap hr hw hl
  exact ⟨n, h1, h2.trans (hout l)⟩

/-- Programs that end one after the other are a special case. -/
theorem alone_partly {f : σ → ProcAct σ} {s : σ} {xs o : List Nat} {e n : Nat} {b : Bool} (h : Alone f s xs o e n b) :
    Partly f s xs o e n b true := by
  induction h with
  | exit h => exact .exit h
  | think h _ ih => exact .think h ih
  | out h _ ih => exact .out h ih
  | err h _ ih => exact .err h ih
  | byte h _ ih => exact .byte h ih
  | eof h _ ih => exact .eof h ih

def Spec.OneByOne.asNeeded (r : OneByOne P next start) : AsNeeded P next start where
  outs := r.outs
  errs := r.errs
  ns := r.ns
  eofs := r.eofs
  ends := fun _ => true
  first := fun h => alone_partly (r.first h)
  later := fun i h => alone_partly (r.later i h)
  whole := fun _ _ _ => rfl
  last := fun _ _ => rfl

end
end DelayTimer

namespace DelayTimer.Ex
open Spec

/-- `yes | head`: process 0 writes `y` (121) for ever; process 1 copies as many bytes as its state says, and ends. -/
def headNext : Nat → Nat × Option Nat → ProcAct (Nat × Option Nat)
  | 0, s => .out 121 s
  | _ + 1, (0, _) => .exit
  | _ + 1, (n + 1, none) => .read fun | some b => (n + 1, some b) | none => (0, none)
  | _ + 1, (n + 1, some b) => .out b (n, none)

def headStart (n : Nat) : Nat → Nat × Option Nat := fun _ => (n, none)

theorem yes_partly (n : Nat) (s : Nat × Option Nat) : Partly (headNext 0) s [] (List.replicate n 121) 0 n false false := by
  induction n with
  | zero => exact .stop
  | succ n ih => exact .out rfl ih

theorem head_partly (i : Nat) (xs : List Nat) : Partly (headNext (i + 1)) (xs.length, none) xs xs 0 (2 * xs.length + 1) false true := by
  induction xs with
  | nil => exact .exit rfl
  | cons x xs ih => exact .byte rfl (.out rfl ih)

def yesHead (n cap : Nat) (file : Bool) :
    AsNeeded { count := 2, toFile := file, cap := cap, input := [] } headNext (headStart n) where
  outs := fun _ => List.replicate n 121
  errs := fun _ => 0
  ns := fun i => if i = 0 then n else 2 * n + 1
  eofs := fun _ => false
  ends := fun i => decide (i ≠ 0)
  first := fun _ => yes_partly n _
  later := by
    intro i hi
    have := head_partly i (List.replicate n 121)
    simpa [headStart] using this
  whole := fun _ _ h => nomatch h
  last := by
    intro i hi
    simp only at hi
    simp; omega

/-- `yes | head` is not in the scope of `C62_output`: `yes` never ends. -/
theorem yes_not_alone {s : Nat × Option Nat} {xs o : List Nat} {e n : Nat} {b : Bool} : ¬ Alone (headNext 0) s xs o e n b := by
  intro h
  induction h with
  | exit h => cases h
  | think h => cases h
  | out h _ ih => exact ih
  | err h => cases h
  | byte h => cases h
  | eof h => cases h

/-- It gets through, whatever the order of turns, with the right output. -/
example (n cap : Nat) (hcap : 0 < cap) (file : Bool) (hn : file = true ∨ n ≤ cap) {w : Nat → Nat}
    (hw : FairTurns { count := 2, toFile := file, cap := cap, input := [] } w) :
    ∃ m, (turnsOf { count := 2, toFile := file, cap := cap, input := [] } headNext (headStart n) w m).st 1 = none ∧
      (turnsOf { count := 2, toFile := file, cap := cap, input := [] } headNext (headStart n) w m).written 1 =
        List.replicate n 121 := by
  refine C62_needed_ends (yesHead n cap file) hcap ⟨fun _ _ => Nat.zero_le _, fun hf i _ => ?_⟩ hw rfl
  simp only at hf
  subst hf
  simpa [yesHead] using hn

/-- Two orders of turns that the hypothesis allows. -/
example : FairTurns { count := 2, toFile := false, cap := 3, input := [] } (fun n => n % 2) ∧
    FairTurns { count := 2, toFile := false, cap := 3, input := [] } (fun n => if n % 100 = 0 then 1 else 0) := by
  constructor
  · intro i hi n
    exact ⟨2 * n + i, by omega, by simp only at hi ⊢; omega⟩
  · intro i hi n
    simp only at hi ⊢
    by_cases h : i = 0
    · exact ⟨100 * n + 1, by omega, by rw [if_neg (by omega)]; exact h.symm⟩
    · exact ⟨100 * n, by omega, by rw [if_pos (by omega)]; omega⟩

/-- The hypotheses of `C62_always`: `yes` gets ahead as far as the pipe takes it, and is still going on at the end. -/
example : ((PipeSt.init { count := 2, toFile := false, cap := 3, input := [] } (headStart 2)).run
      { count := 2, toFile := false, cap := 3, input := [] } headNext [0, 0, 0, 1, 0, 1, 1, 1, 1]).map
        (fun c => (c.st 0 |>.isSome, c.st 1 |>.isSome, c.written 1)) = some (true, false, [121, 121]) := by
  decide +kernel

end DelayTimer.Ex
