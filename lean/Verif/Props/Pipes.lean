import Verif.Spec.Pipes
import Verif.Proofs.Wheel
import Verif.Props.ProcessTask

/-!
# C62: pipelines and the capacity of pipes
-/

namespace DelayTimer
open Spec

/-- What a process has on its standard input, and what has ever been put there. -/
def PipeSt.avail {σ : Type} (c : PipeSt σ) : Nat → List Nat
  | 0 => c.inLeft
  | i + 1 => c.pipe i

def PipeSt.received {σ : Type} (P : Pipeline) (c : PipeSt σ) : Nat → List Nat
  | 0 => P.input
  | i + 1 => c.written i

/-- Its complete input. -/
def Spec.OneByOne.src {σ : Type} {P : Pipeline} {next : Nat → σ → ProcAct σ} {start : Nat → σ} (r : OneByOne P next start) :
    Nat → List Nat
  | 0 => P.input
  | i + 1 => r.outs i

/-- The process before this one has not ended. -/
def PipeSt.fed {σ : Type} (c : PipeSt σ) : Nat → Prop
  | 0 => False
  | i + 1 => c.st i ≠ none

/-- A process that goes on, with `m` actions to go. -/
def Going {σ : Type} {P : Pipeline} {next : Nat → σ → ProcAct σ} {start : Nat → σ} (r : OneByOne P next start)
    (c : PipeSt σ) (i m : Nat) (s : σ) : Prop :=
  ∃ used xs o e f, Alone (next i) s xs o e m f ∧ used ++ xs = r.src i ∧ used ++ c.avail i = c.received P i ∧
    c.written i ++ o = r.outs i ∧ c.errPipe i + e = r.errs i ∧ (c.fed i → f = r.eofs i)

/-- A process that has ended: by itself, or because nobody reads its output any more. -/
def Over {σ : Type} {P : Pipeline} {next : Nat → σ → ProcAct σ} {start : Nat → σ} (r : OneByOne P next start)
    (c : PipeSt σ) (i : Nat) : Prop :=
  c.written i <+: r.outs i ∧ ((i + 1 < P.count → c.st (i + 1) ≠ none) → c.written i = r.outs i)

structure PipeOk {σ : Type} {P : Pipeline} {next : Nat → σ → ProcAct σ} {start : Nat → σ} (r : OneByOne P next start)
    (c : PipeSt σ) (left : Nat → Nat) : Prop where
  going : ∀ i s, i < P.count → c.st i = some s → Going r c i (left i) s
  over : ∀ i, i < P.count → c.st i = none → Over r c i
  beyond : ∀ i, P.count ≤ i → c.st i = none
  errs : ∀ i, c.errPipe i ≤ P.cap
  pipes : ∀ i, (c.pipe i).length ≤ P.cap
  last : P.toFile = false → ∀ i, i + 1 = P.count → c.pipe i = c.written i

theorem PipeOk.init {σ : Type} {P : Pipeline} {next : Nat → σ → ProcAct σ} {start : Nat → σ} (r : OneByOne P next start) :
    PipeOk r (PipeSt.init P start) r.ns where
  going := by
    intro i s hi hs
    simp only [PipeSt.init, if_pos hi, Option.some.injEq] at hs
    subst hs
    cases i with
    | zero => exact ⟨[], _, _, _, _, r.first hi, rfl, rfl, rfl, by simp [PipeSt.init], fun _ => rfl⟩
    | succ i => exact ⟨[], _, _, _, _, r.later i hi, rfl, rfl, rfl, by simp [PipeSt.init], fun _ => rfl⟩
  over := by
    intro i hi hs
    simp [PipeSt.init, if_pos hi] at hs
  beyond := by
    intro i hi
    simp only [PipeSt.init]
    rw [if_neg (by omega)]
  errs := fun _ => Nat.zero_le _
  pipes := fun _ => Nat.zero_le _
  last := fun _ _ _ => rfl

/-- The ways a process can take an action. -/
inductive PipeAct {σ : Type} (P : Pipeline) (next : Nat → σ → ProcAct σ) (c : PipeSt σ) (i : Nat) : PipeSt σ → Prop
  | exit (s : σ) (hs : c.st i = some s) (hn : next i s = .exit) : PipeAct P next c i { c with st := set c.st i none }
  | think (s k : σ) (hs : c.st i = some s) (hn : next i s = .think k) :
      PipeAct P next c i { c with st := set c.st i (some k) }
  | err (s k : σ) (hs : c.st i = some s) (hn : next i s = .err k) (hc : c.errPipe i < P.cap) :
      PipeAct P next c i { c with st := set c.st i (some k), errPipe := set c.errPipe i (c.errPipe i + 1) }
  | file (s k : σ) (b : Nat) (hs : c.st i = some s) (hn : next i s = .out b k) (hi : i + 1 = P.count)
      (hf : P.toFile = true) :
      PipeAct P next c i { c with st := set c.st i (some k), written := set c.written i (c.written i ++ [b]) }
  | sigpipe (s k : σ) (b : Nat) (hs : c.st i = some s) (hn : next i s = .out b k) (hi : i + 1 < P.count)
      (hr : c.st (i + 1) = none) : PipeAct P next c i { c with st := set c.st i none }
  | out (s k : σ) (b : Nat) (hs : c.st i = some s) (hn : next i s = .out b k) (hi : ¬ (i + 1 = P.count ∧ P.toFile = true))
      (hr : i + 1 < P.count → c.st (i + 1) ≠ none) (hc : (c.pipe i).length < P.cap) :
      PipeAct P next c i { c with
        st := set c.st i (some k)
        pipe := set c.pipe i (c.pipe i ++ [b])
        written := set c.written i (c.written i ++ [b]) }
  | stdin (s : σ) (k : Option Nat → σ) (b : Nat) (rest : List Nat) (hs : c.st i = some s) (hn : next i s = .read k)
      (hi : i = 0) (hl : c.inLeft = b :: rest) :
      PipeAct P next c i { c with st := set c.st i (some (k (some b))), inLeft := rest }
  | read (s : σ) (k : Option Nat → σ) (b : Nat) (rest : List Nat) (j : Nat) (hs : c.st i = some s) (hn : next i s = .read k)
      (hi : i = j + 1) (hl : c.pipe j = b :: rest) :
      PipeAct P next c i { c with st := set c.st i (some (k (some b))), pipe := set c.pipe j rest }
  | eof (s : σ) (k : Option Nat → σ) (hs : c.st i = some s) (hn : next i s = .read k) (hl : c.avail i = [])
      (hf : ¬ c.fed i) : PipeAct P next c i { c with st := set c.st i (some (k none)) }

theorem pipe_act {σ : Type} {P : Pipeline} {next : Nat → σ → ProcAct σ} {c c' : PipeSt σ} {i : Nat}
    (h : c.step P next i = some c') : PipeAct P next c i c' := by
  simp only [PipeSt.step] at h
  split at h
  · cases h
  · rename_i s hs
    split at h
    · rename_i hn; cases h; exact .exit s hs hn
    · rename_i k hn; cases h; exact .think s k hs hn
    · rename_i k hn
      split at h
      · cases h; exact .err s k hs hn ‹_›
      · cases h
    · rename_i b k hn
      split at h
      · rename_i hc; cases h; exact .file s k b hs hn hc.1 hc.2
      · rename_i hc
        split at h
        · rename_i hr; cases h
          exact .sigpipe s k b hs hn hr.1 (by simpa using hr.2)
        · rename_i hr
          split at h
          · cases h
            exact .out s k b hs hn hc (fun h1 h2 => hr ⟨h1, by rw [h2]; rfl⟩) ‹_›
          · cases h
    · rename_i k hn
      split at h
      · split at h
        · rename_i hl; cases h; exact .stdin s k _ _ hs hn rfl hl
        · rename_i hl; cases h; exact .eof s k hs hn hl (by simp [PipeSt.fed])
      · split at h
        · rename_i hl; cases h; exact .read s k _ _ _ hs hn rfl hl
        · rename_i hl
          split at h
          · rename_i hd; cases h
            exact .eof s k hs hn hl (by simpa [PipeSt.fed] using hd)
          · cases h

section
variable {σ : Type} {P : Pipeline} {next : Nat → σ → ProcAct σ} {start : Nat → σ} {r : OneByOne P next start}

/-! Inversion of `Alone` by the next action. -/

theorem Alone.of_exit {f : σ → ProcAct σ} {s : σ} {xs o : List Nat} {e n : Nat} {b : Bool} (h : Alone f s xs o e n b)
    (hn : f s = .exit) : o = [] ∧ e = 0 ∧ n = 1 ∧ b = false := by
  cases h <;> simp_all

theorem Alone.of_think {f : σ → ProcAct σ} {s k : σ} {xs o : List Nat} {e n : Nat} {b : Bool} (h : Alone f s xs o e n b)
    (hn : f s = .think k) : ∃ m, n = m + 1 ∧ Alone f k xs o e m b := by
  cases h <;> simp_all

theorem Alone.of_out {f : σ → ProcAct σ} {s k : σ} {x : Nat} {xs o : List Nat} {e n : Nat} {b : Bool}
    (h : Alone f s xs o e n b) (hn : f s = .out x k) : ∃ m o', n = m + 1 ∧ o = x :: o' ∧ Alone f k xs o' e m b := by
  cases h <;> simp_all

theorem Alone.of_err {f : σ → ProcAct σ} {s k : σ} {xs o : List Nat} {e n : Nat} {b : Bool} (h : Alone f s xs o e n b)
    (hn : f s = .err k) : ∃ m e', n = m + 1 ∧ e = e' + 1 ∧ Alone f k xs o e' m b := by
  cases h <;> simp_all

theorem Alone.of_read {f : σ → ProcAct σ} {s : σ} {k : Option Nat → σ} {xs o : List Nat} {e n : Nat} {b : Bool}
    (h : Alone f s xs o e n b) (hn : f s = .read k) :
    (∃ m x ys, n = m + 1 ∧ xs = x :: ys ∧ Alone f (k (some x)) ys o e m b) ∨
    (∃ m b', n = m + 1 ∧ xs = [] ∧ b = true ∧ Alone f (k none) [] o e m b') := by
  cases h with
  | byte h r => rw [hn] at h; cases h; exact Or.inl ⟨_, _, _, rfl, rfl, r⟩
  | eof h r => rw [hn] at h; cases h; exact Or.inr ⟨_, _, rfl, rfl, rfl, r⟩
  | exit h => rw [hn] at h; cases h
  | think h => rw [hn] at h; cases h
  | out h => rw [hn] at h; cases h
  | err h => rw [hn] at h; cases h

theorem Going.frame {c c' : PipeSt σ} {j m : Nat} {s : σ} (h : Going r c j m s)
    (ha : ∀ used, used ++ c.avail j = c.received P j → used ++ c'.avail j = c'.received P j)
    (hw : c'.written j = c.written j) (he : c'.errPipe j = c.errPipe j) (hf : c'.fed j → c.fed j) : Going r c' j m s := by
  obtain ⟨used, xs, o, e, f, h1, h2, h3, h4, h5, h6⟩ := h
  exact ⟨used, xs, o, e, f, h1, h2, ha used h3, by rw [hw]; exact h4, by rw [he]; exact h5, fun h => h6 (hf h)⟩

/-- An action of process `i` leaves the others as they were. -/
theorem PipeOk.update {c c' : PipeSt σ} {left : Nat → Nat} (h : PipeOk r c left) {i m : Nat} {s : σ} {v : Option σ}
    (hs : c.st i = some s) (hst : c'.st = set c.st i v) (hw : ∀ j, j ≠ i → c'.written j = c.written j)
    (he : ∀ j, j ≠ i → c'.errPipe j = c.errPipe j)
    (ha : ∀ j, j ≠ i → j < P.count → ∀ used, used ++ c.avail j = c.received P j → used ++ c'.avail j = c'.received P j)
    (hsome : ∀ k, v = some k → Going r c' i m k) (hnone : v = none → Over r c' i)
    (h4 : ∀ j, c'.errPipe j ≤ P.cap) (h5 : ∀ j, (c'.pipe j).length ≤ P.cap)
    (h6 : P.toFile = false → ∀ j, j + 1 = P.count → c'.pipe j = c'.written j) : PipeOk r c' (set left i m) := by
  have hback : ∀ j, c'.st j ≠ none → c.st j ≠ none := by
    intro j hj
    rw [hst, set_apply] at hj
    split at hj
    · rename_i hji; rw [hji, hs]; simp
    · exact hj
  have hlt : i < P.count := by
    refine Nat.lt_of_not_le fun hle => ?_
    rw [h.beyond i hle] at hs; cases hs
  refine ⟨?_, ?_, ?_, h4, h5, h6⟩
  · intro j q hj hq
    rw [hst, set_apply] at hq
    rw [set_apply]
    split at hq
    · rename_i hji; subst hji
      rw [if_pos rfl]
      exact hsome q hq
    · rename_i hji
      rw [if_neg hji]
      refine (h.going j q hj hq).frame (ha j hji hj) (hw j hji) (he j hji) ?_
      cases j with
      | zero => exact id
      | succ j => exact hback j
  · intro j hj hq
    rw [hst, set_apply] at hq
    split at hq
    · rename_i hji; subst hji
      exact hnone hq
    · rename_i hji
      obtain ⟨h1, h2⟩ := h.over j hj hq
      unfold Over
      rw [hw j hji]
      exact ⟨h1, fun h3 => h2 fun h7 => hback _ (h3 h7)⟩
  · intro j hj
    rw [hst, set_other _ _ _ (by omega)]
    exact h.beyond j hj

theorem fed_of {c c' : PipeSt σ} {i : Nat} {s : σ} {v : Option σ} (hst : c'.st = set c.st i v) (hs : c.st i = some s) {j : Nat}
    (h : c'.fed j) : c.fed j := by
  cases j with
  | zero => exact h
  | succ j =>
    simp only [PipeSt.fed, hst, set_apply] at h ⊢
    split at h
    · rename_i hji; rw [hji, hs]; simp
    · exact h

theorem PipeOk.step {c c' : PipeSt σ} {left : Nat → Nat} {i : Nat} (hok : PipeOk r c left)
    (h : PipeAct P next c i c') : ∃ m, m < left i ∧ PipeOk r c' (set left i m) := by
  have key : ∀ s, c.st i = some s → i < P.count ∧ Going r c i (left i) s := by
    intro s hs
    have hlt : i < P.count := by
      refine Nat.lt_of_not_le fun hle => ?_
      rw [hok.beyond i hle] at hs; cases hs
    exact ⟨hlt, hok.going i s hlt hs⟩
  have same : ∀ (j : Nat), j ≠ i → j < P.count → ∀ used, used ++ c.avail j = c.received P j →
      used ++ c.avail j = c.received P j := fun _ _ _ _ h => h
  cases h with
  | exit s hs hn =>
    obtain ⟨hi, used, xs, o, e, f, h1, h2, h3, h4, h5, h6⟩ := key s hs
    obtain ⟨rfl, rfl, hm, rfl⟩ := Alone.of_exit h1 hn
    refine ⟨0, by omega, hok.update hs rfl (fun _ _ => rfl) (fun _ _ => rfl) same (by intro k hk; cases hk) ?_ hok.errs hok.pipes
      hok.last⟩
    intro _
    rw [List.append_nil] at h4
    exact ⟨by rw [h4]; exact List.prefix_rfl, fun _ => h4⟩
  | think s k hs hn =>
    obtain ⟨hi, used, xs, o, e, f, h1, h2, h3, h4, h5, h6⟩ := key s hs
    obtain ⟨m, hm, h1⟩ := Alone.of_think h1 hn
    refine ⟨m, by omega, hok.update hs rfl (fun _ _ => rfl) (fun _ _ => rfl) same ?_ (by intro hk; cases hk) hok.errs hok.pipes
      hok.last⟩
    intro k' hk; cases hk
    refine ⟨used, xs, o, e, f, h1, h2, h3, h4, h5, fun hf => h6 ?_⟩
    exact fed_of rfl hs hf
  | err s k hs hn hc =>
    obtain ⟨hi, used, xs, o, e, f, h1, h2, h3, h4, h5, h6⟩ := key s hs
    obtain ⟨m, e', hm, he, h1⟩ := Alone.of_err h1 hn
    refine ⟨m, by omega, hok.update hs rfl (fun _ _ => rfl) (fun j hj => set_other _ _ _ hj) same ?_ (by intro hk; cases hk) ?_
      hok.pipes hok.last⟩
    · intro k' hk; cases hk
      refine ⟨used, xs, o, e', f, h1, h2, h3, h4, ?_, fun hf => h6 (fed_of rfl hs hf)⟩
      show set c.errPipe i _ i + e' = _
      rw [set_same]; omega
    · intro j
      show set c.errPipe i _ j ≤ _
      rw [set_apply]; split
      · exact hc
      · exact hok.errs j
  | file s k b hs hn hi hf =>
    obtain ⟨_, used, xs, o, e, f, h1, h2, h3, h4, h5, h6⟩ := key s hs
    obtain ⟨m, o', hm, rfl, h1'⟩ := Alone.of_out h1 hn
    refine ⟨m, by omega, hok.update hs rfl (fun j hj => set_other _ _ _ hj) (fun _ _ => rfl) ?_ ?_ (by intro hk; cases hk)
      hok.errs hok.pipes (by rw [hf]; intro h; cases h)⟩
    · intro j hj hlt used h
      cases j with
      | zero => exact h
      | succ j =>
        show used ++ c.pipe j = set c.written i _ j
        rw [set_other _ _ _ (by omega)]; exact h
    · intro k' hk; cases hk
      refine ⟨used, xs, o', e, f, h1', h2, ?_, ?_, h5, fun hf => h6 (fed_of rfl hs hf)⟩
      · cases i with
        | zero => exact h3
        | succ i =>
          show used ++ c.pipe i = set c.written (i + 1) _ i
          rw [set_other _ _ _ (by omega)]; exact h3
      · show set c.written i _ i ++ o' = _
        rw [set_same, List.append_assoc]; exact h4
  | sigpipe s k b hs hn hi hr =>
    obtain ⟨_, used, xs, o, e, f, h1, h2, h3, h4, h5, h6⟩ := key s hs
    obtain ⟨m, o', hm, rfl, h1'⟩ := Alone.of_out h1 hn
    refine ⟨0, by omega, hok.update hs rfl (fun _ _ => rfl) (fun _ _ => rfl) same (by intro k hk; cases hk) ?_ hok.errs hok.pipes
      hok.last⟩
    intro _
    refine ⟨⟨_, h4⟩, fun h => absurd ?_ (h hi)⟩
    show set c.st i none (i + 1) = none
    rw [set_other _ _ _ (by omega)]; exact hr
  | out s k b hs hn hi hr hc =>
    obtain ⟨_, used, xs, o, e, f, h1, h2, h3, h4, h5, h6⟩ := key s hs
    obtain ⟨m, o', hm, rfl, h1'⟩ := Alone.of_out h1 hn
    refine ⟨m, by omega, hok.update hs rfl (fun j hj => set_other _ _ _ hj) (fun _ _ => rfl) ?_ ?_ (by intro hk; cases hk)
      hok.errs ?_ ?_⟩
    · intro j hj hlt used h
      cases j with
      | zero => exact h
      | succ j =>
        show used ++ set c.pipe i _ j = set c.written i _ j
        rw [set_apply, set_apply]
        split
        · rename_i hji; subst hji
          rw [← List.append_assoc]
          exact congrArg (· ++ [b]) h
        · exact h
    · intro k' hk; cases hk
      refine ⟨used, xs, o', e, f, h1', h2, ?_, ?_, h5, fun hf => h6 (fed_of rfl hs hf)⟩
      · cases i with
        | zero => exact h3
        | succ i =>
          show used ++ set c.pipe (i + 1) _ i = set c.written (i + 1) _ i
          rw [set_other _ _ _ (by omega), set_other _ _ _ (by omega)]; exact h3
      · show set c.written i _ i ++ o' = _
        rw [set_same, List.append_assoc]; exact h4
    · intro j
      show (set c.pipe i _ j).length ≤ _
      rw [set_apply]; split
      · rw [List.length_append]; exact hc
      · exact hok.pipes j
    · intro hf j hj
      show set c.pipe i _ j = set c.written i _ j
      rw [set_apply, set_apply]; split
      · rename_i hji; subst hji
        rw [hok.last hf _ hj]
      · exact hok.last hf j hj
  | stdin s k b rest hs hn hi hl =>
    subst hi
    obtain ⟨_, used, xs, o, e, f, h1, h2, h3, h4, h5, h6⟩ := key s hs
    have hx : xs = b :: rest := by
      have : used ++ xs = used ++ c.inLeft := by rw [h2]; exact h3.symm
      rw [List.append_cancel_left this, hl]
    rcases Alone.of_read h1 hn with ⟨m, x, ys, hm, hx', h1⟩ | ⟨_, _, _, hx', _⟩
    · rw [hx] at hx'; cases hx'
      refine ⟨m, by omega, hok.update hs rfl (fun _ _ => rfl) (fun _ _ => rfl) ?_ ?_ (by intro hk; cases hk) hok.errs hok.pipes
        hok.last⟩
      · intro j hj hlt used h
        cases j with
        | zero => exact absurd rfl hj
        | succ j => exact h
      · intro k' hk; cases hk
        refine ⟨used ++ [b], rest, o, e, f, h1, ?_, ?_, h4, h5, fun hf => hf.elim⟩
        · rw [List.append_assoc, ← h2, hx]; rfl
        · rw [List.append_assoc]
          rw [show c.avail 0 = b :: rest from hl] at h3
          exact h3
    · rw [hx] at hx'; cases hx'
  | read s k b rest j hs hn hi hl =>
    subst hi
    obtain ⟨_, used, xs, o, e, f, h1, h2, h3, h4, h5, h6⟩ := key s hs
    have h3' : used ++ b :: rest = c.written j := by rw [← hl]; exact h3
    have hpre : c.written j <+: r.outs j := by
      have hj : j < P.count := by omega
      cases hp : c.st j with
      | none => exact (hok.over j hj hp).1
      | some q =>
        obtain ⟨_, _, o', _, _, _, _, _, h9, _⟩ := hok.going j q hj hp
        exact ⟨o', h9⟩
    have hx : ∃ ys, xs = b :: ys := by
      obtain ⟨z, hz⟩ := hpre
      rw [← h3', List.append_assoc] at hz
      exact ⟨rest ++ z, List.append_cancel_left (h2.trans hz.symm)⟩
    obtain ⟨ys', hx⟩ := hx
    rcases Alone.of_read h1 hn with ⟨m, x, ys, hm, hx', h1⟩ | ⟨_, _, _, hx', _⟩
    · rw [hx] at hx'; cases hx'
      refine ⟨m, by omega, hok.update hs rfl (fun _ _ => rfl) (fun _ _ => rfl) ?_ ?_ (by intro hk; cases hk) hok.errs ?_ ?_⟩
      · intro q hq hlt used h
        cases q with
        | zero => exact h
        | succ q =>
          show used ++ set c.pipe j _ q = _
          rw [set_other _ _ _ (by omega)]; exact h
      · intro k' hk; cases hk
        refine ⟨used ++ [b], ys', o, e, f, h1, ?_, ?_, h4, h5, fun hf => h6 (fed_of rfl hs hf)⟩
        · rw [List.append_assoc, ← h2, hx]; rfl
        · show used ++ [b] ++ set c.pipe j _ j = c.written j
          rw [set_same, List.append_assoc]; exact h3'
      · intro q
        show (set c.pipe j _ q).length ≤ _
        rw [set_apply]; split
        · have := hok.pipes j
          rw [hl, List.length_cons] at this
          omega
        · exact hok.pipes q
      · intro hf q hq
        show set c.pipe j _ q = _
        rw [set_other _ _ _ (by omega)]; exact hok.last hf q hq
    · rw [hx] at hx'; cases hx'
  | eof s k hs hn hl hf =>
    obtain ⟨hi, used, xs, o, e, f, h1, h2, h3, h4, h5, h6⟩ := key s hs
    have hx : xs = [] := by
      rw [hl, List.append_nil] at h3
      have : r.src i = c.received P i := by
        cases i with
        | zero => rfl
        | succ j =>
          have hj : c.st j = none := Classical.not_not.1 hf
          exact ((hok.over j (by omega) hj).2 fun _ => by rw [hs]; simp).symm
      rw [this, ← h3] at h2
      simpa using h2
    rcases Alone.of_read h1 hn with ⟨_, _, _, _, hx', _⟩ | ⟨m, b', hm, _, _, h1⟩
    · rw [hx] at hx'; cases hx'
    · refine ⟨m, by omega, hok.update hs rfl (fun _ _ => rfl) (fun _ _ => rfl) same ?_ (by intro hk; cases hk) hok.errs hok.pipes
        hok.last⟩
      intro k' hk; cases hk
      exact ⟨used, [], o, e, b', h1, by rw [← h2, hx], h3, h4, h5, fun hf' => absurd (fed_of rfl hs hf') hf⟩

/-! ## Executions -/

/-- The actions to go, of all processes together. -/
def toGo (n : Nat) (left : Nat → Nat) : Nat := ((List.range n).map left).sum

theorem toGo_set {n i m : Nat} {left : Nat → Nat} (hi : i < n) (hm : m < left i) : toGo n (set left i m) < toGo n left := by
  have hsame : ∀ n, n ≤ i → toGo n (set left i m) = toGo n left := by
    intro n hn
    unfold toGo
    congr 1
    refine List.map_congr_left fun x hx => set_other _ _ _ ?_
    have := List.mem_range.1 hx
    omega
  induction n with
  | zero => omega
  | succ n ih =>
    have hs : ∀ f : Nat → Nat, toGo (n + 1) f = toGo n f + f n := by
      intro f; simp [toGo, List.range_succ]
    rw [hs, hs]
    by_cases h : i = n
    · subst h
      rw [hsame i (Nat.le_refl _), set_same]
      omega
    · rw [set_other _ _ _ (fun h' => h h'.symm)]
      have := ih (by omega)
      omega

theorem PipeAct.lt {c c' : PipeSt σ} {left : Nat → Nat} {i : Nat} (hok : PipeOk r c left) (h : PipeAct P next c i c') :
    i < P.count := by
  refine Nat.lt_of_not_le fun hle => ?_
  have := hok.beyond i hle
  cases h <;> simp_all

theorem PipeOk.run {c c' : PipeSt σ} {left : Nat → Nat} {is : List Nat} (hok : PipeOk r c left)
    (h : c.run P next is = some c') : ∃ left', PipeOk r c' left' ∧ is.length + toGo P.count left' ≤ toGo P.count left := by
  induction is generalizing c left with
  | nil => cases h; exact ⟨left, hok, by simp⟩
  | cons i is ih =>
    simp only [PipeSt.run] at h
    split at h
    · rename_i c1 h1
      have ha := pipe_act h1
      obtain ⟨m, hm, hok1⟩ := hok.step ha
      obtain ⟨left', h2, h3⟩ := ih hok1 h
      have := toGo_set (ha.lt hok) hm
      exact ⟨left', h2, by rw [List.length_cons]; omega⟩
    · cases h

/-- Why a process cannot go on although it has not ended: the next one has not made room, or the one before has not
written. -/
theorem PipeOk.blocked {c : PipeSt σ} {left : Nat → Nat} (hok : PipeOk r c left) (hcap : 0 < P.cap) (hfit : Fits r) {i : Nat}
    {s : σ} (hs : c.st i = some s) (hb : c.step P next i = none) :
    (i + 1 < P.count ∧ c.st (i + 1) ≠ none ∧ c.pipe i ≠ []) ∨ (∃ j, i = j + 1 ∧ c.pipe j = [] ∧ c.st j ≠ none) := by
  have hi : i < P.count := by
    refine Nat.lt_of_not_le fun hle => ?_
    rw [hok.beyond i hle] at hs; cases hs
  obtain ⟨used, xs, o, e, f, h1, h2, h3, h4, h5, h6⟩ := hok.going i s hi hs
  simp only [PipeSt.step, hs] at hb
  split at hb
  · cases hb
  · cases hb
  · rename_i k hn
    split at hb
    · cases hb
    · rename_i hc
      obtain ⟨m, e', hm, he, _⟩ := Alone.of_err h1 hn
      have := hfit.errs i hi
      omega
  · rename_i b k hn
    obtain ⟨m, o', hm, rfl, _⟩ := Alone.of_out h1 hn
    split at hb
    · cases hb
    · rename_i hf
      split at hb
      · cases hb
      · rename_i hr
        split at hb
        · cases hb
        · rename_i hc
          by_cases hlast : i + 1 = P.count
          · have htf : P.toFile = false := by
              cases h : P.toFile with
              | false => rfl
              | true => exact absurd ⟨hlast, h⟩ hf
            have h7 := hfit.last htf i hlast
            rw [hok.last htf i hlast] at hc
            rw [← h4, List.length_append, List.length_cons] at h7
            omega
          · refine Or.inl ⟨by omega, fun h => hr ⟨by omega, by rw [h]; rfl⟩, fun h => hc ?_⟩
            rw [h]; exact hcap
  · rename_i k hn
    split at hb
    · split at hb <;> cases hb
    · split at hb
      · cases hb
      · rename_i hl
        split at hb
        · cases hb
        · rename_i hd
          exact Or.inr ⟨_, rfl, hl, fun h => hd (by rw [h]; rfl)⟩

theorem PipeOk.progress {c : PipeSt σ} {left : Nat → Nat} (hok : PipeOk r c left) (hcap : 0 < P.cap) (hfit : Fits r) {i : Nat}
    (hi : c.st i ≠ none) : ∃ j c', c.step P next j = some c' := by
  refine Classical.byContradiction fun hno => ?_
  have hb : ∀ j, c.step P next j = none := by
    intro j
    cases h : c.step P next j with
    | none => rfl
    | some c' => exact absurd ⟨j, c', h⟩ hno
  have hlt : ∀ j, c.st j ≠ none → j < P.count := fun j hj =>
    Nat.lt_of_not_le fun hle => hj (hok.beyond j hle)
  have up : ∀ d j, P.count - j = d → c.st (j + 1) ≠ none → c.pipe j ≠ [] → False := by
    intro d
    induction d with
    | zero => intro j h1 h2; have := hlt _ h2; omega
    | succ d ih =>
      intro j h1 h2 h3
      obtain ⟨s, hs⟩ := Option.ne_none_iff_exists'.1 h2
      rcases hok.blocked hcap hfit hs (hb _) with ⟨h4, h5, h6⟩ | ⟨q, h4, h5, h6⟩
      · exact ih (j + 1) (by omega) h5 h6
      · cases h4; exact h3 h5
  have down : ∀ j, c.st j ≠ none → c.pipe j = [] → False := by
    intro j
    induction j with
    | zero =>
      intro h1 h2
      obtain ⟨s, hs⟩ := Option.ne_none_iff_exists'.1 h1
      rcases hok.blocked hcap hfit hs (hb _) with ⟨_, _, h6⟩ | ⟨q, h4, _⟩
      · exact h6 h2
      · cases h4
    | succ j ih =>
      intro h1 h2
      obtain ⟨s, hs⟩ := Option.ne_none_iff_exists'.1 h1
      rcases hok.blocked hcap hfit hs (hb _) with ⟨_, _, h6⟩ | ⟨q, h4, h5, h6⟩
      · exact h6 h2
      · cases h4; exact ih h6 h5
  obtain ⟨s, hs⟩ := Option.ne_none_iff_exists'.1 hi
  rcases hok.blocked hcap hfit hs (hb _) with ⟨_, h5, h6⟩ | ⟨q, _, h5, h6⟩
  · exact up _ i rfl h5 h6
  · exact down q h6 h5

/-! ## The property -/

/-- **C62** The bytes that go from process to process do not depend on how the processes are interleaved nor on the
capacity of the pipes: each has written a beginning of what it would write if the processes ran one after the other,
and the last one, when it has ended, all of that. The processes take no more actions than they would then. -/
theorem C62_output (r : OneByOne P next start) {is : List Nat} {c : PipeSt σ}
    (h : (PipeSt.init P start).run P next is = some c) :
    (∀ i, i < P.count → c.written i <+: r.outs i) ∧
    (∀ i, i + 1 = P.count → c.st i = none → c.written i = r.outs i) ∧
    is.length ≤ ((List.range P.count).map r.ns).sum := by
  obtain ⟨left, hok, hlen⟩ := (PipeOk.init r).run h
  refine ⟨fun i hi => ?_, fun i hi hs => (hok.over i (by omega) hs).2 (by omega), ?_⟩
  · cases hp : c.st i with
    | none => exact (hok.over i hi hp).1
    | some q =>
      obtain ⟨_, _, o', _, _, _, _, _, h9, _⟩ := hok.going i q hi hp
      exact ⟨o', h9⟩
  · have : toGo P.count r.ns = ((List.range P.count).map r.ns).sum := rfl
    omega

/-- **C62** If the output nobody reads fits into the pipes, the pipeline is never stuck, however its processes are
interleaved: some process can go on until all have ended. (By `C62_output` it cannot go on for ever.) -/
theorem C62_completes_partial (r : OneByOne P next start) (hcap : 0 < P.cap) (hfit : Fits r) {is : List Nat} {c : PipeSt σ}
    (h : (PipeSt.init P start).run P next is = some c) :
    (∀ i, c.st i = none) ∨ ∃ j c', c.step P next j = some c' := by
  obtain ⟨left, hok, _⟩ := (PipeOk.init r).run h
  by_cases hd : ∃ i, c.st i ≠ none
  · obtain ⟨i, hi⟩ := hd
    exact Or.inr (hok.progress hcap hfit hi)
  · exact Or.inl fun i => Classical.byContradiction fun hi => hd ⟨i, hi⟩

/-- **C62 fails**: if the last process writes more to its standard output than a pipe takes, and that is not redirected,
it never ends, and with it the run. -/
theorem C62_blocked_output (r : OneByOne P next start) (hf : P.toFile = false) {i : Nat} (hi : i + 1 = P.count)
    (hbig : P.cap < (r.outs i).length) {is : List Nat} {c : PipeSt σ}
    (h : (PipeSt.init P start).run P next is = some c) : c.st i ≠ none := by
  obtain ⟨left, hok, _⟩ := (PipeOk.init r).run h
  intro hn
  have h1 := (hok.over i (by omega) hn).2 (by omega)
  have h2 := hok.pipes i
  rw [hok.last hf i hi, h1] at h2
  omega

/-- **C62 fails**: if a process writes more to its standard error than a pipe takes and those behind it read their input to
the end, neither it nor any of them ever ends. -/
theorem C62_blocked_errors (r : OneByOne P next start) {i : Nat} (hbig : P.cap < r.errs i)
    (heof : ∀ j, i < j → j < P.count → r.eofs j = true) {is : List Nat} {c : PipeSt σ}
    (h : (PipeSt.init P start).run P next is = some c) : ∀ j, i ≤ j → j < P.count → c.st j ≠ none := by
  have gen : ∀ (is : List Nat) (c0 : PipeSt σ) (left : Nat → Nat), PipeOk r c0 left →
      (∀ j, i ≤ j → j < P.count → c0.st j ≠ none) → c0.run P next is = some c →
      ∀ j, i ≤ j → j < P.count → c.st j ≠ none := by
    intro is
    induction is with
    | nil => intro c0 left _ h1 h2; cases h2; exact h1
    | cons q is ih =>
      intro c0 left hok h1 h2
      simp only [PipeSt.run] at h2
      split at h2
      · rename_i c1 hs1
        have ha := pipe_act hs1
        obtain ⟨m, _, hok1⟩ := hok.step ha
        refine ih c1 _ hok1 ?_ h2
        have alive : ∀ (k : σ) (j : Nat), i ≤ j → j < P.count → set c0.st q (some k) j ≠ none := by
          intro k j hj hlt
          rw [set_apply]; split
          · simp
          · exact h1 j hj hlt
        intro j hj hlt
        cases ha with
        | exit s hs hn =>
          show set c0.st q none j ≠ none
          rw [set_apply]; split
          · rename_i hjq; subst hjq
            exfalso
            obtain ⟨_, _, _, _, _, g1, _, _, _, g5, g6⟩ := hok.going j s hlt hs
            obtain ⟨_, rfl, _, rfl⟩ := Alone.of_exit g1 hn
            rcases Nat.lt_or_eq_of_le hj with hlt' | rfl
            · have hfed : c0.fed j := by
                cases j with
                | zero => omega
                | succ j => exact h1 j (by omega) (by omega)
              have := g6 hfed
              rw [heof j hlt' hlt] at this
              cases this
            · have := hok.errs i
              omega
          · exact h1 j hj hlt
        | sigpipe s k b hs hn hi hr =>
          show set c0.st q none j ≠ none
          rw [set_apply]; split
          · rename_i hjq; subst hjq
            exact absurd hr (h1 (j + 1) (by omega) hi)
          · exact h1 j hj hlt
        | think s k => exact alive _ j hj hlt
        | err s k => exact alive _ j hj hlt
        | file s k => exact alive _ j hj hlt
        | out s k => exact alive _ j hj hlt
        | stdin s k => exact alive _ j hj hlt
        | read s k => exact alive _ j hj hlt
        | eof s k => exact alive _ j hj hlt
      · cases h2
  refine gen is _ _ (PipeOk.init r) ?_ h
  intro j _ hj
  simp [PipeSt.init, hj]

/-- Every execution can be prolonged until no process can go on. -/
theorem C62_stops (r : OneByOne P next start) {is : List Nat} {c : PipeSt σ}
    (h : (PipeSt.init P start).run P next is = some c) :
    ∃ is' c', c.run P next is' = some c' ∧ ∀ j, c'.step P next j = none := by
  obtain ⟨left, hok, hlen⟩ := (PipeOk.init r).run h
  clear hlen
  generalize hn : toGo P.count left = n
  clear h
  induction n using Nat.strongRecOn generalizing c left with
  | ind n ih =>
    by_cases hs : ∃ j c', c.step P next j = some c'
    · obtain ⟨j, c1, h1⟩ := hs
      have ha := pipe_act h1
      obtain ⟨m, hm, hok1⟩ := hok.step ha
      have hlt := toGo_set (ha.lt hok) hm
      obtain ⟨is', c', h2, h3⟩ := ih _ (by omega) _ hok1 rfl
      exact ⟨j :: is', c', by simp only [PipeSt.run, h1]; exact h2, h3⟩
    · refine ⟨[], c, rfl, fun j => ?_⟩
      cases h : c.step P next j with
      | none => rfl
      | some c' => exact absurd ⟨j, c', h⟩ hs

/-- **C62** For pipelines whose processes read all of their input, fitting is exactly what is needed: the last process
can end at all if and only if the output nobody reads fits into the pipes. -/
theorem C62_exactly (r : OneByOne P next start) (hcap : 0 < P.cap) (heof : ∀ j, 0 < j → j < P.count → r.eofs j = true)
    {l : Nat} (hl : l + 1 = P.count) :
    (∃ is c, (PipeSt.init P start).run P next is = some c ∧ c.st l = none) ↔ Fits r := by
  constructor
  · rintro ⟨is, c, h, hn⟩
    refine ⟨fun i hi => Nat.le_of_not_lt fun hb => ?_, fun hf i hi => Nat.le_of_not_lt fun hb => ?_⟩
    · exact C62_blocked_errors r hb (fun j hj hlt => heof j (by omega) hlt) h l (by omega) (by omega) hn
    · have : i = l := by omega
      subst this
      exact C62_blocked_output r hf hi hb h hn
  · intro hfit
    obtain ⟨is, c, h, hs⟩ := C62_stops r (is := []) rfl
    refine ⟨is, c, h, ?_⟩
    rcases C62_completes_partial r hcap hfit h with h1 | ⟨j, c', h1⟩
    · exact h1 l
    · rw [hs j] at h1; cases h1

end

/-! ## From the command line -/

theorem pipelineEffects_stdout (p : List (List Str)) (n : Nat) :
    (pipelineEffects n p).filterMap ShEffect.stdout? = List.replicate p.length .piped := by
  induction p generalizing n with
  | nil => rfl
  | cons c cs ih => simp only [pipelineEffects, List.filterMap_cons, ih]; rfl

/-- What was started for a plain pipeline: a process for each stage, nothing redirected. -/
theorem C62_plain {ws : Char → Bool} (hsp : ws ' ' = true) (incl : Bool) (os : OS) (hspawn : ∀ n, os.spawnOk n = true)
    (hpipe : ∀ n, os.pipeOk n = true) (p : List (List Str)) (hp : PlainPipeline ws p) (cap : Nat) (input : List Nat) :
    Pipeline.of (parseAndRun ws incl os (joinPipeline p)).1 cap input =
      { count := p.length, toFile := false, cap := cap, input := input } := by
  rw [C38_pipeline_faithful hsp incl os hspawn hpipe p hp]
  simp only [Pipeline.of, pipelineEffects_stdout, List.length_replicate, List.getLast?_replicate]
  split <;> rfl

/-- What was started for a pipeline that ends in a redirection. -/
theorem C62_redirected {ws : Char → Bool} (hsp : ws ' ' = true) (hgt : ws '>' = false) (incl : Bool) (os : OS)
    (hopen : ∀ m f, os.openOk m f = true) (hspawn : ∀ n, os.spawnOk n = true) (hpipe : ∀ n, os.pipeOk n = true)
    (p : List (List Str)) (cmd : List Str) (m : OpenMode) (file : Str) (hp : ∀ c ∈ p, c ≠ [] ∧ ∀ w ∈ c, PlainWord ws w)
    (hcmd : cmd ≠ []) (hcp : ∀ w ∈ cmd, PlainWord ws w) (hfile : PlainWord ws file) (cap : Nat) (input : List Nat) :
    Pipeline.of (parseAndRun ws incl os (joinPipeline (p ++ [cmd ++ [angleStr m, file]]))).1 cap input =
      { count := p.length + 1, toFile := true, cap := cap, input := input } := by
  rw [C39_pipeline hsp hgt incl os hopen hspawn hpipe p cmd m file [] hp hcmd hcp hfile (by simp)]
  have h : ∀ (x : ShEffect) (o : Stdout), x.stdout? = some o →
      (pipelineEffects 0 p ++ [.opened m file true, x]).filterMap ShEffect.stdout? = List.replicate p.length .piped ++ [o] := by
    intro x o hx
    rw [List.filterMap_append, pipelineEffects_stdout]
    congr 1
    rw [List.filterMap_cons_none rfl, List.filterMap_cons_some hx, List.filterMap_nil]
  simp only [Pipeline.of]
  rw [h _ (.file m file) rfl]
  simp [Stdout.isFile]

/-- **C62** from the command line on: a plain pipeline whose processes read all of their input can get to its end if
and only if all of its standard errors and its output are no longer than a pipe is. -/
theorem C62_command {σ : Type} {ws : Char → Bool} (hsp : ws ' ' = true) (incl : Bool) (os : OS)
    (hspawn : ∀ n, os.spawnOk n = true) (hpipe : ∀ n, os.pipeOk n = true) (p : List (List Str)) (hp : PlainPipeline ws p)
    {cap : Nat} (hcap : 0 < cap) (input : List Nat) (next : Nat → σ → ProcAct σ) (start : Nat → σ) (P : Pipeline)
    (hP : P = Pipeline.of (parseAndRun ws incl os (joinPipeline p)).1 cap input) (r : OneByOne P next start)
    (heof : ∀ j, 0 < j → j < p.length → r.eofs j = true) :
    (∃ is c, (PipeSt.init P start).run P next is = some c ∧ c.st (p.length - 1) = none) ↔
      (∀ i, i < p.length → r.errs i ≤ cap) ∧ (r.outs (p.length - 1)).length ≤ cap := by
  rw [C62_plain hsp incl os hspawn hpipe p hp] at hP
  subst hP
  have hlen : 0 < p.length := List.length_pos_iff.2 hp.1
  rw [C62_exactly r hcap heof (l := p.length - 1) (by simp only []; omega)]
  constructor
  · exact fun h => ⟨h.errs, h.last rfl _ (by simp only []; omega)⟩
  · rintro ⟨h1, h2⟩
    refine ⟨h1, fun _ i hi => ?_⟩
    have : i = p.length - 1 := by simp only [] at hi; omega
    rw [this]; exact h2

end DelayTimer

namespace DelayTimer.Ex
open Spec

/-- Two programs. The first (process 0) writes as many bytes as its state says. The other one copies its input: state 0 reads, `b + 2`
writes `b`, 1 ends. -/
def copyNext : Nat → Nat → ProcAct Nat
  | 0, 0 => .exit
  | 0, n + 1 => .out n n
  | _ + 1, 0 => .read fun | some b => b + 2 | none => 1
  | _ + 1, 1 => .exit
  | _ + 1, b + 2 => .out b 0

def copyStart (n : Nat) : Nat → Nat
  | 0 => n
  | _ + 1 => 0

/-- `n - 1, …, 0` -/
def countdown : Nat → List Nat
  | 0 => []
  | n + 1 => n :: countdown n

theorem countdown_length (n : Nat) : (countdown n).length = n := by
  induction n with
  | zero => rfl
  | succ n ih => simp [countdown, ih]

theorem writes_alone (n : Nat) (xs : List Nat) : Alone (copyNext 0) n xs (countdown n) 0 (n + 1) false := by
  induction n with
  | zero => exact .exit rfl
  | succ n ih => exact .out rfl ih

theorem copies_alone (i : Nat) (xs : List Nat) : Alone (copyNext (i + 1)) 0 xs xs 0 (2 * xs.length + 2) true := by
  induction xs with
  | nil => exact .eof rfl (.exit rfl)
  | cons x xs ih => exact .byte rfl (.out rfl ih)

/-- `writer n | copy`, not redirected, one after the other. -/
def copyOneByOne (n cap : Nat) (file : Bool) :
    OneByOne { count := 2, toFile := file, cap := cap, input := [] } copyNext (copyStart n) where
  outs := fun _ => countdown n
  errs := fun _ => 0
  ns := fun i => if i = 0 then n + 1 else 2 * (countdown n).length + 2
  eofs := fun i => decide (i ≠ 0)
  first := fun _ => writes_alone n []
  later := by
    intro i hi
    simpa [copyStart] using copies_alone i (countdown n)

/-- C62: more output than a pipe takes, and the run hangs; redirected to a file, or if it is no more than that, it ends. -/
theorem C62_hangs (n cap : Nat) (hcap : 0 < cap) (file : Bool) :
    (∃ is c, (PipeSt.init { count := 2, toFile := file, cap := cap, input := [] } (copyStart n)).run
      { count := 2, toFile := file, cap := cap, input := [] } copyNext is = some c ∧ c.st 1 = none) ↔
      file = true ∨ n ≤ cap := by
  rw [C62_exactly (copyOneByOne n cap file) hcap (by intro j hj _; simpa [copyOneByOne] using Nat.pos_iff_ne_zero.1 hj) rfl]
  constructor
  · intro h
    cases file with
    | true => exact Or.inl rfl
    | false =>
      have := h.last rfl 1 rfl
      simp only [copyOneByOne, countdown_length] at this
      exact Or.inr this
  · intro h
    refine ⟨fun i _ => Nat.zero_le _, fun hf i _ => ?_⟩
    simp only at hf
    subst hf
    simpa [copyOneByOne, countdown_length] using h

/-- On Linux a pipe takes 65536 bytes. -/
example : ¬ ∃ is c, (PipeSt.init { count := 2, toFile := false, cap := 65536, input := [] } (copyStart 100000)).run
    { count := 2, toFile := false, cap := 65536, input := [] } copyNext is = some c ∧ c.st 1 = none := by
  rw [C62_hangs _ _ (by decide)]; decide

/-- The hypotheses of `C62_completes_partial`, and an execution: the reader gets ahead of the writer where it can. -/
example : Fits (copyOneByOne 3 3 false) ∧
    ((PipeSt.init { count := 2, toFile := false, cap := 3, input := [] } (copyStart 3)).run
      { count := 2, toFile := false, cap := 3, input := [] } copyNext [0, 1, 0, 1, 1, 0, 1, 0, 1, 1, 1, 1]).map
        (fun c => (c.st 1, c.written 1)) = some (none, [2, 1, 0]) := by
  refine ⟨⟨fun _ _ => Nat.zero_le _, fun _ i _ => ?_⟩, by decide +kernel⟩
  simp [copyOneByOne, countdown_length]

/-- A process that complains `n` times and then ends, in front of one that copies. -/
def gripeNext : Nat → Nat → ProcAct Nat
  | 0, 0 => .exit
  | 0, n + 1 => .err n
  | i + 1, s => copyNext (i + 1) s

theorem gripes_alone (n : Nat) (xs : List Nat) : Alone (gripeNext 0) n xs [] n (n + 1) false := by
  induction n with
  | zero => exact .exit rfl
  | succ n ih => exact .err rfl ih

def gripeOneByOne (n cap : Nat) :
    OneByOne { count := 2, toFile := true, cap := cap, input := [] } gripeNext (copyStart n) where
  outs := fun _ => []
  errs := fun i => if i = 0 then n else 0
  ns := fun i => if i = 0 then n + 1 else 2
  eofs := fun i => decide (i ≠ 0)
  first := fun _ => gripes_alone n []
  later := by
    intro i hi
    simpa [copyStart] using (.eof rfl (.exit rfl) : Alone (gripeNext (i + 1)) 0 [] [] 0 2 true)

/-- C62: messages on the standard error of the first process are enough to make the run hang for ever, even with the output
redirected. -/
example {is : List Nat} {c : PipeSt Nat}
    (h : (PipeSt.init { count := 2, toFile := true, cap := 65536, input := [] } (copyStart 70000)).run
      { count := 2, toFile := true, cap := 65536, input := [] } gripeNext is = some c) : c.st 1 ≠ none := by
  refine C62_blocked_errors (gripeOneByOne 70000 65536) (i := 0) (by simp [gripeOneByOne]) ?_ h 1 (by omega) (by simp)
  intro j hj _
  simpa [gripeOneByOne] using Nat.pos_iff_ne_zero.1 hj

end DelayTimer.Ex
