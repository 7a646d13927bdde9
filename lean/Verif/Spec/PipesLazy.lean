import Verif.Spec.Pipes

/-! What a process does of which not everything is wanted. -/

namespace DelayTimer.Spec

/-- In state `s`, with a standard input that begins with `xs` and nothing in the way of its output, the program takes `n`
actions, in which it writes `o` to its standard output and `e` bytes to its standard error. `f`: it has read on to the end
of file, which comes right after `xs` then; `d`: the last of the actions is that it ends. What it would do afterwards, and
what comes after `xs` on the input, is left open. -/
inductive Partly {σ : Type} (next : σ → ProcAct σ) : σ → List Nat → List Nat → Nat → Nat → Bool → Bool → Prop
  | stop {s xs} : Partly next s xs [] 0 0 false false
  | exit {s xs} (h : next s = .exit) : Partly next s xs [] 0 1 false true
  | think {s k xs o e n f d} (h : next s = .think k) (r : Partly next k xs o e n f d) : Partly next s xs o e (n + 1) f d
  | out {s b k xs o e n f d} (h : next s = .out b k) (r : Partly next k xs o e n f d) :
      Partly next s xs (b :: o) e (n + 1) f d
  | err {s k xs o e n f d} (h : next s = .err k) (r : Partly next k xs o e n f d) : Partly next s xs o (e + 1) (n + 1) f d
  | byte {s k x xs o e n f d} (h : next s = .read k) (r : Partly next (k (some x)) xs o e n f d) :
      Partly next s (x :: xs) o e (n + 1) f d
  | eof {s k o e n f d} (h : next s = .read k) (r : Partly next (k none) [] o e n f d) : Partly next s [] o e (n + 1) true d

/-- As much of the processes as is needed for the last one to end, one after the other: `outs i` is what process `i`
writes up to there (all of its output if it has ended by then, `ends i`), which is all that the next one reads. It may
read on to the end of file only if process `i` has ended. -/
structure AsNeeded {σ : Type} (P : Pipeline) (next : Nat → σ → ProcAct σ) (start : Nat → σ) where
  outs : Nat → List Nat
  errs : Nat → Nat
  ns : Nat → Nat
  eofs : Nat → Bool
  ends : Nat → Bool
  first : 0 < P.count → Partly (next 0) (start 0) P.input (outs 0) (errs 0) (ns 0) (eofs 0) (ends 0)
  later : ∀ i, i + 1 < P.count →
    Partly (next (i + 1)) (start (i + 1)) (outs i) (outs (i + 1)) (errs (i + 1)) (ns (i + 1)) (eofs (i + 1)) (ends (i + 1))
  whole : ∀ i, i + 1 < P.count → eofs (i + 1) = true → ends i = true
  last : ∀ i, i + 1 = P.count → ends i = true

/-- The part of the output that nobody reads fits into the pipes. -/
structure Room {σ : Type} {P : Pipeline} {next : Nat → σ → ProcAct σ} {start : Nat → σ} (r : AsNeeded P next start) : Prop where
  errs : ∀ i, i < P.count → r.errs i ≤ P.cap
  last : P.toFile = false → ∀ i, i + 1 = P.count → (r.outs i).length ≤ P.cap

/-- The processes are given turns in the order `w`; a blocked one lets its turn pass. -/
def turnsOf {σ : Type} (P : Pipeline) (next : Nat → σ → ProcAct σ) (start : Nat → σ) (w : Nat → Nat) : Nat → PipeSt σ
  | 0 => PipeSt.init P start
  | n + 1 => ((turnsOf P next start w n).step P next (w n)).getD (turnsOf P next start w n)

/-- Every process gets turn after turn. -/
def FairTurns (P : Pipeline) (w : Nat → Nat) : Prop := ∀ i, i < P.count → ∀ n, ∃ m, n ≤ m ∧ w m = i

end DelayTimer.Spec
