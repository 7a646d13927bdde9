import Verif.Model.Pipes

/-! What a process does when it is alone with a given standard input. -/

namespace DelayTimer.Spec

/-- In state `s`, with `xs` and then end of file on its standard input and nothing in the way of its output, the program
ends by itself after `n` actions, having written `o` to its standard output and `e` bytes to its standard error; `f`:
it has read on to the end of file. -/
inductive Alone {σ : Type} (next : σ → ProcAct σ) : σ → List Nat → List Nat → Nat → Nat → Bool → Prop
  | exit {s xs} (h : next s = .exit) : Alone next s xs [] 0 1 false
  | think {s k xs o e n f} (h : next s = .think k) (r : Alone next k xs o e n f) : Alone next s xs o e (n + 1) f
  | out {s b k xs o e n f} (h : next s = .out b k) (r : Alone next k xs o e n f) : Alone next s xs (b :: o) e (n + 1) f
  | err {s k xs o e n f} (h : next s = .err k) (r : Alone next k xs o e n f) : Alone next s xs o (e + 1) (n + 1) f
  | byte {s k x xs o e n f} (h : next s = .read k) (r : Alone next (k (some x)) xs o e n f) :
      Alone next s (x :: xs) o e (n + 1) f
  | eof {s k o e n f} (h : next s = .read k) (r : Alone next (k none) [] o e n f) : Alone next s [] o e (n + 1) true

/-- What the pipeline does if its processes run one after the other, each on the complete output of the one before:
`outs i` is the output of process `i`, `errs i` the number of bytes on its standard error, `ns i` the number of its actions,
`eofs i` whether it reads to the end of its input. -/
structure OneByOne {σ : Type} (P : Pipeline) (next : Nat → σ → ProcAct σ) (start : Nat → σ) where
  outs : Nat → List Nat
  errs : Nat → Nat
  ns : Nat → Nat
  eofs : Nat → Bool
  first : 0 < P.count → Alone (next 0) (start 0) P.input (outs 0) (errs 0) (ns 0) (eofs 0)
  later : ∀ i, i + 1 < P.count →
    Alone (next (i + 1)) (start (i + 1)) (outs i) (outs (i + 1)) (errs (i + 1)) (ns (i + 1)) (eofs (i + 1))

/-- The output nobody reads fits into the pipes. -/
structure Fits {σ : Type} {P : Pipeline} {next : Nat → σ → ProcAct σ} {start : Nat → σ} (r : OneByOne P next start) : Prop where
  errs : ∀ i, i < P.count → r.errs i ≤ P.cap
  last : P.toFile = false → ∀ i, i + 1 = P.count → (r.outs i).length ≤ P.cap

end DelayTimer.Spec
