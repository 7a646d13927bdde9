import Verif.Model.Shell

/-! Specification vocabulary for pipelines. -/

namespace DelayTimer.Spec

/-- Words joined by single blanks. -/
def joinWords : List Str → Str
  | [] => []
  | [w] => w
  | w :: ws => w ++ ' ' :: joinWords ws

/-- Commands joined by `" | "`. -/
def joinPipeline : List (List Str) → Str
  | [] => []
  | [c] => joinWords c
  | c :: cs => joinWords c ++ ' ' :: '|' :: ' ' :: joinPipeline cs

/-- A word a pipeline string can carry: not empty, no white space, not a lone `|`. -/
def PipeWord (ws : Char → Bool) (w : Str) : Prop :=
  w ≠ [] ∧ (∀ c ∈ w, ws c = false) ∧ w ≠ ['|']

/-- A pipeline of such commands. -/
def WordPipeline (ws : Char → Bool) (p : List (List Str)) : Prop :=
  p ≠ [] ∧ ∀ c ∈ p, c ≠ [] ∧ ∀ w ∈ c, PipeWord ws w

/-- A plain word: not empty, no white space, no `>`, not a lone `|`. -/
def PlainWord (ws : Char → Bool) (w : Str) : Prop :=
  w ≠ [] ∧ (∀ c ∈ w, ws c = false ∧ c ≠ '>') ∧ w ≠ ['|']

/-- A pipeline of plain commands. -/
def PlainPipeline (ws : Char → Bool) (p : List (List Str)) : Prop :=
  p ≠ [] ∧ ∀ c ∈ p, c ≠ [] ∧ ∀ w ∈ c, PlainWord ws w

/-- What running a pipeline must do when every start succeeds: stage `i` starts with its program and
arguments, the first one reading the parent's stdin, every other one its predecessor's stdout. -/
def pipelineEffects : Nat → List (List Str) → List ShEffect
  | _, [] => []
  | n, c :: cs =>
    .spawned n (c.headD []) c.tail (if n = 0 then .inherit else .pipeFrom (n - 1)) .piped
      :: pipelineEffects (n + 1) cs

/-- Processes started / killed according to an effect trace. -/
def startedProcs (es : List ShEffect) : List Nat :=
  es.filterMap fun | .spawned n _ _ _ _ => some n | _ => none

def killedProcs (es : List ShEffect) : List Nat :=
  es.filterMap fun | .killed n => some n | _ => none

end DelayTimer.Spec
