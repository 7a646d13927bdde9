import Verif.Model.Frequency

/-! # What a task object answers when it is asked again and again (C80) -/

namespace DelayTimer.Spec

/-- The answers of `n` calls of `down_count_and_set_vaild` in a row, oldest first; `none` is a panic. -/
def countAnswers (oc : Bool) : Nat → Task → Option (List Bool)
  | 0, _ => some []
  | n + 1, t =>
    match t.downCountAndSetValid oc with
    | none => none
    | some (b, t') => (countAnswers oc n t').map (b :: ·)

/-- The task after `n` calls of `check_arrived`. -/
def visited : Nat → Task → Task
  | 0, t => t
  | n + 1, t => visited n t.checkArrived.2

/-- The answers of `n` calls of `check_arrived` in a row, oldest first. -/
def visitAnswers : Nat → Task → List Bool
  | 0, _ => []
  | n + 1, t => t.checkArrived.1 :: visitAnswers n t.checkArrived.2

end DelayTimer.Spec
