import Verif.Model.System

/-!
A timer seen by somebody who only cares about some task ids.
-/

namespace DelayTimer.Spec

/-- Is an event about one of the ids in `K`? A stop is about all of them. -/
def aboutTag (K : Nat → Bool) : Tag → Bool
  | .stop => true
  | .add id | .insert id _ | .update id | .remove id | .advance id => K id
  | .cancel id _ | .timeout id _ | .finish id _ | .append id _ => K id

/-- What somebody sees who only cares about the ids in `K`; `chains` says whether the chains and instances are theirs. -/
def seen (K : Nat → Bool) (chains : Bool) : Obs → Bool
  | .queued t => aboutTag K t
  | .dispatched t _ => aboutTag K t
  | .attempted id _ | .started id _ _ _ _ | .skipped id _ => K id
  | .bodyEnded id _ | .bodyPanicked id _ | .stopped id _ => K id
  | .swept u _ => K u.taskId
  | .stateSet _ _ _ | .delivered _ _ | .expired _ => chains
  | .halted => true

/-- The public events about the ids in `K`. -/
def seenReport (K : Nat → Bool) : PublicEvent → Bool
  | .removeTask id => K id
  | .runningTask id _ => K id
  | .finishTask b => K b.taskId
  | .timeoutTask id _ => K id

/-- The id that a call concerns, if it concerns one. -/
def calledId : Label → Option Nat
  | .uSend (.add t) | .uSend (.update t) | .uInsert t => some t.taskId
  | .uSend (.remove id) | .uSend (.advance id) | .uSend (.cancel id _) => some id
  | .uCancel _ i => some i.taskId
  | _ => none

/-- A call that concerns an id outside of `K`. -/
def ForOthers (K : Nat → Bool) (l : Label) : Prop := ∃ id, calledId l = some id ∧ K id = false

/-- The calls for ids in `K`, in order. -/
def callsOf (K : Nat → Bool) (ls : List Label) : List Label := ls.filter fun l => (calledId l).any K

end DelayTimer.Spec
