import Verif.Proofs.Hand
import Verif.Spec.History

/-! The event channel is a queue: events are dispatched in the order in which they were put in. -/

namespace DelayTimer
open Spec

/-- The event being dispatched. -/
def epcTags : EPC → List Tag
  | .idle => []
  | .add1 t c _ => [addTag t c]
  | .add2 t c _ _ _ => [addTag t c]
  | .add3 tag _ => [tag]
  | .remove id _ => [.remove id]
  | .adv1 t => [.advance t.taskId]
  | .adv2 t _ => [.advance t.taskId]

def Fifo (s : St) : Prop :=
  queuedTags s.log = dispatchedTags s.log ++ epcTags s.epc ++ s.chan.map TimerEvent.tag

theorem addTag_congr {t u : Task} (h : t.taskId = u.taskId) (c : Option Nat) : addTag t c = addTag u c := by
  cases c <;> simp [addTag, h]

theorem fifo_step {env : Env} {s : St} {l : Label} {s' : St} (hs : Fifo s) (h : Act env s l s') : Fifo s' := by
  unfold Fifo at *
  cases h
  all_goals try (exact hs)
  all_goals try (simp [queuedTags, dispatchedTags, hs, push, uInsert, TimerEvent.tag]; done)
  all_goals try (
    rw [‹s.epc = _›, ‹s.chan = _›] at hs
    simp [queuedTags, dispatchedTags, hs, epcTags, TimerEvent.tag, addTag]; done)
  all_goals try (
    rw [‹s.epc = _›] at hs
    simp [queuedTags, dispatchedTags, hs, epcTags, addTag]; done)
  case recv_advance id rest m sl t he hc hf hw hr =>
    rw [he, hc] at hs
    simp [hs, epcTags, TimerEvent.tag, (removeTask_some hr).2]
  case recv_cancel id rec rest he hc =>
    rw [he, hc] at hs
    rcases cancelTask_log env true { s with chan := rest } id rec CANCELLED with h | h | ⟨_, _, h⟩ <;>
      simp [h, queuedTags, dispatchedTags, hs, epcTags, TimerEvent.tag]
  case recv_timeout id rec rest he hc =>
    rw [he, hc] at hs
    rcases cancelTask_log env false { s with chan := rest } id rec TIMEOUT with h | h | ⟨_, _, h⟩ <;>
      simp [h, queuedTags, dispatchedTags, hs, epcTags, TimerEvent.tag]
  case recv_finish b rest he hc =>
    rw [he, hc] at hs
    rcases finishTask_log env { s with chan := rest } b.taskId b.recordId with h | h | ⟨_, _, h⟩ <;>
      simp [h, queuedTags, dispatchedTags, hs, epcTags, TimerEvent.tag]
theorem fifo {env : Env} {s : St} (h : Reachable env s) : Fifo s :=
  Reachable.induct Fifo rfl (fun _ _ _ _ hs h => fifo_step hs h) s h

theorem mem_queuedTags {t : Tag} {log : List Obs} : t ∈ queuedTags log ↔ .queued t ∈ log := by
  induction log with
  | nil => simp [queuedTags]
  | cons o log ih => cases o <;> simp [queuedTags, ih, or_comm]

theorem mem_dispatchedTags {t : Tag} {log : List Obs} : t ∈ dispatchedTags log ↔ ∃ r, .dispatched t r ∈ log := by
  induction log with
  | nil => simp [dispatchedTags]
  | cons o log ih =>
    cases o <;> simp only [dispatchedTags, List.mem_cons, List.mem_append, List.not_mem_nil, or_false, ih, reduceCtorEq, false_or, Obs.dispatched.injEq]
    constructor
    · rintro (⟨r, h⟩ | rfl)
      · exact ⟨r, Or.inr h⟩
      · exact ⟨_, Or.inl ⟨rfl, rfl⟩⟩
    · rintro ⟨r, ⟨h, _⟩ | h⟩
      · exact Or.inr h
      · exact Or.inl ⟨r, h⟩

theorem appendRecs_append (a b : List Tag) : appendRecs (a ++ b) = appendRecs a ++ appendRecs b :=
  List.filterMap_append

end DelayTimer
