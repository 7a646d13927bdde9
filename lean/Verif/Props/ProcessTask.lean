import Verif.Model.ProcessTask
import Verif.Props.Shell
import Verif.Props.Process

/-! # C54, C55: what is left of a shell command when its run ends -/

namespace DelayTimer
open Spec

/-- The processes started, killed and waited for in a run. -/
def Spec.started (es : List RunEffect) : List Nat :=
  es.filterMap fun | .sh (.spawned n _ _ _ _) => some n | _ => none

def Spec.killed (es : List RunEffect) : List Nat :=
  es.filterMap fun | .sh (.killed n) => some n | _ => none

def Spec.awaited (es : List RunEffect) : List Nat :=
  es.filterMap fun | .waited n => some n | _ => none

/-- The effects of a body that is never dropped, without the waiting. -/
def erase : List BodyStep → List ShEffect
  | [] => []
  | .act e :: rest => e :: erase rest
  | _ :: rest => erase rest

theorem erase_append (a b : List BodyStep) : erase (a ++ b) = erase a ++ erase b := by
  induction a with
  | nil => rfl
  | cons s a ih => cases s <;> simp [erase, ih]

theorem erase_acts (l : List ShEffect) : erase (l.map .act) = l := by
  induction l with
  | nil => rfl
  | cons a l ih => simp [erase, ih]

/-- The stepwise stage loop does what `runStages` does. -/
theorem stageSteps_erase (ws : Char → Bool) (incl : Bool) (os : OS) : ∀ (cmds : List Str) (n : Nat),
    erase (stageSteps ws incl os n cmds).1 = (runStages ws incl os n cmds).1 ∧
    (stageSteps ws incl os n cmds).2.isSome = (runStages ws incl os n cmds).2 := by
  intro cmds
  induction cmds with
  | nil => intro n; simp [stageSteps, runStages, erase]
  | cons cmd rest ih =>
    intro n
    rw [stageSteps.eq_def, runStages.eq_def]
    have hc : ∀ n, erase (if n = 0 then [] else [.await (killAll n)]) = [] := by
      intro n; split <;> rfl
    cases hr : redirectOf ws incl cmd with
    | none =>
      cases hw : splitWhitespace ws cmd with
      | nil => simp [hr, hw, erase_acts]
      | cons program args =>
        cases hsp : os.spawnOk n with
        | false => simp [hr, hw, hsp, erase_append, hc, erase, erase_acts]
        | true =>
          obtain ⟨h1, h2⟩ := ih (n + 1)
          simp [hr, hw, hsp, erase_append, hc, erase, h1, h2]
    | some mf =>
      obtain ⟨m, f⟩ := mf
      cases hw : splitWhitespace ws (removeAngle ws cmd) with
      | nil => simp [hr, hw, erase, erase_acts]
      | cons program args =>
        cases ho : os.openOk m f with
        | false => simp [hr, hw, ho, erase_append, hc, erase, erase_acts]
        | true =>
          cases hsp : os.spawnOk n with
          | false => simp [hr, hw, ho, hsp, erase_append, hc, erase, erase_acts]
          | true => simp [hr, hw, ho, hsp, erase_append, hc, erase]

/-- The ways a stage can go, stepwise. `x` are steps that neither start nor kill anything and at which exactly the
processes so far are guarded. -/
theorem stageSteps_cases (ws : Char → Bool) (incl : Bool) (os : OS) (n : Nat) (cmd : Str) (rest : List Str) :
    ∃ x : List BodyStep, (∀ s ∈ x, (∃ m f b, s = .act (.opened m f b)) ∨ (∃ p, s = .act (.spawnFailed p)) ∨
        s = .await (killAll n)) ∧
      (stageSteps ws incl os n (cmd :: rest) = (x ++ (killAll n).map .act, none) ∨
       (∃ p a i o, stageSteps ws incl os n (cmd :: rest) = (x ++ [.act (.spawned n p a i o)], some (n + 1))) ∨
       (∃ p a i o, stageSteps ws incl os n (cmd :: rest) =
          (x ++ .act (.spawned n p a i o) :: (stageSteps ws incl os (n + 1) rest).1,
            (stageSteps ws incl os (n + 1) rest).2))) := by
  rw [stageSteps.eq_def]
  generalize hcv : (if n = 0 then [] else [BodyStep.await (killAll n)]) = cv
  have hcv' : ∀ s ∈ cv, s = .await (killAll n) := by
    intro s hs
    subst hcv
    split at hs
    · cases hs
    · simpa using hs
  cases hr : redirectOf ws incl cmd with
  | none =>
    cases hw : splitWhitespace ws cmd with
    | nil => exact ⟨[], by simp, .inl (by simp [hr, hw])⟩
    | cons program args =>
      cases hsp : os.spawnOk n with
      | false =>
        refine ⟨cv ++ [.act (.spawnFailed program)], ?_, .inl (by simp [hr, hw, hsp, hcv])⟩
        intro s hs
        rcases List.mem_append.1 hs with hs | hs
        · exact .inr (.inr (hcv' s hs))
        · exact .inr (.inl ⟨program, by simpa using hs⟩)
      | true =>
        exact ⟨cv, fun s hs => .inr (.inr (hcv' s hs)),
          .inr (.inr ⟨program, args, stdinOf os n, .piped, by simp [hr, hw, hsp, hcv]⟩)⟩
  | some mf =>
    obtain ⟨m, f⟩ := mf
    cases hw : splitWhitespace ws (removeAngle ws cmd) with
    | nil =>
      refine ⟨[.act (.opened m f (os.openOk m f))], ?_, .inl (by simp [hr, hw])⟩
      intro s hs
      exact .inl ⟨_, _, _, by simpa using hs⟩
    | cons program args =>
      have hx : ∀ b, ∀ s ∈ BodyStep.act (.opened m f b) :: cv, (∃ m f b, s = .act (.opened m f b)) ∨
          (∃ p, s = .act (.spawnFailed p)) ∨ s = .await (killAll n) := by
        intro b s hs
        rcases List.mem_cons.1 hs with hs | hs
        · exact .inl ⟨_, _, _, hs⟩
        · exact .inr (.inr (hcv' s hs))
      cases ho : os.openOk m f with
      | false => exact ⟨_, hx false, .inl (by simp [hr, hw, ho, hcv])⟩
      | true =>
        cases hsp : os.spawnOk n with
        | false =>
          refine ⟨.act (.opened m f true) :: cv ++ [.act (.spawnFailed program)], ?_,
            .inl (by simp [hr, hw, ho, hsp, hcv])⟩
          intro s hs
          rcases List.mem_append.1 hs with hs | hs
          · exact hx true s hs
          · exact .inr (.inl ⟨program, by simpa using hs⟩)
        | true =>
          exact ⟨_, hx true, .inr (.inl ⟨program, args, stdinOf os n, .file m f, by simp [hr, hw, ho, hsp, hcv]⟩)⟩

theorem started_append' (a b : List RunEffect) : started (a ++ b) = started a ++ started b := by simp [started]
theorem killed_append' (a b : List RunEffect) : killed (a ++ b) = killed a ++ killed b := by simp [killed]
theorem awaited_append' (a b : List RunEffect) : awaited (a ++ b) = awaited a ++ awaited b := by simp [awaited]

theorem started_kills (n : Nat) : started ((killAll n).map .sh) = [] := by
  simp [started, killAll, List.filterMap_map]
theorem killed_kills (n : Nat) : killed ((killAll n).map .sh) = List.range n := by
  simp only [killed, killAll, List.filterMap_map]
  exact List.filterMap_some
theorem awaited_kills (n : Nat) : awaited ((killAll n).map .sh) = [] := by
  simp [awaited, killAll, List.filterMap_map]

/-- A run of `kills` is not dropped in between. -/
theorem exec_acts {kind : ChildKind} {e : ProcEnd} {l : List ShEffect} {rest : List BodyStep} {es : List RunEffect} {b : Bool}
    (h : Exec kind e (l.map .act ++ rest) es b) : ∃ es', es = l.map .sh ++ es' ∧ Exec kind e rest es' b := by
  induction l generalizing es with
  | nil => exact ⟨es, rfl, h⟩
  | cons a l ih =>
    cases h with
    | act h =>
      obtain ⟨es', h1, h2⟩ := ih h
      exact ⟨es', by simp [h1], h2⟩

/-- Through the steps before a start: either they are passed, or the run is dropped and everything so far is killed. -/
theorem exec_quiet {kind : ChildKind} {e : ProcEnd} {n : Nat} {x : List BodyStep}
    (hx : ∀ s ∈ x, (∃ m f b, s = .act (.opened m f b)) ∨ (∃ p, s = .act (.spawnFailed p)) ∨ s = .await (killAll n))
    {rest : List BodyStep} {es : List RunEffect} {b : Bool} (h : Exec kind e (x ++ rest) es b) :
    (∃ es0 es', es = es0 ++ es' ∧ started es0 = [] ∧ killed es0 = [] ∧ awaited es0 = [] ∧ Exec kind e rest es' b) ∨
    (b = false ∧ started es = [] ∧ killed es = List.range n ∧ awaited es = []) := by
  induction x generalizing es with
  | nil => exact .inl ⟨[], es, rfl, rfl, rfl, rfl, h⟩
  | cons s x ih =>
    have ih' := fun es h => ih (fun s hs => hx s (List.mem_cons_of_mem _ hs)) (es := es) h
    rcases hx s List.mem_cons_self with ⟨m, f, o, rfl⟩ | ⟨p, rfl⟩ | rfl
    · cases h with
      | act h =>
        rcases ih' _ h with ⟨es0, es', h1, h2, h3, h4, h5⟩ | ⟨h1, h2, h3, h4⟩
        · exact .inl ⟨.sh (.opened m f o) :: es0, es', by rw [h1]; rfl, h2, h3, h4, h5⟩
        · exact .inr ⟨h1, h2, h3, h4⟩
    · cases h with
      | act h =>
        rcases ih' _ h with ⟨es0, es', h1, h2, h3, h4, h5⟩ | ⟨h1, h2, h3, h4⟩
        · exact .inl ⟨.sh (.spawnFailed p) :: es0, es', by rw [h1]; rfl, h2, h3, h4, h5⟩
        · exact .inr ⟨h1, h2, h3, h4⟩
    · cases h with
      | resume h => exact ih' _ h
      | drop => exact .inr ⟨rfl, started_kills n, killed_kills n, awaited_kills n⟩

/-- What can become of a run while it starts its pipeline, `n` processes having been started: it is dropped, or fails,
and all processes are killed; or the pipeline is complete with `k` processes and the rest of the body goes on. -/
theorem exec_stages (kind : ChildKind) (e : ProcEnd) (ws : Char → Bool) (incl : Bool) (os : OS) (tail : Option Nat → List BodyStep)
    (htail : tail none = []) : ∀ (cmds : List Str) (n : Nat) (es : List RunEffect) (b : Bool),
    Exec kind e ((stageSteps ws incl os n cmds).1 ++ tail (stageSteps ws incl os n cmds).2) es b →
    ∃ es0 es' k, es = es0 ++ es' ∧ n ≤ k ∧ started es0 = List.range' n (k - n) ∧ killed es0 = [] ∧ awaited es0 = [] ∧
      (((b = false ∨ (stageSteps ws incl os n cmds).2 = none) ∧
          started es' = [] ∧ killed es' = List.range k ∧ awaited es' = []) ∨
       (Exec kind e (tail (some k)) es' b ∧ (n < k ∨ cmds = []) ∧ (stageSteps ws incl os n cmds).2 = some k)) := by
  intro cmds
  induction cmds with
  | nil =>
    intro n es b h
    exact ⟨[], es, n, rfl, Nat.le_refl _, by simp [started], rfl, rfl, .inr ⟨h, .inr rfl, rfl⟩⟩
  | cons cmd rest ih =>
    intro n es b h
    obtain ⟨x, hx, hc⟩ := stageSteps_cases ws incl os n cmd rest
    rcases hc with hc | ⟨p, a, i, o, hc⟩ | ⟨p, a, i, o, hc⟩
    · rw [hc] at h
      simp only [htail, List.append_nil] at h
      rcases exec_quiet hx h with ⟨es0, es', h1, h2, h3, h4, h5⟩ | ⟨h1, h2, h3, h4⟩
      · have h5' : Exec kind e ((killAll n).map .act ++ []) es' b := by simpa using h5
        obtain ⟨es'', g1, g2⟩ := exec_acts h5'
        cases g2
        refine ⟨es0, es', n, h1, Nat.le_refl _, by simp [h2], h3, h4, .inl ⟨.inr (by rw [hc]), ?_⟩⟩
        rw [g1]; simp [started_kills, killed_kills, awaited_kills]
      · exact ⟨[], es, n, rfl, Nat.le_refl _, by simp [started], rfl, rfl, .inl ⟨.inl h1, h2, h3, h4⟩⟩
    · rw [hc, List.append_assoc] at h
      rcases exec_quiet hx h with ⟨es0, es', h1, h2, h3, h4, h5⟩ | ⟨h1, h2, h3, h4⟩
      · cases h5 with
        | act h5 =>
          refine ⟨es0 ++ [.sh (.spawned n p a i o)], _, n + 1, by rw [h1]; simp, by omega, ?_, ?_, ?_,
            .inr ⟨h5, .inl (by omega), by rw [hc]⟩⟩
          · rw [started_append', h2, show n + 1 - n = 1 by omega]; rfl
          · rw [killed_append', h3]; rfl
          · rw [awaited_append', h4]; rfl
      · exact ⟨[], es, n, rfl, Nat.le_refl _, by simp [started], rfl, rfl, .inl ⟨.inl h1, h2, h3, h4⟩⟩
    · rw [hc, List.append_assoc] at h
      rcases exec_quiet hx h with ⟨es0, es', h1, h2, h3, h4, h5⟩ | ⟨h1, h2, h3, h4⟩
      · cases h5 with
        | act h5 =>
          obtain ⟨es1, es2, k, g1, g2, g3, g4, g5, g6⟩ := ih (n + 1) _ b h5
          refine ⟨es0 ++ .sh (.spawned n p a i o) :: es1, es2, k, by rw [h1, g1]; simp, by omega, ?_, ?_, ?_, ?_⟩
          · rw [started_append', h2, show k - n = (k - (n + 1)) + 1 by omega, List.range'_succ, ← g3]; rfl
          · rw [killed_append', h3]; exact g4
          · rw [awaited_append', h4]; exact g5
          · rw [hc]
            rcases g6 with g6 | ⟨g6, g7, g8⟩
            · exact .inl g6
            · exact .inr ⟨g6, .inl (by omega), g8⟩
      · exact ⟨[], es, n, rfl, Nat.le_refl _, by simp [started], rfl, rfl, .inl ⟨.inl h1, h2, h3, h4⟩⟩

theorem splitPipe_ne_nil (s : Str) : splitPipe s ≠ [] := by
  fun_induction splitPipe s with
  | case1 => simp
  | case2 c rest _ ih => cases h : splitPipe rest <;> simp [consHead]
  | case3 => simp

/-- All that can come of a run of a shell command. -/
theorem processTask_runs (kind : ChildKind) (e : ProcEnd) (ws : Char → Bool) (incl : Bool) (os : OS) (input : Str)
    (es : List RunEffect) (b : Bool) (h : Exec kind e (processTask ws incl os input) es b) :
    ∃ k, started es = List.range k ∧
      (((b = false ∨ (parseAndRun ws incl os input).2 = false) ∧ killed es = List.range k ∧ awaited es = []) ∨
       (b = false ∧ (parseAndRun ws incl os input).2 = true ∧ 0 < k ∧ killed es = List.range (k - 1) ∧ awaited es = []) ∨
       (b = true ∧ (parseAndRun ws incl os input).2 = true ∧ 0 < k ∧ killed es = List.range (k - 1) ∧
          awaited es = [k - 1] ∧ (∃ raw, WaitEval kind e raw) ∧
          ∃ pre post, es = pre ++ .waited (k - 1) :: post ∧ killed pre = [] ∧ started post = [])) := by
  let tail : Option Nat → List BodyStep
    | some (j + 1) => .wait j (killAll j) :: (killAll j).map .act
    | _ => []
  have hp : processTask ws incl os input = .await [] :: ((stageSteps ws incl os 0 (splitPipe (trim ws input))).1 ++
      tail (stageSteps ws incl os 0 (splitPipe (trim ws input))).2) := rfl
  rw [hp] at h
  cases h with
  | drop => exact ⟨0, rfl, .inl ⟨.inl rfl, rfl, rfl⟩⟩
  | resume h =>
    obtain ⟨es0, es', k, g1, g2, g3, g4, g5, g6⟩ := exec_stages kind e ws incl os tail rfl _ 0 _ _ h
    have hst : started es0 = List.range k := by rw [g3, List.range_eq_range']; rfl
    rcases g6 with ⟨f0, f1, f2, f3⟩ | ⟨f1, f2, f3⟩
    · refine ⟨k, by rw [g1, started_append', hst, f1, List.append_nil], .inl ⟨?_, ?_, ?_⟩⟩
      · rcases f0 with f0 | f0
        · exact .inl f0
        · refine .inr ?_
          rw [parseAndRun, ← (stageSteps_erase ws incl os _ 0).2, f0]; rfl
      · rw [g1, killed_append', g4, f2, List.nil_append]
      · rw [g1, awaited_append', g5, f3]; rfl
    · have hok : (parseAndRun ws incl os input).2 = true := by
        rw [parseAndRun, ← (stageSteps_erase ws incl os _ 0).2, f3]; rfl
      match k, f1 with
      | 0, f1 => exact absurd (f2.resolve_left (by omega)) (splitPipe_ne_nil _)
      | j + 1, f1 =>
        cases f1 with
        | dropWait =>
          refine ⟨j + 1, ?_, .inr (.inl ⟨rfl, hok, by omega, ?_, ?_⟩)⟩
          · rw [g1, started_append', hst, started_kills, List.append_nil]
          · rw [g1, killed_append', g4, killed_kills]; rfl
          · rw [g1, awaited_append', g5, awaited_kills]; rfl
        | waited hw f1 =>
          have f1' := (List.append_nil ((killAll j).map BodyStep.act)).symm ▸ f1
          obtain ⟨es'', q1, q2⟩ := exec_acts f1'
          cases q2
          refine ⟨j + 1, ?_, .inr (.inr ⟨rfl, hok, by omega, ?_, ?_, hw, es0, (killAll j).map .sh, ?_, g4, started_kills j⟩)⟩
          · rw [g1, q1, started_append', hst]
            have : started (RunEffect.waited j :: ((killAll j).map .sh ++ [])) = [] := by
              rw [List.append_nil]; exact started_kills j
            rw [this, List.append_nil]
          · rw [g1, q1, killed_append', g4]
            have : killed (RunEffect.waited j :: ((killAll j).map .sh ++ [])) = List.range j := by
              rw [List.append_nil]; exact killed_kills j
            rw [this]; rfl
          · rw [g1, q1, awaited_append', g5]
            have : awaited (RunEffect.waited j :: ((killAll j).map .sh ++ [])) = [j] := by
              rw [List.append_nil]
              show j :: awaited _ = _
              rw [awaited_kills]
            rw [this]; rfl
          · rw [g1, q1, List.append_nil]; rfl

/-- Specification: every process that was started has been killed or its end was awaited. -/
def Spec.NothingLeft (es : List RunEffect) : Prop := ∀ p ∈ started es, p ∈ killed es ∨ p ∈ awaited es

/-- **C55.** Whenever a shell command run comes to its end by itself, nothing is left: every process it started has been
killed, except that the last one of a complete pipeline has been waited for. None is killed twice, and as long as the
last one of a complete pipeline has not ended none is killed. -/
theorem C55_ended (kind : ChildKind) (e : ProcEnd) (ws : Char → Bool) (incl : Bool) (os : OS) (input : Str)
    (es : List RunEffect) (h : Exec kind e (processTask ws incl os input) es true) :
    NothingLeft es ∧ (killed es).Nodup ∧ (∀ p ∈ killed es ++ awaited es, p ∈ started es) ∧
    ((parseAndRun ws incl os input).2 = true → ∃ pre p post, es = pre ++ .waited p :: post ∧ killed pre = [] ∧ started post = []) := by
  obtain ⟨k, h1, h2⟩ := processTask_runs kind e ws incl os input es true h
  rcases h2 with ⟨h0, h2, h3⟩ | ⟨h2, _⟩ | ⟨_, _, hk, h2, h3, _, pre, post, h4⟩
  · refine ⟨fun p hp => .inl (by rw [h2, ← h1]; exact hp), by rw [h2]; exact List.nodup_range, ?_, ?_⟩
    · rw [h1, h2, h3]; simp
    · intro hok; rw [hok] at h0; rcases h0 with h0 | h0 <;> cases h0
  · cases h2
  · refine ⟨?_, by rw [h2]; exact List.nodup_range, ?_, fun _ => ⟨pre, _, post, h4⟩⟩
    · intro p hp
      rw [h1, List.mem_range] at hp
      rw [h2, h3, List.mem_range, List.mem_singleton]
      omega
    · intro p hp
      rw [h2, h3, List.mem_append, List.mem_range, List.mem_singleton] at hp
      rw [h1, List.mem_range]
      omega

/-- C55, when it ends: with the std and tokio libraries a run whose pipeline could be started never comes to its end
(`C49_std_tokio_diverge`). -/
theorem C55_tokio_never (kind : ChildKind) (hk : kind = .std ∨ kind = .tokio) (e : ProcEnd) (ws : Char → Bool)
    (incl : Bool) (os : OS) (input : Str) (hok : (parseAndRun ws incl os input).2 = true) (es : List RunEffect) :
    ¬ Exec kind e (processTask ws incl os input) es true := by
  intro h
  obtain ⟨k, h1, h2⟩ := processTask_runs kind e ws incl os input es true h
  rcases h2 with ⟨h0, h2, h3⟩ | ⟨h2, _⟩ | ⟨_, _, _, _, _, ⟨raw, hw⟩, _⟩
  · rw [hok] at h0
    rcases h0 with h0 | h0 <;> cases h0
  · cases h2
  · exact C49_std_tokio_diverge kind hk e raw hw

/-- **C54** as far as it holds. Whenever a shell command run is dropped (cancelled, timed out) or ends, every process it
started has been killed or waited for, except possibly the last one of a complete pipeline; none is killed twice.
Missing from the full claim: that last process (`C54_last_survives`). -/
theorem C54_dropped_partial (kind : ChildKind) (e : ProcEnd) (ws : Char → Bool) (incl : Bool) (os : OS) (input : Str)
    (es : List RunEffect) (b : Bool) (h : Exec kind e (processTask ws incl os input) es b) :
    ∃ k, started es = List.range k ∧ (killed es).Nodup ∧
      (∀ p, p + 1 < k → p ∈ killed es) ∧
      ((parseAndRun ws incl os input).2 = false → NothingLeft es) := by
  obtain ⟨k, h1, h2⟩ := processTask_runs kind e ws incl os input es b h
  refine ⟨k, h1, ?_, ?_, ?_⟩
  · rcases h2 with ⟨_, h2, _⟩ | ⟨_, _, _, h2, _⟩ | ⟨_, _, _, h2, _⟩ <;> rw [h2] <;> exact List.nodup_range
  · intro p hp
    rcases h2 with ⟨_, h2, _⟩ | ⟨_, _, _, h2, _⟩ | ⟨_, _, _, h2, _⟩ <;> rw [h2, List.mem_range] <;> omega
  · intro hbad p hp
    rw [hbad] at h2
    rcases h2 with ⟨_, h2, _⟩ | ⟨_, h2, _⟩ | ⟨_, h2, _⟩
    · exact .inl (by rw [h2, ← h1]; exact hp)
    · cases h2
    · cases h2

theorem stageSteps_grows (ws : Char → Bool) (incl : Bool) (os : OS) : ∀ (cmds : List Str) (n k : Nat),
    (stageSteps ws incl os n cmds).2 = some k → cmds ≠ [] → n < k := by
  intro cmds
  induction cmds with
  | nil => intro n k _ h; exact absurd rfl h
  | cons cmd rest ih =>
    intro n k h _
    obtain ⟨x, _, hc⟩ := stageSteps_cases ws incl os n cmd rest
    rcases hc with hc | ⟨_, _, _, _, hc⟩ | ⟨_, _, _, _, hc⟩ <;> rw [hc] at h
    · cases h
    · cases h; omega
    · match rest, h with
      | [], h => cases h; omega
      | c :: r, h => have := ih (n + 1) k h (by simp); omega

theorem started_sh (l : List ShEffect) : started (l.map .sh) = startedProcs l := by
  induction l with
  | nil => rfl
  | cons a l ih => cases a <;> simp_all [started, startedProcs]

theorem killed_sh (l : List ShEffect) : killed (l.map .sh) = killedProcs l := by
  induction l with
  | nil => rfl
  | cons a l ih => cases a <;> simp_all [killed, killedProcs]

theorem awaited_sh (l : List ShEffect) : awaited (l.map .sh) = [] := by
  induction l with
  | nil => rfl
  | cons a l ih => cases a <;> simp_all [awaited]

theorem quiet_erase {n : Nat} : ∀ {x : List BodyStep}, (∀ s ∈ x, (∃ m f b, s = .act (.opened m f b)) ∨
    (∃ p, s = .act (.spawnFailed p)) ∨ s = .await (killAll n)) →
    startedProcs (erase x) = [] ∧ killedProcs (erase x) = [] := by
  intro x
  induction x with
  | nil => intro _; exact ⟨rfl, rfl⟩
  | cons s x ih =>
    intro hx
    obtain ⟨h1, h2⟩ := ih fun s hs => hx s (List.mem_cons_of_mem _ hs)
    rcases hx s List.mem_cons_self with ⟨m, f, o, rfl⟩ | ⟨p, rfl⟩ | rfl
    · exact ⟨h1, h2⟩
    · exact ⟨h1, h2⟩
    · exact ⟨h1, h2⟩

/-- A pipeline that was started completely. -/
theorem stageSteps_started (ws : Char → Bool) (incl : Bool) (os : OS) : ∀ (cmds : List Str) (n k : Nat),
    (stageSteps ws incl os n cmds).2 = some k → n ≤ k ∧
    startedProcs (erase (stageSteps ws incl os n cmds).1) = List.range' n (k - n) ∧
    killedProcs (erase (stageSteps ws incl os n cmds).1) = [] := by
  intro cmds
  induction cmds with
  | nil => intro n k h; cases h; simp [stageSteps, erase, startedProcs, killedProcs]
  | cons cmd rest ih =>
    intro n k h
    obtain ⟨x, hx, hc⟩ := stageSteps_cases ws incl os n cmd rest
    obtain ⟨q1, q2⟩ := quiet_erase hx
    rcases hc with hc | ⟨_, _, _, _, hc⟩ | ⟨_, _, _, _, hc⟩ <;> rw [hc] at h ⊢
    · cases h
    · cases h
      refine ⟨by omega, ?_, ?_⟩
      · rw [erase_append, started_append, q1, show n + 1 - n = 1 by omega]; rfl
      · rw [erase_append, killed_append, q2]; rfl
    · obtain ⟨g1, g2, g3⟩ := ih (n + 1) k h
      refine ⟨by omega, ?_, ?_⟩
      · rw [erase_append, started_append, q1, show k - n = (k - (n + 1)) + 1 by omega, List.range'_succ, ← g2]; rfl
      · rw [erase_append, killed_append, q2]; exact g3

/-- Steps that are passed without being dropped. -/
theorem exec_through {kind : ChildKind} {e : ProcEnd} {rest : List BodyStep} {es : List RunEffect} {b : Bool}
    (h : Exec kind e rest es b) : ∀ (steps : List BodyStep), (∀ p d, .wait p d ∉ steps) →
    Exec kind e (steps ++ rest) ((erase steps).map .sh ++ es) b := by
  intro steps
  induction steps with
  | nil => intro _; exact h
  | cons s steps ih =>
    intro hn
    have ih' := ih fun p d hm => hn p d (List.mem_cons_of_mem _ hm)
    cases s with
    | act a => exact .act ih'
    | await d => exact .resume ih'
    | wait p d => exact absurd List.mem_cons_self (hn p d)

theorem stageSteps_no_wait (ws : Char → Bool) (incl : Bool) (os : OS) : ∀ (cmds : List Str) (n : Nat) (p : Nat)
    (d : List ShEffect), .wait p d ∉ (stageSteps ws incl os n cmds).1 := by
  intro cmds
  induction cmds with
  | nil => intro n p d; simp [stageSteps]
  | cons cmd rest ih =>
    intro n p d
    obtain ⟨x, hx, hc⟩ := stageSteps_cases ws incl os n cmd rest
    have hx' : BodyStep.wait p d ∉ x := by
      intro hm
      rcases hx _ hm with ⟨_, _, _, h⟩ | ⟨_, h⟩ | h <;> cases h
    rcases hc with hc | ⟨_, _, _, _, hc⟩ | ⟨_, _, _, _, hc⟩ <;> rw [hc]
    · simp [hx']
    · simp [hx']
    · simp [hx', ih (n + 1) p d]

/-- The full claim of C54 is false for every command line that can be started: a run that is cancelled or times out
while it waits leaves the last process of the pipeline running, neither killed nor waited for. -/
theorem C54_last_survives (kind : ChildKind) (e : ProcEnd) (ws : Char → Bool) (incl : Bool) (os : OS) (input : Str)
    (hok : (parseAndRun ws incl os input).2 = true) :
    ∃ es, Exec kind e (processTask ws incl os input) es false ∧ ¬ NothingLeft es := by
  have hs := (stageSteps_erase ws incl os (splitPipe (trim ws input)) 0).2
  rw [parseAndRun] at hok
  rw [hok, Option.isSome_iff_exists] at hs
  obtain ⟨k, hk⟩ := hs
  have hkpos : 0 < k := by
    match hcs : splitPipe (trim ws input), hk with
    | [], _ => exact absurd hcs (splitPipe_ne_nil _)
    | cmd :: rest, hk => exact stageSteps_grows ws incl os _ 0 k hk (by simp)
  obtain ⟨j, rfl⟩ : ∃ j, k = j + 1 := ⟨k - 1, by omega⟩
  have hp : processTask ws incl os input = (.await [] :: (stageSteps ws incl os 0 (splitPipe (trim ws input))).1) ++
      (.wait j (killAll j) :: (killAll j).map .act) := by
    unfold processTask; simp only [hk, List.cons_append]
  have hex := exec_through (kind := kind) (e := e) (.dropWait (p := j) (d := killAll j) (rest := (killAll j).map .act))
    (.await [] :: (stageSteps ws incl os 0 (splitPipe (trim ws input))).1) (by
      intro p d hm
      rcases List.mem_cons.1 hm with h | h
      · cases h
      · exact stageSteps_no_wait ws incl os _ 0 p d h)
  rw [← hp] at hex
  refine ⟨_, hex, ?_⟩
  intro hleft
  obtain ⟨_, h1, h2⟩ := stageSteps_started ws incl os _ 0 _ hk
  have hst : started ((erase (.await [] :: (stageSteps ws incl os 0 (splitPipe (trim ws input))).1)).map .sh ++
      (killAll j).map .sh) = List.range (j + 1) := by
    rw [started_append', started_kills, started_sh, List.append_nil, List.range_eq_range']
    exact h1
  have hkl : killed ((erase (.await [] :: (stageSteps ws incl os 0 (splitPipe (trim ws input))).1)).map .sh ++
      (killAll j).map .sh) = List.range j := by
    rw [killed_append', killed_kills, killed_sh]
    show killedProcs (erase (stageSteps ws incl os 0 _).1) ++ _ = _
    rw [h2]; rfl
  have haw : awaited ((erase (.await [] :: (stageSteps ws incl os 0 (splitPipe (trim ws input))).1)).map .sh ++
      (killAll j).map .sh) = [] := by
    rw [awaited_append', awaited_kills, awaited_sh]; rfl
  have := hleft j (by rw [hst]; simp)
  rw [hkl, haw] at this
  simp at this

/-- A run cut off while it waits: the second of the two processes survives; one that is not cut off. -/
example :
    (parseAndRun blankOnly true OS.fine "ls | wc".toList).2 = true ∧
    (∃ es, Exec .smol (.exited 0) (processTask blankOnly true OS.fine "ls | wc".toList) es false ∧
      started es = [0, 1] ∧ killed es = [0] ∧ awaited es = []) ∧
    (∃ es, Exec .smol (.exited 0) (processTask blankOnly true OS.fine "ls | wc".toList) es true ∧
      started es = [0, 1] ∧ killed es = [0] ∧ awaited es = [1]) := by
  have hp : processTask blankOnly true OS.fine "ls | wc".toList =
      [.await [], .act (.spawned 0 "ls".toList [] .inherit .piped), .await [.killed 0],
        .act (.spawned 1 "wc".toList [] (.pipeFrom 0) .piped), .wait 1 [.killed 0], .act (.killed 0)] := rfl
  rw [hp]
  exact ⟨rfl, ⟨_, .resume (.act (.resume (.act .dropWait))), rfl, rfl, rfl⟩,
    ⟨_, .resume (.act (.resume (.act (.waited ⟨_, .library rfl⟩ (.act .done))))), rfl, rfl, rfl⟩⟩

end DelayTimer
