import Verif.Model.Process

/-! # C41, C42, C49: output files, exit status, waiting for children -/

namespace DelayTimer

/-! ## C41 -/

theorem append_all : ∀ (chunks : List (List Nat)) (f : OpenFile), f.flags.append = true →
    (chunks.foldl OpenFile.write f).content = f.content ++ chunks.flatten := by
  intro chunks
  induction chunks with
  | nil => intro f _; simp
  | cons c cs ih =>
    intro f h
    rw [List.foldl_cons, ih (f.write c) h]
    simp [OpenFile.write, h]

theorem overwrite_all : ∀ (chunks : List (List Nat)) (f : OpenFile), f.flags.append = false →
    f.offset ≤ f.content.length →
    (chunks.foldl OpenFile.write f).content =
      f.content.take f.offset ++ chunks.flatten ++ f.content.drop (f.offset + chunks.flatten.length) := by
  intro chunks
  induction chunks with
  | nil => intro f _ _; simp
  | cons c cs ih =>
    intro f h ho
    have hl : (f.content.take f.offset).length = f.offset := by simp [ho]
    rw [List.foldl_cons, ih (f.write c) h]
    · have h1 : (f.write c).content.take (f.write c).offset = f.content.take f.offset ++ c := by
        simp only [OpenFile.write, h, Bool.false_eq_true, if_false]
        rw [List.take_append_of_le_length (by simp [ho]), List.take_of_length_le (by simp [ho])]
      have h2 : (f.write c).content.drop ((f.write c).offset + cs.flatten.length) =
          f.content.drop (f.offset + (c.length + cs.flatten.length)) := by
        simp only [OpenFile.write, h, Bool.false_eq_true, if_false]
        rw [List.drop_append, List.drop_eq_nil_iff.2 (by simp [ho]), List.nil_append, List.drop_drop]
        congr 1
        simp [ho]
        omega
      rw [h1, h2]
      simp
    · simp only [OpenFile.write, h, Bool.false_eq_true, if_false, List.length_append, hl]
      omega

/-- C41, `>>`: whatever the file held, and however the process writes its output: the old content followed by the
output. -/
theorem C41_append (old : Option (List Nat)) (chunks : List (List Nat)) :
    writeFile .append old chunks = some (old.getD [] ++ chunks.flatten) := by
  cases old <;> simp [writeFile, openFile, openFlags, append_all]

theorem writeFile_write (old : Option (List Nat)) (chunks : List (List Nat)) :
    writeFile .write old chunks = some (chunks.flatten ++ (old.getD []).drop chunks.flatten.length) := by
  cases old <;> simp [writeFile, openFile, openFlags, overwrite_all]

/-- C41, `>`: the file holds exactly the output if and only if it was not longer before. -/
theorem C41_write_iff (old : Option (List Nat)) (chunks : List (List Nat)) :
    writeFile .write old chunks = some chunks.flatten ↔ (old.getD []).length ≤ chunks.flatten.length := by
  rw [writeFile_write, Option.some.injEq]
  constructor
  · intro h
    have := congrArg List.length h
    simp only [List.length_append, List.length_drop] at this
    omega
  · intro h
    rw [List.drop_eq_nil_iff.2 h, List.append_nil]

/-- C41 as far as it holds for `>`: a missing file, or one that is not longer than the output. -/
theorem C41_write_partial (old : Option (List Nat)) (chunks : List (List Nat))
    (h : old = none ∨ (old.getD []).length ≤ chunks.flatten.length) :
    writeFile .write old chunks = some chunks.flatten := by
  rw [C41_write_iff]
  rcases h with rfl | h
  · simp
  · exact h

/-- What the redirect `>` should do to a file. -/
def Spec.ReplacesFile : Prop :=
  ∀ old chunks, writeFile .write old chunks = some chunks.flatten

/-- The full claim of C41 is false: any file that is longer than the output keeps the rest of its content. -/
theorem C41_stale_tail (old : List Nat) (chunks : List (List Nat)) (h : chunks.flatten.length < old.length) :
    ∃ rest, rest ≠ [] ∧ writeFile .write (some old) chunks = some (chunks.flatten ++ rest) := by
  refine ⟨old.drop chunks.flatten.length, ?_, writeFile_write _ _⟩
  intro he
  rw [List.drop_eq_nil_iff] at he
  omega

theorem C41_negation : ¬ Spec.ReplacesFile := by
  intro h
  have := h (some [1, 2, 3]) [[9]]
  revert this
  decide

example : writeFile .write (some [1, 2]) [[7, 8], [9]] = some [7, 8, 9] ∧
    writeFile .append (some [1, 2]) [[7], [], [8]] = some [1, 2, 7, 8] ∧
    writeFile .write (some [1, 2, 3]) [[9]] = some [9, 2, 3] := by decide

/-! ## C42 -/

/-- The exit code of a process: what `ExitStatus::code` must say. -/
def Spec.exitCode : ProcEnd → Option Nat
  | .exited c => some c
  | .signalled _ => none

theorem codeOfRaw_pos {r c : Nat} (h : r % 128 = 0) (hc : r / 256 % 256 = c) :
    codeOfRaw r = some c := by
  unfold codeOfRaw; rw [if_pos h, hc]

theorem codeOfRaw_neg {r : Nat} (h : r % 128 ≠ 0) : codeOfRaw r = none := by
  unfold codeOfRaw; rw [if_neg h]

/-- The kernel encoding itself is faithful, for codes and signals in their ranges. -/
theorem codeOfRaw_raw (e : ProcEnd) (h : match e with
    | .exited c => c < 256 | .signalled s => 0 < s ∧ s < 128) :
    codeOfRaw e.raw = Spec.exitCode e := by
  cases e with
  | exited c =>
    have h : c < 256 := h
    exact codeOfRaw_pos (by simp only [ProcEnd.raw]; omega) (by simp only [ProcEnd.raw]; omega)
  | signalled s =>
    have h : 0 < s ∧ s < 128 := h
    exact codeOfRaw_neg (by simp only [ProcEnd.raw]; omega)

/-- C42, exact law for the smol child: the reported code is 0 for the exit codes 0 and 128 and
absent for every other exit code. -/
theorem C42_smol_law (c : Nat) (hc : c < 256) :
    codeOfRaw (smolWaitRaw (.exited c)) = if c = 0 ∨ c = 128 then some 0 else none := by
  have h1 : codeOfRaw (ProcEnd.exited c).raw = some c := codeOfRaw_raw (.exited c) hc
  have h2 : smolWaitRaw (.exited c) = c := by simp only [smolWaitRaw, h1]
  rw [h2]
  by_cases h : c = 0 ∨ c = 128
  · rw [if_pos h]; exact codeOfRaw_pos (by omega) (by omega)
  · rw [if_neg h]; exact codeOfRaw_neg (by omega)

/-- C42 as far as it holds for the smol child: successful exits and deaths by signal. -/
theorem C42_smol_partial (e : ProcEnd) (h : match e with
    | .exited c => c = 0 | .signalled s => 0 < s ∧ s < 128) :
    codeOfRaw (smolWaitRaw e) = Spec.exitCode e := by
  cases e with
  | exited c => cases h; decide
  | signalled s =>
    have h1 : codeOfRaw (ProcEnd.signalled s).raw = none := codeOfRaw_raw (.signalled s) h
    have h2 : smolWaitRaw (.signalled s) = MINUS_ONE_I32 := by simp only [smolWaitRaw, h1]
    rw [h2]; exact codeOfRaw_neg (by decide)

/-- The full claim of C42 is false: every non-zero exit code is misreported ... -/
theorem C42_smol_wrong (c : Nat) (hc : c < 256) (h0 : c ≠ 0) :
    codeOfRaw (smolWaitRaw (.exited c)) ≠ Spec.exitCode (.exited c) := by
  rw [C42_smol_law c hc]
  simp only [Spec.exitCode]
  split
  · intro h; cases h; exact h0 rfl
  · simp

/-- ... and exit code 128 is even reported as success. -/
theorem C42_smol_128_success : codeOfRaw (smolWaitRaw (.exited 128)) = some 0 := by decide

/-- The signal that killed a process: what `ExitStatusExt::signal` must say. -/
def Spec.deathSignal : ProcEnd → Option Nat
  | .exited _ => none
  | .signalled s => some s

/-- The kernel encoding is faithful here too; 127 is no signal. -/
theorem signalOfRaw_raw (e : ProcEnd) (h : match e with
    | .exited c => c < 256 | .signalled s => 0 < s ∧ s < 127) :
    signalOfRaw e.raw = Spec.deathSignal e := by
  cases e with
  | exited c =>
    have h : c < 256 := h
    have h1 : ¬ (c * 256 % 128 ≠ 0 ∧ c * 256 % 128 ≠ 127) := by omega
    exact if_neg h1
  | signalled s =>
    have h : 0 < s ∧ s < 127 := h
    have h1 : s % 128 ≠ 0 ∧ s % 128 ≠ 127 := by omega
    have h2 : s % 128 = s := by omega
    exact (if_pos h1).trans (congrArg some h2)

/-- C42, the status of a killed smol child: all bits are set, whichever signal it was. So there is no exit code, it is
no success, and no signal either: what killed the process is lost. -/
theorem C42_smol_killed (s : Nat) (h : 0 < s ∧ s < 127) :
    smolWaitRaw (.signalled s) + 1 = 2 ^ 32 ∧ codeOfRaw (smolWaitRaw (.signalled s)) = none ∧
      signalOfRaw (smolWaitRaw (.signalled s)) = none ∧
      signalOfRaw (smolWaitRaw (.signalled s)) ≠ Spec.deathSignal (.signalled s) := by
  have h1 : codeOfRaw (ProcEnd.signalled s).raw = none := codeOfRaw_raw (.signalled s) ⟨h.1, by omega⟩
  have h2 : smolWaitRaw (.signalled s) = MINUS_ONE_I32 := by simp only [smolWaitRaw, h1]
  rw [h2]
  have h3 : signalOfRaw MINUS_ONE_I32 = none := by decide
  exact ⟨by decide, by decide, h3, by rw [h3]; exact nofun⟩

/-- **The signal seen.** Conversely a smol child that ended by itself with a code that is no multiple of 128 is reported as
killed by a signal, namely the one with the number `c % 128` (unless that is 127). -/
theorem C42_smol_false_signal (c : Nat) (hc : c < 256) (h0 : c % 128 ≠ 0) (h1 : c % 128 ≠ 127) :
    signalOfRaw (smolWaitRaw (.exited c)) = some (c % 128) ∧ Spec.deathSignal (.exited c) = none := by
  have h2 : codeOfRaw (ProcEnd.exited c).raw = some c := codeOfRaw_raw (.exited c) hc
  have h3 : smolWaitRaw (.exited c) = c := by simp only [smolWaitRaw, h2]
  rw [h3]
  exact ⟨if_pos ⟨h0, h1⟩, rfl⟩

/-- `exit 1` is reported as death by signal 1, `exit 137` as death by signal 9; death by signal 9 as none of these. -/
example : signalOfRaw (smolWaitRaw (.exited 1)) = some 1 ∧ signalOfRaw (smolWaitRaw (.exited 137)) = some 9 ∧
    signalOfRaw (smolWaitRaw (.signalled 9)) = none := by decide

/-! ## C49 -/

/-- C49 as far as it holds: waiting for a smol child returns, with one status only (that of `C42`). -/
theorem C49_smol_partial (e : ProcEnd) (raw : Nat) : WaitEval .smol e raw ↔ raw = smolWaitRaw e := by
  constructor
  · intro h
    cases h with
    | library => rfl
    | inherent h => cases h
    | trait h => cases h
  · rintro rfl
    exact .library rfl

/-- For the std and tokio children the call `self.wait()` resolves to the trait method itself. -/
theorem wait_resolves_to_itself (k : ChildKind) (h : waitBody k = .callWait) :
    resolve (waitCandidates k) = some { inherent := false, recv := .byValue } := by
  cases k with
  | std => decide
  | smol => exact absurd h (by decide)
  | tokio => decide

/-- The full claim of C49 is false: for std and tokio children `wait` never returns. -/
theorem C49_std_tokio_diverge (k : ChildKind) (hk : k = .std ∨ k = .tokio) (e : ProcEnd) (raw : Nat) :
    ¬ WaitEval k e raw := by
  intro h
  have hb : waitBody k = .callWait := by rcases hk with rfl | rfl <;> rfl
  induction h with
  | library h => rw [hb] at h; cases h
  | inherent h hr hi =>
    rw [wait_resolves_to_itself _ hb] at hr; cases hr; cases hi
  | trait h hr hi hrec ih => exact ih

example : WaitEval .smol (.exited 0) 0 := .library rfl

end DelayTimer
