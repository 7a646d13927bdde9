import Verif.Proofs.Shell

/-!
# Shell pipelines (C38, C39, C40)
-/

namespace DelayTimer
open Spec

/-- An operating system on which everything works. -/
def OS.fine : OS where
  openOk _ _ := true
  spawnOk _ := true
  pipeOk _ := true

/-! ## C38 -/

theorem runStages_pipeline {ws : Char → Bool} (hsp : ws ' ' = true) (incl : Bool) (os : OS)
    (hspawn : ∀ n, os.spawnOk n = true) (hpipe : ∀ n, os.pipeOk n = true) (rest : List Str) :
    ∀ (p : List (List Str)) (n : Nat), (∀ c ∈ p, c ≠ [] ∧ ∀ w ∈ c, PlainWord ws w) →
    runStages ws incl os n (p.map joinWords ++ rest) =
      (pipelineEffects n p ++ (runStages ws incl os (n + p.length) rest).1,
        (runStages ws incl os (n + p.length) rest).2) := by
  intro p
  induction p with
  | nil => intro n _; simp [pipelineEffects]
  | cons c p ih =>
    intro n h
    have hc := h c List.mem_cons_self
    match c, hc with
    | [], hc => exact absurd rfl hc.1
    | w :: c, hc =>
      have hr : redirectOf ws incl (joinWords (w :: c)) = none := by
        unfold redirectOf
        rw [angleOf_plain _ (joinWords_no_angle _ hc.2)]
      have hw : splitWhitespace ws (joinWords (w :: c)) = w :: c :=
        splitWhitespace_join hsp _ (fun w hw => (hc.2 w hw).pipe)
      have ih' := ih (n + 1) (fun c hc => h c (List.mem_cons_of_mem _ hc))
      rw [List.map_cons, List.cons_append, runStages_plain hr hw (hspawn n), ih']
      have e : n + 1 + p.length = n + (p.length + 1) := by omega
      rw [e]
      cases n with
      | zero => simp [pipelineEffects, stdinOf]
      | succ k => simp [pipelineEffects, stdinOf, hpipe]

/-- **C38.** Joining the words of any non-empty pipeline of plain commands with blanks and the commands
with `" | "`, and running the resulting string, starts exactly these programs with exactly these
arguments in this order, the first stage reading the parent's stdin and every other one the stdout of
the stage before it. `ws` is any notion of white space that contains the blank. -/
theorem C38_pipeline_faithful {ws : Char → Bool} (hsp : ws ' ' = true) (incl : Bool) (os : OS)
    (hspawn : ∀ n, os.spawnOk n = true) (hpipe : ∀ n, os.pipeOk n = true)
    (p : List (List Str)) (hp : PlainPipeline ws p) :
    parseAndRun ws incl os (joinPipeline p) = (pipelineEffects 0 p, true) := by
  have h := runStages_pipeline hsp incl os hspawn hpipe [] p 0 hp.2
  unfold parseAndRun
  rw [trim_joinPipeline p hp.word, splitPipe_join hsp p hp.word]
  simpa [runStages] using h

/-- White space for the examples. -/
def blankOnly (c : Char) : Bool := c == ' '

instance (ws : Char → Bool) (w : Str) : Decidable (PlainWord ws w) :=
  inferInstanceAs (Decidable (_ ∧ _ ∧ _))

instance (ws : Char → Bool) (p : List (List Str)) : Decidable (PlainPipeline ws p) :=
  inferInstanceAs (Decidable (_ ∧ _))

example : parseAndRun blankOnly false OS.fine "cat a.txt | sort -r |x | wc".toList =
    (pipelineEffects 0 [["cat".toList, "a.txt".toList], ["sort".toList, "-r".toList, "|x".toList],
      ["wc".toList]], true) :=
  C38_pipeline_faithful (by decide) _ _ (fun _ => rfl) (fun _ => rfl)
    [["cat".toList, "a.txt".toList], ["sort".toList, "-r".toList, "|x".toList], ["wc".toList]]
    (by decide)

/-! ## C39 -/

/-- A redirect stage: command words, blanks, possibly further redirects, the last operator, blanks, the
file name, blanks. -/
structure RedirectStage (ws : Char → Bool) where
  cmd : List Str
  b0 : Str
  mid : Str
  mode : OpenMode
  b1 : Str
  file : Str
  b2 : Str
  cmd_ne : cmd ≠ []
  cmd_plain : ∀ w ∈ cmd, PlainWord ws w
  b0_blank : ∀ c ∈ b0, ws c = true
  b1_blank : ∀ c ∈ b1, ws c = true
  b2_blank : ∀ c ∈ b2, ws c = true
  /-- what stands between the command and the last operator starts with an operator of its own -/
  mid_start : mid = [] ∨ mid.head? = some '>'
  file_ne : file ≠ []
  file_angle : '>' ∉ file
  file_head : ∀ c, file.head? = some c → ws c = false
  file_last : ∀ c, file.getLast? = some c → ws c = false

/-- The text of the stage. -/
def RedirectStage.text {ws : Char → Bool} (r : RedirectStage ws) : Str :=
  joinWords r.cmd ++ r.b0 ++ r.mid ++ angleStr r.mode ++ r.b1 ++ r.file ++ r.b2

/-- The operators of one stage are not mixed: if the last one is `>`, no `>>` occurs in the stage. -/
def RedirectStage.Unmixed {ws : Char → Bool} (r : RedirectStage ws) : Prop :=
  r.mode = .write → ¬ ['>', '>'] <:+: r.mid ++ ['>']

/-- The last operator does not follow directly on another `>`. -/
def RedirectStage.Apart {ws : Char → Bool} (r : RedirectStage ws) : Prop :=
  r.mode = .append → r.mid.getLast? ≠ some '>'

theorem splitInclusive_op (m : OpenMode) (acc rest : Str) :
    splitInclusive m acc (angleStr m ++ rest) = (acc ++ angleStr m) :: splitInclusive m [] rest := by
  cases m <;> simp only [angleStr, List.cons_append, List.nil_append, splitInclusive]

theorem splitInclusive_other {m : OpenMode} {acc rest : Str} {c : Char}
    (h : ¬ (angleStr m).isPrefixOf (c :: rest) = true) :
    splitInclusive m acc (c :: rest) = splitInclusive m (acc ++ [c]) rest := by
  rw [splitInclusive]
  · rintro r rfl rfl rfl; exact h rfl
  · rintro rfl rfl; exact h rfl

theorem splitInclusive_plain (m : OpenMode) : ∀ (post acc : Str), '>' ∉ post → acc ++ post ≠ [] →
    splitInclusive m acc post = [acc ++ post] := by
  intro post
  induction post with
  | nil =>
    intro acc _ h
    cases acc with
    | nil => simp at h
    | cons c acc => simp [splitInclusive]
  | cons c post ih =>
    intro acc h _
    simp only [List.mem_cons, not_or] at h
    rw [splitInclusive_other, ih _ h.2 (by simp)]
    · simp
    · cases m <;> simp [angleStr, h.1]

/-- The piece after the last operator. -/
theorem splitInclusive_last {post : Str} (hp : '>' ∉ post) (hne : post ≠ []) (m : OpenMode) :
    ∀ (n : Nat) (pre acc : Str), pre.length ≤ n → (m = .append → pre.getLast? ≠ some '>') →
      (splitInclusive m acc (pre ++ angleStr m ++ post)).getLast? = some post := by
  have last : ∀ (x : Str) (l : List Str), l.getLast? = some post → (x :: l).getLast? = some post := by
    intro x l h
    rw [List.getLast?_cons, h]; rfl
  have here : ∀ acc, (splitInclusive m acc (angleStr m ++ post)).getLast? = some post := by
    intro acc
    rw [splitInclusive_op, splitInclusive_plain m post [] hp (by simpa using hne)]; rfl
  intro n
  induction n with
  | zero =>
    intro pre acc h _
    obtain rfl : pre = [] := List.length_eq_zero_iff.1 (by omega)
    exact here acc
  | succ n ih =>
    intro pre acc h hl
    by_cases hpre : (angleStr m).isPrefixOf pre = true
    · obtain ⟨x, rfl⟩ := List.isPrefixOf_iff_prefix.1 hpre
      rw [List.append_assoc, List.append_assoc, splitInclusive_op, ← List.append_assoc]
      have hm : 0 < (angleStr m).length := by cases m <;> simp [angleStr]
      refine last _ _ (ih x [] (by rw [List.length_append] at h; omega) (fun hm => ?_))
      have := hl hm
      rw [List.getLast?_append] at this
      cases hxl : x.getLast? with
      | none => simp
      | some z => rw [hxl] at this; simpa using this
    · cases pre with
      | nil => exact here acc
      | cons c pre =>
        rw [List.cons_append, List.cons_append, splitInclusive_other]
        · refine ih pre _ (by simpa using h) (fun hm => ?_)
          cases pre with
          | nil => simp
          | cons d pre => have := hl hm; rwa [List.getLast?_cons_cons] at this
        · intro hx
          cases m with
          | write => simp [angleStr] at hx hpre; exact hpre hx
          | append =>
            cases pre with
            | nil =>
              simp [angleStr] at hx
              exact hl rfl (by rw [← hx]; rfl)
            | cons d pre => simp [angleStr] at hx hpre; exact hpre hx.1 hx.2

theorem afterLast_none_of_not_infix {pat : Str} : ∀ (s : Str), ¬ pat <:+: s →
    afterLast pat s = none := by
  intro s
  induction s with
  | nil => intro _; rfl
  | cons c s ih =>
    intro h
    apply afterLast_cons_none
    · exact ih fun h' => h (h'.trans (List.infix_cons (List.infix_refl s)))
    · intro hp
      exact h (List.isPrefixOf_iff_prefix.1 hp).isInfix

theorem getLast?_append_ne {x y : Str} {c : Char} (hy : y ≠ []) (h : (x ++ y).getLast? = some c) :
    y.getLast? = some c := by
  rw [List.getLast?_append] at h
  cases hl : y.getLast? with
  | none => exact absurd (List.getLast?_eq_none_iff.1 hl) hy
  | some d => rw [hl] at h; exact h

theorem RedirectStage.redirectOf {ws : Char → Bool} (hgt : ws '>' = false) (incl : Bool)
    (r : RedirectStage ws) (hm : r.Unmixed) (hap : incl = true → r.Apart) :
    redirectOf ws incl r.text = some (r.mode, r.file) := by
  obtain ⟨a, t, ha, hwa⟩ := joinWords_head r.cmd r.cmd_ne (fun w hw => (r.cmd_plain w hw).pipe)
  have hblank : ∀ b : Str, (∀ c ∈ b, ws c = true) → '>' ∉ b := by
    intro b hb h
    rw [hb _ h] at hgt; cases hgt
  have hpost : '>' ∉ r.b1 ++ r.file := by
    simp only [List.mem_append, not_or]
    exact ⟨hblank _ r.b1_blank, r.file_angle⟩
  have hpost' : '>' ∉ r.b1 ++ r.file ++ r.b2 := by
    rw [List.mem_append, not_or]
    exact ⟨hpost, hblank _ r.b2_blank⟩
  have hbody : '>' ∉ joinWords r.cmd ++ r.b0 := by
    rw [List.mem_append, not_or]
    exact ⟨joinWords_no_angle _ r.cmd_plain, hblank _ r.b0_blank⟩
  -- the operator
  have hangle : angleOf r.text = some r.mode := by
    unfold angleOf RedirectStage.text
    cases hmode : r.mode with
    | append =>
      have := double_after (joinWords r.cmd ++ r.b0 ++ r.mid) _ hpost'
      simp only [List.append_assoc] at this
      simp only [angleStr, List.append_assoc, this, Option.isSome_some, if_true]
    | write =>
      have h0 := afterLast_none_of_not_infix _ (hm hmode)
      have h1 := double_none _ hpost' r.mid h0
      have h2 := afterLast_skip (pat := ['>', '>']) (a := '>') rfl
        (r.mid ++ ['>'] ++ (r.b1 ++ r.file ++ r.b2)) _ hbody
      rw [h1] at h2
      have h3 := single_after (joinWords r.cmd ++ r.b0 ++ r.mid) _ hpost'
      simp only [List.append_assoc] at h2 h3
      simp only [angleStr, List.append_assoc, h2, h3, Option.isSome_none, Option.isSome_some,
        Bool.false_eq_true, if_false, if_true]
  -- the trimmed stage
  have htrim : trim ws r.text =
      (joinWords r.cmd ++ r.b0 ++ r.mid) ++ angleStr r.mode ++ (r.b1 ++ r.file) := by
    have := trim_blanks (ws := ws) (b := [])
      (s := (joinWords r.cmd ++ r.b0 ++ r.mid) ++ angleStr r.mode ++ (r.b1 ++ r.file)) (b' := r.b2)
      (by simp) r.b2_blank (by rw [ha]; simp)
      (by intro c hc; rw [ha] at hc; simp at hc; rw [← hc]; exact hwa)
      (by
        intro c hc
        rw [← List.append_assoc] at hc
        exact r.file_last c (getLast?_append_ne r.file_ne hc))
    rw [← this]
    unfold RedirectStage.text
    simp
  have hafter : afterLast (angleStr r.mode) (trim ws r.text) = some (r.b1 ++ r.file) := by
    rw [htrim]
    cases r.mode with
    | append => exact double_after _ _ hpost
    | write => exact single_after _ _ hpost
  have hname : trim ws (r.b1 ++ r.file) = r.file := by
    have := trim_blanks (ws := ws) (b := r.b1) (s := r.file) (b' := []) r.b1_blank (by simp) r.file_ne
      r.file_head r.file_last
    simpa using this
  have hne : r.b1 ++ r.file ≠ [] := fun h => r.file_ne (List.append_eq_nil_iff.1 h).2
  have hl : lastPiece (angleStr r.mode) (trim ws r.text) = r.b1 ++ r.file := by
    unfold lastPiece; rw [hafter]
  unfold DelayTimer.redirectOf
  rw [hangle]
  cases incl with
  | false => simp only [Bool.false_eq_true, if_false, hl, hname]
  | true =>
    have hi : lastPieceInclusive r.mode (trim ws r.text) = r.b1 ++ r.file := by
      unfold lastPieceInclusive
      rw [htrim, splitInclusive_last hpost hne r.mode _ _ _ (Nat.le_refl _)]
      · rfl
      · intro hmode hlast
        rcases List.eq_nil_or_concat r.mid with h | ⟨x, y, h⟩
        · rw [h, List.append_nil] at hlast
          exact hbody (List.mem_of_getLast? hlast)
        · exact hap rfl hmode (getLast?_append_ne (by rw [h]; simp) hlast)
    simp only [if_true, hi, hname]

theorem RedirectStage.command {ws : Char → Bool} (hsp : ws ' ' = true) (hgt : ws '>' = false)
    (r : RedirectStage ws) : splitWhitespace ws (removeAngle ws r.text) = r.cmd := by
  obtain ⟨a, t, ha, hwa⟩ := joinWords_head r.cmd r.cmd_ne (fun w hw => (r.cmd_plain w hw).pipe)
  have hblank : ∀ b : Str, (∀ c ∈ b, ws c = true) → '>' ∉ b := by
    intro b hb h
    rw [hb _ h] at hgt; cases hgt
  have hbody : '>' ∉ joinWords r.cmd ++ r.b0 := by
    rw [List.mem_append, not_or]
    exact ⟨joinWords_no_angle _ r.cmd_plain, hblank _ r.b0_blank⟩
  have htrim : trim ws r.text =
      (joinWords r.cmd ++ r.b0) ++ (r.mid ++ angleStr r.mode ++ (r.b1 ++ r.file)) := by
    have := trim_blanks (ws := ws) (b := [])
      (s := (joinWords r.cmd ++ r.b0) ++ (r.mid ++ angleStr r.mode ++ (r.b1 ++ r.file))) (b' := r.b2)
      (by simp) r.b2_blank (by rw [ha]; simp)
      (by intro c hc; rw [ha] at hc; simp at hc; rw [← hc]; exact hwa)
      (by
        intro c hc
        rw [← List.append_assoc, ← List.append_assoc] at hc
        exact r.file_last c (getLast?_append_ne r.file_ne hc))
    rw [← this]
    unfold RedirectStage.text
    simp
  unfold removeAngle
  rw [htrim, takeWhile_to_angle _ _ hbody]
  · exact splitWhitespace_join_blanks hsp _ r.b0_blank _ (fun w hw => (r.cmd_plain w hw).pipe)
  · rcases r.mid_start with h | h
    · rw [h]; cases r.mode <;> rfl
    · cases hm : r.mid with
      | nil => rw [hm] at h; cases h
      | cons c m => rw [hm] at h; exact h

/-- **C39, stages whose operators are not mixed** (and whose file name is not empty). The stage opens the
file named after its last operator (appending exactly for `>>`), runs the words before the first
operator with stdout going to that file, and no later stage is run – whatever the later stages are, and
whichever of the two compiled variants of the file-name extraction is used. What is missing from the full
property: a stage in which a `>>` precedes a final `>`, see `C39_mixed_operators`, a missing file
name, see `C39_missing_name`, and, with the `split_inclusive` variant, a `>>` right behind another `>`, see
`C39_glued_operators`. -/
theorem C39_redirect_partial {ws : Char → Bool} (hsp : ws ' ' = true) (hgt : ws '>' = false)
    (incl : Bool) (os : OS) (r : RedirectStage ws) (hm : r.Unmixed) (hap : incl = true → r.Apart) (n : Nat) (rest : List Str)
    (hopen : os.openOk r.mode r.file = true) (hspawn : os.spawnOk n = true) (hpipe : ∀ n, os.pipeOk n = true) :
    runStages ws incl os n (r.text :: rest) =
      ([.opened r.mode r.file true,
        .spawned n (r.cmd.headD []) r.cmd.tail (if n = 0 then .inherit else .pipeFrom (n - 1))
          (.file r.mode r.file)], true) := by
  have h1 := r.redirectOf hgt incl hm hap
  have h2 := r.command hsp hgt
  have hc := r.cmd_ne
  rw [runStages.eq_def]
  generalize r.text = text at *
  generalize r.cmd = cmd at *
  match cmd, hc with
  | p :: args, _ =>
    simp only [h1, Option.isSome_some, if_true, h2, hopen, hspawn, List.cons_append, List.nil_append,
      List.headD_cons, List.tail_cons]
    cases n with
    | zero => simp [stdinOf]
    | succ k => simp [stdinOf, hpipe]

/-- `tr a b  >x >  out ` as the second stage: `tr a b` runs, `out` receives the output. -/
example : ∃ r : RedirectStage blankOnly, r.text = "tr a b  >x >  out ".toList ∧ r.Unmixed ∧
    r.cmd = ["tr".toList, "a".toList, "b".toList] ∧ r.file = "out".toList ∧ r.mode = .write := by
  refine ⟨{ cmd := ["tr".toList, "a".toList, "b".toList], b0 := "  ".toList, mid := ">x ".toList,
            mode := .write, b1 := "  ".toList, file := "out".toList, b2 := " ".toList,
            cmd_ne := by decide, cmd_plain := by decide, b0_blank := by decide,
            b1_blank := by decide, b2_blank := by decide, mid_start := by decide,
            file_ne := by decide, file_angle := by decide,
            file_head := by simp [blankOnly], file_last := by simp [blankOnly] },
          by decide, ?_, rfl, rfl, rfl⟩
  show _ → ¬ _
  intro _
  decide

/-- **C39 for a whole pipeline string.** Plain stages, then a stage `cmd > file` or `cmd >> file`, then
anything else: the plain stages are started and connected as in C38, the redirecting stage writes to the
file, and the stages after it are not run. -/
theorem C39_pipeline {ws : Char → Bool} (hsp : ws ' ' = true) (hgt : ws '>' = false)
    (incl : Bool) (os : OS) (hopen : ∀ m f, os.openOk m f = true) (hspawn : ∀ n, os.spawnOk n = true)
    (hpipe : ∀ n, os.pipeOk n = true) (p : List (List Str)) (cmd : List Str) (m : OpenMode)
    (file : Str) (q : List (List Str))
    (hp : ∀ c ∈ p, c ≠ [] ∧ ∀ w ∈ c, PlainWord ws w) (hcmd : cmd ≠ [])
    (hcp : ∀ w ∈ cmd, PlainWord ws w) (hfile : PlainWord ws file)
    (hq : ∀ c ∈ q, c ≠ [] ∧ ∀ w ∈ c, PipeWord ws w) :
    parseAndRun ws incl os (joinPipeline (p ++ (cmd ++ [angleStr m, file]) :: q)) =
      (pipelineEffects 0 p ++
        [.opened m file true,
         .spawned p.length (cmd.headD []) cmd.tail
          (if p.length = 0 then .inherit else .pipeFrom (p.length - 1)) (.file m file)], true) := by
  have hangle : PipeWord ws (angleStr m) := by
    cases m
    · exact ⟨by simp [angleStr], by simp [angleStr, hgt], by decide⟩
    · exact ⟨by simp [angleStr], by simp [angleStr, hgt], by decide⟩
  have hwp : WordPipeline ws (p ++ (cmd ++ [angleStr m, file]) :: q) := by
    refine ⟨by simp, fun c hc => ?_⟩
    rcases List.mem_append.1 hc with h | h
    · exact ⟨(hp c h).1, fun w hw => ((hp c h).2 w hw).pipe⟩
    · rcases List.mem_cons.1 h with h | h
      · subst h
        refine ⟨by simp, fun w hw => ?_⟩
        simp only [List.mem_append, List.mem_cons, List.not_mem_nil, or_false] at hw
        rcases hw with hw | hw | hw
        · exact (hcp w hw).pipe
        · rw [hw]; exact hangle
        · rw [hw]; exact hfile.pipe
      · exact hq c h
  let r : RedirectStage ws :=
    { cmd := cmd, b0 := [' '], mid := [], mode := m, b1 := [' '], file := file, b2 := []
      cmd_ne := hcmd, cmd_plain := hcp
      b0_blank := by simp [hsp]
      b1_blank := by simp [hsp]
      b2_blank := by simp
      mid_start := Or.inl rfl
      file_ne := hfile.1
      file_angle := fun h => (hfile.2.1 _ h).2 rfl
      file_head := fun c hc => (hfile.2.1 c (List.mem_of_mem_head? hc)).1
      file_last := fun c hc => (hfile.2.1 c (List.mem_of_getLast? hc)).1 }
  have htext : joinWords (cmd ++ [angleStr m, file]) = r.text := by
    have : ∀ (c : List Str), c ≠ [] → joinWords (c ++ [angleStr m, file]) =
        joinWords c ++ [' '] ++ [] ++ angleStr m ++ [' '] ++ file ++ [] := by
      intro c
      induction c with
      | nil => intro h; exact absurd rfl h
      | cons w c ih =>
        intro _
        cases c with
        | nil => simp [joinWords]
        | cons v c =>
          have := ih (by simp)
          simp only [List.cons_append] at this
          simp only [List.cons_append, joinWords, this, List.append_assoc]
    exact this cmd hcmd
  have hm : r.Unmixed := fun _ h => by
    have := h.length_le
    exact absurd this (by show ¬ (2 ≤ 1); decide)
  unfold parseAndRun
  rw [trim_joinPipeline _ hwp, splitPipe_join hsp _ hwp, List.map_append, List.map_cons, htext,
    runStages_pipeline hsp incl os hspawn hpipe _ p 0 hp,
    C39_redirect_partial hsp hgt incl os r hm (fun _ _ h => by cases h) _ _ (hopen _ _) (hspawn _) hpipe]
  simp [r]

example : parseAndRun blankOnly true OS.fine "ls -l | sort >> out.txt | rm x > y".toList =
    ([.spawned 0 "ls".toList ["-l".toList] .inherit .piped,
      .opened .append "out.txt".toList true,
      .spawned 1 "sort".toList [] (.pipeFrom 0) (.file .append "out.txt".toList)], true) :=
  C39_pipeline (by decide) (by decide) true OS.fine (fun _ _ => rfl) (fun _ => rfl) (fun _ => rfl)
    [["ls".toList, "-l".toList]] ["sort".toList] .append "out.txt".toList
    [["rm".toList, "x".toList, ">".toList, "y".toList]]
    (by decide) (by decide) (by decide) (by decide)
    (by simp only [PipeWord]; decide)

/-- Mixed operators violate C39: in `echo >> a > b` the last operator is `>` and names `b`, but the file
opened is the one called `a > b`, and it is opened for appending. -/
theorem C39_mixed_operators (incl : Bool) :
    parseAndRun blankOnly incl OS.fine "echo >> a > b".toList =
      ([.opened .append "a > b".toList true,
        .spawned 0 "echo".toList [] .inherit (.file .append "a > b".toList)], true) := by
  cases incl <;> decide +kernel

/-- A missing file name: with the `split_inclusive` variant the stage `echo hi >` writes into a file
called `echo hi >`, with the other variant it opens the file with the empty name. -/
theorem C39_missing_name :
    parseAndRun blankOnly true OS.fine "echo hi >".toList =
      ([.opened .write "echo hi >".toList true,
        .spawned 0 "echo".toList ["hi".toList] .inherit (.file .write "echo hi >".toList)], true) ∧
    parseAndRun blankOnly false OS.fine "echo hi >".toList =
      ([.opened .write [] true,
        .spawned 0 "echo".toList ["hi".toList] .inherit (.file .write [])], true) := by
  constructor <;> decide +kernel

/-- Operators that are not kept apart: `echo hi >>> f` appends to `f`, with the `split_inclusive` variant to a file
called `> f`. -/
theorem C39_glued_operators :
    parseAndRun blankOnly false OS.fine "echo hi >>> f".toList =
      ([.opened .append "f".toList true,
        .spawned 0 "echo".toList ["hi".toList] .inherit (.file .append "f".toList)], true) ∧
    parseAndRun blankOnly true OS.fine "echo hi >>> f".toList =
      ([.opened .append "> f".toList true,
        .spawned 0 "echo".toList ["hi".toList] .inherit (.file .append "> f".toList)], true) := by
  constructor <;> decide +kernel

/-! ## C40 -/

theorem killed_killAll (n : Nat) : killedProcs (killAll n) = List.range n := by
  unfold killedProcs killAll
  rw [List.filterMap_map]
  exact List.filterMap_some

theorem started_killAll (n : Nat) : startedProcs (killAll n) = [] := by
  unfold startedProcs killAll
  rw [List.filterMap_map]
  simp

/-- The three ways a stage can go. -/
theorem runStages_cases (ws : Char → Bool) (incl : Bool) (os : OS) (n : Nat) (cmd : Str)
    (rest : List Str) :
    (∃ es, startedProcs es = [] ∧ killedProcs es = [] ∧
      runStages ws incl os n (cmd :: rest) = (es ++ killAll n, false)) ∨
    (∃ e p a i o, startedProcs [e] = [] ∧ killedProcs [e] = [] ∧
      runStages ws incl os n (cmd :: rest) = ([e, .spawned n p a i o], true)) ∨
    (∃ p a i o, runStages ws incl os n (cmd :: rest) =
      (.spawned n p a i o :: (runStages ws incl os (n + 1) rest).1,
        (runStages ws incl os (n + 1) rest).2)) := by
  rw [runStages.eq_def]
  cases hr : redirectOf ws incl cmd with
  | none =>
    cases hw : splitWhitespace ws cmd with
    | nil => exact Or.inl ⟨[], rfl, rfl, by simp [hr, hw]⟩
    | cons program args =>
      cases hsp : os.spawnOk n with
      | false => exact Or.inl ⟨[.spawnFailed program], rfl, rfl, by simp [hr, hw, hsp]⟩
      | true =>
        exact Or.inr (Or.inr ⟨program, args, stdinOf os n, .piped, by simp [hr, hw, hsp]⟩)
  | some mf =>
    obtain ⟨m, f⟩ := mf
    cases hw : splitWhitespace ws (removeAngle ws cmd) with
    | nil => exact Or.inl ⟨[.opened m f (os.openOk m f)], rfl, rfl, by simp [hr, hw]⟩
    | cons program args =>
      cases ho : os.openOk m f with
      | false => exact Or.inl ⟨[.opened m f false], rfl, rfl, by simp [hr, hw, ho]⟩
      | true =>
        cases hsp : os.spawnOk n with
        | false =>
          exact Or.inl ⟨[.opened m f true, .spawnFailed program], rfl, rfl, by simp [hr, hw, ho, hsp]⟩
        | true =>
          exact Or.inr (Or.inl ⟨.opened m f true, program, args, stdinOf os n, .file m f, rfl, rfl,
            by simp [hr, hw, ho, hsp]⟩)

theorem started_append (a b : List ShEffect) :
    startedProcs (a ++ b) = startedProcs a ++ startedProcs b := List.filterMap_append

theorem killed_append (a b : List ShEffect) :
    killedProcs (a ++ b) = killedProcs a ++ killedProcs b := List.filterMap_append

theorem runStages_cleanup (ws : Char → Bool) (incl : Bool) (os : OS) :
    ∀ (cmds : List Str) (n : Nat), ∃ k, n ≤ k ∧
      startedProcs (runStages ws incl os n cmds).1 = List.range' n (k - n) ∧
      killedProcs (runStages ws incl os n cmds).1 =
        if (runStages ws incl os n cmds).2 then [] else List.range k := by
  intro cmds
  induction cmds with
  | nil =>
    intro n
    exact ⟨n, Nat.le_refl n, by simp [runStages, startedProcs], by simp [runStages, killedProcs]⟩
  | cons cmd rest ih =>
    intro n
    rcases runStages_cases ws incl os n cmd rest with ⟨es, h1, h2, h⟩ | ⟨e, p, a, i, o, h1, h2, h⟩ |
      ⟨p, a, i, o, h⟩
    · refine ⟨n, Nat.le_refl n, ?_, ?_⟩ <;> rw [h]
      · simp [started_append, h1, started_killAll]
      · simp [killed_append, h2, killed_killAll]
    · refine ⟨n + 1, by omega, ?_, ?_⟩ <;> rw [h]
      · have : n + 1 - n = 1 := by omega
        rw [this]
        show startedProcs ([e] ++ _) = _
        rw [started_append, h1]; rfl
      · show killedProcs ([e] ++ _) = _
        rw [killed_append, h2]; rfl
    · obtain ⟨k, h1, h2, h3⟩ := ih (n + 1)
      refine ⟨k, by omega, ?_, ?_⟩ <;> rw [h]
      · have e : k - n = (k - (n + 1)) + 1 := by omega
        show n :: startedProcs _ = _
        rw [h2, e, List.range'_succ]
      · exact h3

/-- **C40.** Whatever the command string and however opening files, starting processes and connecting
pipes turn out: if the call fails, the processes killed are exactly the ones started, each once and in
the order of their start; if it succeeds, none is killed. In both cases the processes are started in
order, each once. -/
theorem C40_no_process_left (ws : Char → Bool) (incl : Bool) (os : OS) (input : Str) :
    ∃ k, startedProcs (parseAndRun ws incl os input).1 = List.range k ∧
      killedProcs (parseAndRun ws incl os input).1 =
        if (parseAndRun ws incl os input).2 then [] else List.range k := by
  obtain ⟨k, _, h2, h3⟩ := runStages_cleanup ws incl os (splitPipe (trim ws input)) 0
  refine ⟨k, ?_, h3⟩
  rw [List.range_eq_range', parseAndRun, h2]; simp

/-- Every kill comes after every start: nothing is started once cleaning up has begun. -/
theorem C40_kills_last (ws : Char → Bool) (incl : Bool) (os : OS) :
    ∀ (cmds : List Str) (n : Nat), ∃ es ks, (runStages ws incl os n cmds).1 = es ++ ks ∧
      killedProcs es = [] ∧ startedProcs ks = [] ∧
      (ks = [] ∨ (runStages ws incl os n cmds).2 = false) := by
  intro cmds
  induction cmds with
  | nil => intro n; exact ⟨[], [], by simp [runStages], by simp [killedProcs], by simp [startedProcs], Or.inl rfl⟩
  | cons cmd rest ih =>
    intro n
    rcases runStages_cases ws incl os n cmd rest with ⟨es, h1, h2, h⟩ | ⟨e, p, a, i, o, h1, h2, h⟩ |
      ⟨p, a, i, o, h⟩
    · exact ⟨es, killAll n, by rw [h], h2, started_killAll n, Or.inr (by rw [h])⟩
    · refine ⟨_, [], by rw [h]; exact (List.append_nil _).symm, ?_, rfl, Or.inl rfl⟩
      show killedProcs ([e] ++ _) = _
      rw [killed_append, h2]; rfl
    · obtain ⟨es, ks, h1, h2, h3, h4⟩ := ih (n + 1)
      refine ⟨.spawned n p a i o :: es, ks, ?_, h2, h3, ?_⟩ <;> rw [h]
      · simp only [h1, List.cons_append]
      · exact h4

/-- A spawn that fails at the third stage: the two processes already running are killed. -/
example : parseAndRun blankOnly false { OS.fine with spawnOk := fun n => n != 2 } "a | b | c | d".toList =
    ([.spawned 0 ['a'] [] .inherit .piped, .spawned 1 ['b'] [] (.pipeFrom 0) .piped,
      .spawnFailed ['c'], .killed 0, .killed 1], false) := by decide +kernel

end DelayTimer
