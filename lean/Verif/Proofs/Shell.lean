import Verif.Spec.Shell

namespace DelayTimer
open Spec

variable {ws : Char → Bool}

def prependHead (p : Str) (l : List Str) : List Str := p.foldr consHead l

theorem prependHead_cons (p q : Str) (ps : List Str) : prependHead p (q :: ps) = (p ++ q) :: ps := by
  induction p with
  | nil => rfl
  | cons c p ih => simp only [prependHead, List.foldr_cons] at ih ⊢; rw [ih]; rfl

theorem splitPipe_ne_space {c : Char} (hc : c ≠ ' ') (rest : Str) :
    splitPipe (c :: rest) = consHead c (splitPipe rest) := by
  rw [splitPipe]
  intro r h1 h2
  cases h1
  exact hc rfl

theorem splitPipe_space_ne {rest : Str} (h : ∀ r, rest ≠ '|' :: ' ' :: r) :
    splitPipe (' ' :: rest) = consHead ' ' (splitPipe rest) := by
  rw [splitPipe]
  intro r _ h2
  exact h r h2

theorem splitPipe_word (hsp : ws ' ' = true) (w t : Str) (hw : ∀ c ∈ w, ws c = false) :
    splitPipe (w ++ t) = prependHead w (splitPipe t) := by
  induction w with
  | nil => rfl
  | cons c w ih =>
    have hc : c ≠ ' ' := by
      intro h; subst h
      have := hw ' ' List.mem_cons_self
      rw [hsp] at this; cases this
    simp only [List.cons_append, prependHead, List.foldr_cons]
    rw [splitPipe_ne_space hc, ih (fun c hc => hw c (List.mem_cons_of_mem _ hc))]
    rfl

/-- Behind a blank, a plain word followed by the end or a blank is not a pipe sign. -/
theorem plain_not_pipe (hsp : ws ' ' = true) {w : Str} (hw : PipeWord ws w) (t r : Str) :
    w ++ t ≠ '|' :: ' ' :: r := by
  obtain ⟨h1, h2, h3⟩ := hw
  intro h
  match w, h1, h2, h3, h with
  | [a], _, _, h3, h =>
    simp only [List.cons_append, List.nil_append, List.cons.injEq] at h
    exact h3 (by rw [h.1])
  | a :: b :: w, _, h2, _, h =>
    simp only [List.cons_append, List.cons.injEq] at h
    have := h2 b (by simp)
    rw [h.2.1, hsp] at this; cases this

theorem splitPipe_words (hsp : ws ' ' = true) : ∀ (c : List Str), c ≠ [] →
    (∀ w ∈ c, PipeWord ws w) → ∀ t,
    splitPipe (joinWords c ++ t) = prependHead (joinWords c) (splitPipe t) := by
  intro c
  induction c with
  | nil => intro h; exact absurd rfl h
  | cons w c ih =>
    intro _ hp t
    have hw := hp w List.mem_cons_self
    cases c with
    | nil => exact splitPipe_word hsp w t (fun c hc => hw.2.1 c hc)
    | cons v c =>
      have ih' := ih (by simp) (fun w hw => hp w (List.mem_cons_of_mem _ hw)) t
      have hv := hp v (by simp)
      simp only [joinWords, List.append_assoc, List.cons_append]
      rw [splitPipe_word hsp w _ (fun c hc => hw.2.1 c hc), splitPipe_space_ne, ih']
      · simp [prependHead, List.foldr_append]
      · intro r
        have : ∃ t', joinWords (v :: c) ++ t = v ++ t' := by
          cases c with
          | nil => exact ⟨t, rfl⟩
          | cons u c => exact ⟨' ' :: joinWords (u :: c) ++ t, by simp [joinWords]⟩
        obtain ⟨t', ht'⟩ := this
        rw [ht']; exact plain_not_pipe hsp hv t' r

theorem splitPipe_join (hsp : ws ' ' = true) : ∀ (p : List (List Str)), WordPipeline ws p →
    splitPipe (joinPipeline p) = p.map joinWords := by
  intro p
  induction p with
  | nil => intro h; exact absurd rfl h.1
  | cons c p ih =>
    intro h
    have hc := h.2 c List.mem_cons_self
    cases p with
    | nil =>
      have := splitPipe_words hsp c hc.1 hc.2 []
      simp only [List.append_nil] at this
      simp only [joinPipeline, this, splitPipe, prependHead_cons, List.append_nil, List.map]
    | cons d p =>
      have ih' := ih ⟨by simp, fun c hc => h.2 c (List.mem_cons_of_mem _ hc)⟩
      simp only [joinPipeline]
      rw [splitPipe_words hsp c hc.1 hc.2, splitPipe, ih', prependHead_cons, List.append_nil]
      rfl

theorem splitWsAux_word (w : Str) (hw : ∀ c ∈ w, ws c = false) : ∀ (t acc : Str),
    splitWsAux ws (w ++ t) acc = splitWsAux ws t (acc ++ w) := by
  induction w with
  | nil => intro t acc; simp
  | cons c w ih =>
    intro t acc
    have hc := hw c List.mem_cons_self
    have hstep : splitWsAux ws (c :: (w ++ t)) acc = splitWsAux ws (w ++ t) (acc ++ [c]) := by
      cases acc <;> simp [splitWsAux, hc]
    simp only [List.cons_append]
    rw [hstep, ih (fun c hc => hw c (List.mem_cons_of_mem _ hc))]
    simp

theorem splitWsAux_nil (acc : Str) (h : acc ≠ []) : splitWsAux ws [] acc = [acc] := by
  rw [splitWsAux]; intro h'; exact absurd h' h

theorem splitWsAux_space (c : Char) (hc : ws c = true) (t acc : Str) (h : acc ≠ []) :
    splitWsAux ws (c :: t) acc = acc :: splitWsAux ws t [] := by
  cases acc with
  | nil => exact absurd rfl h
  | cons a acc => simp [splitWsAux, hc]

theorem splitWhitespace_join (hsp : ws ' ' = true) : ∀ (c : List Str), (∀ w ∈ c, PipeWord ws w) →
    splitWhitespace ws (joinWords c) = c := by
  intro c
  unfold splitWhitespace
  induction c with
  | nil => intro _; simp [joinWords, splitWsAux]
  | cons w c ih =>
    intro hp
    have hw := hp w List.mem_cons_self
    have hw' : ∀ c ∈ w, ws c = false := fun c hc => hw.2.1 c hc
    cases c with
    | nil =>
      have := splitWsAux_word w hw' [] []
      simp only [List.append_nil, List.nil_append] at this
      rw [joinWords, this, splitWsAux_nil w hw.1]
    | cons v c =>
      simp only [joinWords]
      rw [splitWsAux_word w hw', List.nil_append, splitWsAux_space ' ' hsp _ _ hw.1,
        ih (fun w hw => hp w (List.mem_cons_of_mem _ hw))]

/-! Trimming -/

theorem dropWhile_id {p : Char → Bool} : ∀ {s : Str}, (∀ c, s.head? = some c → p c = false) →
    s.dropWhile p = s := by
  intro s h
  cases s with
  | nil => rfl
  | cons c s => simp [List.dropWhile, h c rfl]

theorem trim_id {s : Str} (h1 : ∀ c, s.head? = some c → ws c = false)
    (h2 : ∀ c, s.getLast? = some c → ws c = false) : trim ws s = s := by
  unfold trim
  rw [dropWhile_id h1, dropWhile_id, List.reverse_reverse]
  intro c hc
  rw [List.head?_reverse] at hc
  exact h2 c hc

theorem joinWords_head : ∀ (c : List Str), c ≠ [] → (∀ w ∈ c, PipeWord ws w) →
    ∃ a t, joinWords c = a :: t ∧ ws a = false := by
  intro c h hp
  cases c with
  | nil => exact absurd rfl h
  | cons w c =>
    have hw := hp w List.mem_cons_self
    match w, hw with
    | a :: w, hw =>
      cases c with
      | nil => exact ⟨a, w, rfl, hw.2.1 a (by simp)⟩
      | cons v c => exact ⟨a, _, rfl, hw.2.1 a (by simp)⟩
    | [], hw => exact absurd rfl hw.1

theorem joinWords_last : ∀ (c : List Str), c ≠ [] → (∀ w ∈ c, PipeWord ws w) →
    ∃ a t, joinWords c = t ++ [a] ∧ ws a = false := by
  intro c
  induction c with
  | nil => intro h; exact absurd rfl h
  | cons w c ih =>
    intro _ hp
    have hw := hp w List.mem_cons_self
    cases c with
    | nil =>
      refine ⟨w.getLast hw.1, w.dropLast, (List.dropLast_concat_getLast hw.1).symm, ?_⟩
      exact hw.2.1 _ (List.getLast_mem hw.1)
    | cons v c =>
      obtain ⟨a, t, h1, h2⟩ := ih (by simp) (fun w hw => hp w (List.mem_cons_of_mem _ hw))
      exact ⟨a, w ++ ' ' :: t, by simp [joinWords, h1], h2⟩

theorem joinPipeline_head (p : List (List Str)) (h : WordPipeline ws p) :
    ∃ a t, joinPipeline p = a :: t ∧ ws a = false := by
  cases p with
  | nil => exact absurd rfl h.1
  | cons c p =>
    have hc := h.2 c List.mem_cons_self
    obtain ⟨a, t, h1, h2⟩ := joinWords_head c hc.1 hc.2
    cases p with
    | nil => exact ⟨a, t, h1, h2⟩
    | cons d p => exact ⟨a, t ++ ' ' :: '|' :: ' ' :: joinPipeline (d :: p),
        by simp [joinPipeline, h1], h2⟩

theorem joinPipeline_last : ∀ (p : List (List Str)), WordPipeline ws p →
    ∃ a t, joinPipeline p = t ++ [a] ∧ ws a = false := by
  intro p
  induction p with
  | nil => intro h; exact absurd rfl h.1
  | cons c p ih =>
    intro h
    have hc := h.2 c List.mem_cons_self
    cases p with
    | nil => exact joinWords_last c hc.1 hc.2
    | cons d p =>
      obtain ⟨a, t, h1, h2⟩ := ih ⟨by simp, fun c hc => h.2 c (List.mem_cons_of_mem _ hc)⟩
      exact ⟨a, joinWords c ++ ' ' :: '|' :: ' ' :: t, by simp [joinPipeline, h1], h2⟩

theorem trim_joinPipeline (p : List (List Str)) (h : WordPipeline ws p) :
    trim ws (joinPipeline p) = joinPipeline p := by
  obtain ⟨a, t, h1, h2⟩ := joinPipeline_head p h
  obtain ⟨b, u, h3, h4⟩ := joinPipeline_last p h
  apply trim_id
  · intro c hc; rw [h1] at hc; simp at hc; rw [← hc]; exact h2
  · intro c hc; rw [h3] at hc; simp at hc; rw [← hc]; exact h4

theorem Spec.PlainWord.pipe {w : Str} (h : PlainWord ws w) : PipeWord ws w :=
  ⟨h.1, fun c hc => (h.2.1 c hc).1, h.2.2⟩

theorem Spec.PlainPipeline.word {p : List (List Str)} (h : PlainPipeline ws p) : WordPipeline ws p :=
  ⟨h.1, fun c hc => ⟨(h.2 c hc).1, fun w hw => ((h.2 c hc).2 w hw).pipe⟩⟩

/-! Redirects -/

theorem afterLast_eq_none {pat : Str} {a : Char} (hpat : pat.head? = some a) : ∀ (s : Str), a ∉ s →
    afterLast pat s = none := by
  intro s
  induction s with
  | nil => intro _; rfl
  | cons c s ih =>
    intro h
    simp only [List.mem_cons, not_or] at h
    rw [afterLast, ih h.2]
    match pat, hpat with
    | b :: pat, hpat =>
      simp only [List.head?_cons, Option.some.injEq] at hpat
      subst hpat
      have hn : ¬ ((b :: pat).isPrefixOf (c :: s) = true) := by
        simp only [List.isPrefixOf, Bool.and_eq_true, beq_iff_eq, not_and]
        intro h'; exact absurd h' h.1
      exact if_neg hn

theorem angleOf_plain (s : Str) (h : '>' ∉ s) : angleOf s = none := by
  unfold angleOf
  rw [afterLast_eq_none (a := '>') rfl s h, afterLast_eq_none (a := '>') rfl s h]
  rfl

theorem joinWords_no_angle : ∀ (c : List Str), (∀ w ∈ c, PlainWord ws w) → '>' ∉ joinWords c := by
  intro c
  induction c with
  | nil => intro _; simp [joinWords]
  | cons w c ih =>
    intro hp
    have hw := hp w List.mem_cons_self
    have hwa : '>' ∉ w := fun h => (hw.2.1 _ h).2 rfl
    cases c with
    | nil => exact hwa
    | cons v c =>
      have := ih (fun w hw => hp w (List.mem_cons_of_mem _ hw))
      simp only [joinWords, List.mem_append, List.mem_cons, not_or]
      exact ⟨hwa, by decide, this⟩

/-! The occurrence found by `afterLast` -/

theorem afterLast_append {pat : Str} (hpat : pat ≠ []) (pre post : Str)
    (h : afterLast pat ((pat ++ post).drop 1) = none) :
    afterLast pat (pre ++ pat ++ post) = some post := by
  induction pre with
  | nil =>
    match pat, hpat with
    | a :: pat, _ =>
      simp only [List.nil_append, List.cons_append]
      simp only [List.cons_append, List.drop_succ_cons, List.drop_zero] at h
      rw [afterLast, h]
      simp
  | cons c pre ih =>
    simp only [List.cons_append]
    rw [afterLast, ih]

theorem afterLast_some_split {pat : Str} : ∀ (s x : Str), afterLast pat s = some x →
    ∃ pre, s = pre ++ pat ++ x := by
  intro s
  induction s with
  | nil => intro x h; cases h
  | cons c s ih =>
    intro x h
    rw [afterLast] at h
    split at h
    · rename_i y hy
      cases h
      obtain ⟨pre, hpre⟩ := ih _ hy
      exact ⟨c :: pre, by rw [hpre]; rfl⟩
    · split at h
      · rename_i hp
        cases h
        refine ⟨[], ?_⟩
        have := List.isPrefixOf_iff_prefix.1 hp
        obtain ⟨t, ht⟩ := this
        rw [← ht]; simp
      · cases h

end DelayTimer

namespace DelayTimer
open Spec

variable {ws : Char → Bool}

theorem trim_blanks {b s b' : Str} (hb : ∀ c ∈ b, ws c = true) (hb' : ∀ c ∈ b', ws c = true)
    (hs : s ≠ []) (h1 : ∀ c, s.head? = some c → ws c = false)
    (h2 : ∀ c, s.getLast? = some c → ws c = false) : trim ws (b ++ s ++ b') = s := by
  have hdrop : ∀ (b t : Str), (∀ c ∈ b, ws c = true) → (b ++ t).dropWhile ws = t.dropWhile ws := by
    intro b t hb
    induction b with
    | nil => rfl
    | cons c b ih =>
      simp only [List.cons_append, List.dropWhile, hb c List.mem_cons_self]
      exact ih (fun c hc => hb c (List.mem_cons_of_mem _ hc))
  unfold trim
  rw [List.append_assoc, hdrop b _ hb, dropWhile_id (s := s ++ b'), List.reverse_append, hdrop,
    dropWhile_id, List.reverse_reverse]
  · intro c hc; rw [List.head?_reverse] at hc; exact h2 c hc
  · intro c hc; exact hb' c (List.mem_reverse.1 hc)
  · intro c hc
    apply h1
    cases s with
    | nil => exact absurd rfl hs
    | cons a s => exact hc

theorem afterLast_skip {pat : Str} {a : Char} (hpat : pat.head? = some a) (y : Str) :
    ∀ (x : Str), a ∉ x → afterLast pat (x ++ y) = afterLast pat y := by
  intro x
  induction x with
  | nil => intro _; rfl
  | cons c x ih =>
    intro h
    simp only [List.mem_cons, not_or] at h
    simp only [List.cons_append]
    rw [afterLast, ih h.2]
    match pat, hpat with
    | b :: pat, hpat =>
      simp only [List.head?_cons, Option.some.injEq] at hpat
      subst hpat
      have hn : ¬ ((b :: pat).isPrefixOf (c :: (x ++ y)) = true) := by
        simp only [List.isPrefixOf, Bool.and_eq_true, beq_iff_eq, not_and]
        intro h'; exact absurd h' h.1
      cases hy : afterLast (b :: pat) y with
      | some z => rfl
      | none => exact if_neg hn

theorem afterLast_none_tail {pat : Str} {c : Char} {s : Str} (h : afterLast pat (c :: s) = none) :
    afterLast pat s = none := by
  rw [afterLast] at h
  split at h
  · cases h
  · assumption

theorem afterLast_none_prefix {pat : Str} {c : Char} {s : Str} (h : afterLast pat (c :: s) = none) :
    ¬ (pat.isPrefixOf (c :: s) = true) := by
  rw [afterLast] at h
  split at h
  · cases h
  · intro hp; rw [if_pos hp] at h; cases h

theorem afterLast_cons_none {pat : Str} {c : Char} {s : Str} (h1 : afterLast pat s = none)
    (h2 : ¬ (pat.isPrefixOf (c :: s) = true)) : afterLast pat (c :: s) = none := by
  rw [afterLast, h1]; exact if_neg h2

theorem prefix2_iff (c : Char) (s : Str) :
    ((['>', '>'] : Str).isPrefixOf (c :: s) = true) ↔ (c = '>' ∧ s.head? = some '>') := by
  cases s with
  | nil => simp [List.isPrefixOf]
  | cons d s =>
    simp only [List.isPrefixOf, Bool.and_eq_true, beq_iff_eq, List.head?_cons, Option.some.injEq,
      and_true]
    constructor
    · rintro ⟨h1, h2⟩; exact ⟨h1.symm, h2.symm⟩
    · rintro ⟨h1, h2⟩; exact ⟨h1.symm, h2.symm⟩

theorem double_none (post : Str) (hpost : '>' ∉ post) : ∀ (mid : Str),
    afterLast ['>', '>'] (mid ++ ['>']) = none →
    afterLast ['>', '>'] (mid ++ ['>'] ++ post) = none := by
  have hp := afterLast_eq_none (pat := ['>', '>']) (a := '>') rfl post hpost
  intro mid
  induction mid with
  | nil =>
    intro _
    apply afterLast_cons_none hp
    rw [prefix2_iff]
    rintro ⟨_, h⟩
    exact hpost (List.mem_of_mem_head? h)
  | cons c mid ih =>
    intro h
    have h' : afterLast ['>', '>'] (c :: (mid ++ ['>'])) = none := h
    apply afterLast_cons_none (ih (afterLast_none_tail h'))
    have := afterLast_none_prefix h'
    rw [prefix2_iff] at this
    rw [prefix2_iff]
    rintro ⟨h1, h2⟩
    apply this
    refine ⟨h1, ?_⟩
    cases mid with
    | nil => rfl
    | cons d mid => exact h2

theorem single_after (pre post : Str) (hpost : '>' ∉ post) :
    afterLast ['>'] (pre ++ ['>'] ++ post) = some post :=
  afterLast_append (by simp) pre post (afterLast_eq_none (a := '>') rfl _ hpost)

theorem double_after (pre post : Str) (hpost : '>' ∉ post) :
    afterLast ['>', '>'] (pre ++ ['>', '>'] ++ post) = some post := by
  apply afterLast_append (by simp)
  have := double_none post hpost [] rfl
  simpa using this

theorem splitWsAux_blanks (b : Str) (hb : ∀ c ∈ b, ws c = true) : splitWsAux ws b [] = [] := by
  induction b with
  | nil => simp [splitWsAux]
  | cons c b ih =>
    simp only [splitWsAux, hb c List.mem_cons_self, if_true]
    exact ih (fun c hc => hb c (List.mem_cons_of_mem _ hc))

theorem splitWhitespace_join_blanks (hsp : ws ' ' = true) (b : Str) (hb : ∀ c ∈ b, ws c = true) :
    ∀ (c : List Str), (∀ w ∈ c, PipeWord ws w) → splitWhitespace ws (joinWords c ++ b) = c := by
  intro c
  unfold splitWhitespace
  induction c with
  | nil => intro _; exact splitWsAux_blanks b hb
  | cons w c ih =>
    intro hp
    have hw := hp w List.mem_cons_self
    cases c with
    | nil =>
      rw [joinWords, splitWsAux_word w hw.2.1, List.nil_append]
      cases b with
      | nil => exact splitWsAux_nil w hw.1
      | cons a b =>
        rw [splitWsAux_space a (hb a List.mem_cons_self) _ _ hw.1,
          splitWsAux_blanks b (fun c hc => hb c (List.mem_cons_of_mem _ hc))]
    | cons v c =>
      simp only [joinWords, List.append_assoc, List.cons_append]
      rw [splitWsAux_word w hw.2.1, List.nil_append, splitWsAux_space ' ' hsp _ _ hw.1]
      rw [ih (fun w hw => hp w (List.mem_cons_of_mem _ hw))]

theorem takeWhile_to_angle (x y : Str) (hx : '>' ∉ x) (hy : y.head? = some '>') :
    (x ++ y).takeWhile (· != '>') = x := by
  induction x with
  | nil =>
    cases y with
    | nil => cases hy
    | cons c y => simp only [List.head?_cons, Option.some.injEq] at hy; subst hy; rfl
  | cons c x ih =>
    simp only [List.mem_cons, not_or] at hx
    have : (c != '>') = true := by simpa using fun h => hx.1 h.symm
    simp only [List.cons_append, List.takeWhile, this, ih hx.2]

/-- The stage loop on a stage without redirect. -/
theorem runStages_plain {incl : Bool} {os : OS} {n : Nat} {cmd : Str} {rest : List Str}
    {program : Str} {args : List Str} (hr : redirectOf ws incl cmd = none)
    (hw : splitWhitespace ws cmd = program :: args) (hs : os.spawnOk n = true) :
    runStages ws incl os n (cmd :: rest) =
      (.spawned n program args (stdinOf os n) .piped :: (runStages ws incl os (n + 1) rest).1,
        (runStages ws incl os (n + 1) rest).2) := by
  rw [runStages.eq_def]
  simp only [hr, Option.isSome_none, Bool.false_eq_true, if_false, hw, hs, if_true, List.nil_append]

end DelayTimer
