import Verif.Props.SheetAll
import Verif.Props.FairCourse
import Verif.Props.Fair

/-!
# The timetable for all time (C79)

`C79` compares the timer with the sheet at one moment. Here: in an execution without end in which the
scheduler is not held up for ever, every run on the sheet is really started, and nothing else is; and
every history can be continued that way.
-/

namespace DelayTimer
open Spec

/-! ### The sheet goes on -/

/-- No run on the sheet is dated later than now. -/
def Dated (P : Sheet) : Prop := ∀ r ∈ P.runs, r.1 ≤ P.now

theorem fire_dated {clock : Nat → Nat} {sk : Bool} {P : Sheet} (h : Dated P) : Dated (P.fire clock sk) := by
  intro r hr
  rw [fire_now]
  rcases fire_cases clock sk P with hf | ⟨x, hf⟩ <;> rw [hf] at hr
  · exact h r hr
  · rcases List.mem_append.1 hr with hr | hr
    · exact h r hr
    · rw [List.mem_singleton] at hr; subst hr; exact Nat.le_refl _

theorem apply_same {clock : Nat → Nat} {k : Nat} {P Q : Sheet} {o : SheetOp} (h : P.apply clock k o = some Q) :
    Q.runs = P.runs ∧ Q.now = P.now := by
  cases o <;> simp only [Sheet.apply] at h <;> (repeat' split at h) <;>
    first | (cases h; done) | (injection h with h; subst h; exact ⟨rfl, rfl⟩)

theorem play_dated {clock : Nat → Nat} {k : Nat} : ∀ (es : List SheetEv) {P Q : Sheet}, P.play clock k es = some Q →
    Dated P → Dated Q
  | [], P, Q, h, hd => by cases h; exact hd
  | .tick :: es, P, Q, h, hd => by
    refine play_dated es h (fun r hr => ?_)
    have := fire_dated (clock := clock) (sk := false) hd r hr
    rw [fire_now] at this
    exact Nat.le_succ_of_le this
  | .skip :: es, P, Q, h, hd => play_dated es h (fire_dated hd)
  | .op o :: es, P, Q, h, hd => by
    simp only [Sheet.play] at h
    split at h
    · cases h
    · rename_i R hR
      obtain ⟨h1, h2⟩ := apply_same hR
      exact play_dated es h (fun r hr => by rw [h2]; exact fire_dated hd r (h1 ▸ hr))

/-- What has been written stays, if nothing is left out. -/
theorem play_on {clock : Nat → Nat} {k : Nat} : ∀ (es : List SheetEv) {P Q : Sheet}, P.play clock k es = some Q →
    .skip ∉ es → (P.fire clock false).runs <+: (Q.fire clock false).runs
  | [], P, Q, h, _ => by cases h; exact List.prefix_rfl
  | .tick :: es, P, Q, h, hn => by
    have a := play_on es h (fun hm => hn (List.mem_cons_of_mem _ hm))
    exact (fire_prefix clock false { P.fire clock false with now := P.now + 1 }).trans a
  | .skip :: es, P, Q, h, hn => absurd List.mem_cons_self hn
  | .op o :: es, P, Q, h, hn => by
    simp only [Sheet.play] at h
    split at h
    · cases h
    · rename_i R hR
      have a := play_on es h (fun hm => hn (List.mem_cons_of_mem _ hm))
      rw [← (apply_same hR).1]
      exact (fire_prefix clock false R).trans a

/-- Without parallel limits nothing is left out. -/
theorem no_skip {env : Env} {k : Nat} : ∀ (ls : List Label) {s s' : St}, Boundless k s → (∀ t ∈ handed k ls, NoLim t) →
    run env s ls = some s' → .skip ∉ history env k s ls
  | [], _, _, _, _, _ => fun h => nomatch h
  | l :: ls, s, s', hs, hb, h => by
    obtain ⟨s1, h1, h2⟩ := run_cons h
    have hb' : ∀ t ∈ broughtBy k l ++ handed k ls, NoLim t := hb
    have ih := no_skip ls (boundless_step (fun t ht => hb' t (List.mem_append_left _ ht)) hs (step_act h1))
      (fun t ht => hb' t (List.mem_append_right _ ht)) h2
    simp only [history, h1]
    intro hm
    rcases List.mem_append.1 hm with hm | hm
    · cases l <;> first | (cases hm; done) | (rw [boundless_skip hs] at hm; cases hm) | skip
      · simp only [sheetEvs, List.mem_singleton] at hm; cases hm
      · simp only [sheetEvs] at hm
        split at hm
        · cases hm
        · rename_i e _ _
          cases e <;> simp only [opOf] at hm <;> (try split at hm) <;> simp at hm
    · exact ih hm

/-- A run of `k` is left out only if a task with a parallel limit has been handed in for `k`. -/
theorem C79_no_skip {env : Env} {k : Nat} {ls : List Label} {s : St} (h : run env (init env) ls = some s)
    (hn : ∀ t ∈ handed k ls, t.maximumParallelRunnableNum = none) : .skip ∉ history env k (init env) ls :=
  no_skip ls (copies_init env _ _ k) hn h

theorem paper_now {env : Env} {k : Nat} {ls : List Label} {s : St} {Q : Sheet} (h : OnPaper env k ls s Q)
    (hp : s.tpc ≠ .panicked) : Q.now = s.ticks := by
  obtain ⟨R, _, _, hs⟩ := h.sim
  cases hs with
  | still P hR hQ hn _ _ _ _ _ _ => rw [hQ, fire_now]; exact hn
  | fly P sk e t hQ hn _ _ _ _ _ _ _ => rw [hQ, fire_now]; exact hn
  | marking e p i u hn _ _ _ _ _ _ _ _ => exact hn
  | engaged _ hn _ _ _ => exact hn
  | dead h' _ _ _ => exact absurd h' hp

/-- The moments of a course on paper follow each other on the sheet. -/
theorem paper_on {env : Env} (c : Course env) {k n m : Nat} {P Q : Sheet} (hn : OnPaper env k (c.upTo n) (c.st n) P)
    (hm : OnPaper env k (c.upTo m) (c.st m) Q) (h : n ≤ m)
    (hsk : .skip ∉ history env k (init env) (c.upTo m)) : P.runs <+: Q.runs ∧ Dated P := by
  obtain ⟨ls, h1, h2⟩ := course_between c h
  have hb : Dated Sheet.blank := fun r hr => nomatch hr
  obtain ⟨R1, hs1, rfl, _⟩ := hn.sim
  obtain ⟨R2, hs2, rfl, _⟩ := hm.sim
  rw [h1, history_append _ (course_run c n)] at hsk
  rw [h1, history_append _ (course_run c n), play_append, hs1] at hs2
  exact ⟨play_on _ hs2 (fun h => hsk (List.mem_append_right _ h)), fire_dated (play_dated _ hs1 hb)⟩

/-- **Every run on the sheet is started.** In a course on paper in which the scheduler is not held up and does not
end, and no run is left out, the runs written on the sheet by moment `n` have all been started at some later moment, in this order, and
the starts that have happened before are among them. -/
theorem C79_live {env : Env} (c : Course env) (hfs : c.WeaklyFair (ByScheduler · = true)) (ht : c.Turning) {k : Nat}
    {Q : Nat → Sheet} (h : ∀ n, OnPaper env k (c.upTo n) (c.st n) (Q n))
    (hsk : ∀ n, .skip ∉ history env k (init env) (c.upTo n)) (n : Nat) :
    (∃ runs, startTicks k (c.st n).log = runs.map Prod.fst ∧ startRoutines k (c.st n).log = runs.map Prod.snd ∧
      runs <+: (Q n).runs) ∧
    c.Comes n fun s => ∃ runs, startTicks k s.log = runs.map Prod.fst ∧ startRoutines k s.log = runs.map Prod.snd ∧
      (Q n).runs <+: runs := by
  constructor
  · obtain ⟨runs, a, b, d, _⟩ := C79_always (h n)
    exact ⟨runs, a, b, d⟩
  · obtain ⟨m, hm, hlt⟩ := C71_turns c hfs ht n ((c.st n).ticks + 1)
    refine ⟨m, hm, ?_⟩
    obtain ⟨runs, a, b, _, d⟩ := C79_always (h m)
    refine ⟨runs, a, b, ?_⟩
    obtain ⟨hpre, hdated⟩ := paper_on c (h n) (h m) hm (hsk m)
    have hnow := paper_now (h n) (course_turns c ht n).2.1
    rcases d (course_turns c ht m).2.1 with d | ⟨r, d⟩
    · exact d ▸ hpre
    · rw [d] at hpre
      rcases List.prefix_concat_iff.1 hpre with he | he
      · have := hdated ((c.st m).ticks, r) (by rw [he]; simp)
        simp only at this
        omega
      · exact he

/-! ### Left alone -/

/-- No operation on `k` is queued or in progress. -/
def Aside (k : Nat) (s : St) : Prop := (∀ e ∈ s.chan, ¬ EventTouches k e) ∧ ¬ Engaged k s.epc

theorem engaged_of_busy {k : Nat} {p : EPC} (h : BusyWith k p) : Engaged k p := by
  cases p <;> first | exact h | exact h.elim

theorem aside_step {env : Env} {k : Nat} {s : St} {l : Label} {s' : St} (hs : Aside k s) (hl : ¬ Touches k l)
    (h : Act env s l s') : Aside k s' := by
  have hq := quiet_step ⟨hs.1, fun hb => hs.2 (engaged_of_busy hb)⟩ hl h
  refine ⟨hq.chan, fun he => ?_⟩
  cases hp : s'.epc with
  | add3 tag m =>
    rw [hp] at he
    have he : m.taskId = k := he
    have h2 := hs.2
    cases h
    all_goals try (exact absurd (show Engaged k s.epc by rw [show s.epc = _ from hp]; exact he) h2)
    case next_add2 t chain hand exec ts seed slot sl hx hseed hslot hw =>
      cases hp
      exact h2 (by rw [hx]; exact he)
    case next_add2_missing t chain hand exec ts seed slot hx hseed hslot hw =>
      cases hp
      exact h2 (by rw [hx]; exact he)
    all_goals (simp at hp)
  | _ => exact hq.epc (by rw [hp] at he ⊢; exact he)

theorem opOf_else {k : Nat} {e : TimerEvent} (h : ¬ EventTouches k e) : opOf k e = [] := by
  cases e <;> first | rfl | exact if_neg h

/-- From then on its history consists of ticks. -/
theorem aside_run {env : Env} {k : Nat} : ∀ (ls : List Label) {s s' : St}, Aside k s → (∀ l ∈ ls, ¬ Touches k l) →
    .skip ∉ history env k s ls → run env s ls = some s' → s.ticks ≤ s'.ticks ∧ BetweenTicks env k s ls ∧
      history env k s ls = List.replicate (s'.ticks - s.ticks) .tick ∧ Aside k s'
  | [], s, s', ha, _, _, hr => by
    cases hr
    exact ⟨Nat.le_refl _, trivial, by simp [history], ha⟩
  | l :: ls, s, s', ha, hl, hsk, hr => by
    obtain ⟨s1, h1, h2⟩ := run_cons hr
    simp only [history, h1] at hsk
    have hact := step_act h1
    have ha1 := aside_step ha (hl l List.mem_cons_self) hact
    obtain ⟨a, b, c, d⟩ := aside_run ls ha1 (fun x hx => hl x (List.mem_cons_of_mem _ hx))
      (fun h => hsk (List.mem_append_right _ h)) h2
    refine ⟨Nat.le_trans (ticks_mono hact) a, ⟨?_, fun _ => ha.2, ?_⟩, ?_, d⟩
    · intro _ e rest hc ht
      exact absurd ht (ha.1 e (by rw [hc]; simp))
    · intro s2 hs2
      rw [h1] at hs2; cases hs2
      exact b
    · simp only [history, h1, c]
      by_cases hlap : l = .tLapse
      · subst hlap
        have : s1.ticks = s.ticks + 1 := by cases hact; rfl
        rw [show s'.ticks - s.ticks = (s'.ticks - s1.ticks) + 1 by omega, List.replicate_succ]
        rfl
      · rw [ticks_apart hact hlap]
        have : sheetEvs k s l = [] := by
          cases l <;> first | rfl | exact absurd rfl hlap | skip
          · simp only [sheetEvs] at hsk ⊢
            split
            · rename_i hp
              split
              · rename_i hc
                exact absurd (List.mem_append_left _ (by rw [hp]; simp [hc])) hsk
              · rfl
            · rfl
          · simp only [sheetEvs]
            split
            · rfl
            · rename_i e rest hc
              exact opOf_else (ha.1 e (by rw [hc]; simp))
        rw [this]; rfl

theorem play_turns {clock : Nat → Nat} {k : Nat} : ∀ (j : Nat) (P : Sheet),
    ∃ R, P.play clock k (List.replicate j .tick) = some R ∧ R.fire clock false = (P.fire clock false).turns clock j
  | 0, P => ⟨P, rfl, rfl⟩
  | j + 1, P => by
    obtain ⟨R, h1, h2⟩ := play_turns (clock := clock) (k := k) j { P.fire clock false with now := P.now + 1 }
    refine ⟨R, h1, h2.trans ?_⟩
    show _ = ((P.fire clock false).turn clock).turns clock j
    unfold Sheet.turn
    rw [fire_now]

/-- What is on the sheet stays there while it is turned on. -/
theorem turns_on {clock : Nat → Nat} : ∀ (j : Nat) (P : Sheet), P.runs <+: (P.turns clock j).runs
  | 0, _ => List.prefix_rfl
  | j + 1, P => (fire_prefix clock false { P with now := P.now + 1 }).trans (turns_on j (P.turn clock))

theorem turns_dated {clock : Nat → Nat} : ∀ (j : Nat) {P : Sheet}, Dated P → Dated (P.turns clock j)
  | 0, _, h => h
  | j + 1, P, h => turns_dated j (P := P.turn clock) (fire_dated (fun r hr => Nat.le_succ_of_le (h r hr)))

theorem turns_add {clock : Nat → Nat} : ∀ (i j : Nat) (P : Sheet), P.turns clock (i + j) = (P.turns clock i).turns clock j
  | 0, j, P => by rw [Nat.zero_add]; rfl
  | i + 1, j, P => by rw [Nat.succ_add]; exact turns_add i j _

theorem turns_now {clock : Nat → Nat} : ∀ (j : Nat) (P : Sheet), (P.turns clock j).now = P.now + j
  | 0, _ => rfl
  | j + 1, P => by
    have := turns_now (clock := clock) j (P.turn clock)
    have hn : (P.turn clock).now = P.now + 1 := fire_now _ _ _
    show ((P.turn clock).turns clock j).now = _
    omega

theorem paper_stays {env : Env} {k : Nat} {ls ls2 : List Label} {s s2 : St} {Q : Sheet} (h : OnPaper env k ls s Q)
    (ha : Aside k s) (hl : ∀ l ∈ ls2, ¬ Touches k l) (hsk : .skip ∉ history env k s ls2) (hr : run env s ls2 = some s2) :
    OnPaper env k (ls ++ ls2) s2 (Q.turns env.clock (s2.ticks - s.ticks)) := by
  obtain ⟨_, b, c, _⟩ := aside_run ls2 ha hl hsk hr
  have hh : history env k (init env) (ls ++ ls2) = history env k (init env) ls ++ List.replicate (s2.ticks - s.ticks) .tick := by
    rw [history_append _ h.run, c]
  refine ⟨by rw [run_append, h.run]; exact hr, between_append _ h.run h.between b, ?_, ?_⟩
  · intro ev hev
    rw [hh] at hev
    rcases List.mem_append.1 hev with hev | hev
    · exact h.built ev hev
    · rw [List.eq_of_mem_replicate hev]; trivial
  · obtain ⟨R, h1, rfl, _⟩ := h.sim
    obtain ⟨R', h2, h3⟩ := play_turns (clock := env.clock) (k := k) (s2.ticks - s.ticks) R
    unfold Sheet.after
    rw [hh, play_append, h1]
    show Option.map _ (R.play env.clock k _) = _
    rw [h2, ← h3]; rfl

theorem course_since {env : Env} (c : Course env) {n m : Nat} (h : n ≤ m) {ls : List Label}
    (hls : c.upTo m = c.upTo n ++ ls) : ∀ l ∈ ls, ∃ i, n ≤ i ∧ c.lab i = some l := by
  induction m generalizing ls with
  | zero =>
    obtain rfl : n = 0 := by omega
    simp only [Course.upTo, List.nil_append] at hls
    subst hls
    intro l hl; cases hl
  | succ m ih =>
    by_cases hm : n = m + 1
    · subst hm
      have : ls = [] := by simpa using hls
      subst this
      intro l hl; cases hl
    · obtain ⟨ls', h1, _⟩ := course_between c (show n ≤ m by omega)
      simp only [Course.upTo, h1, List.append_assoc] at hls
      have hls := List.append_cancel_left hls
      intro l hl
      rw [← hls] at hl
      rcases List.mem_append.1 hl with hl | hl
      · exact ih (by omega) h1 l hl
      · refine ⟨m, by omega, ?_⟩
        cases hlab : c.lab m <;> rw [hlab] at hl <;> simp at hl
        rw [hl]

/-- **The timetable is kept for ever.** From moment `n` on nobody asks for anything that concerns `k`, no run is left
out, and the scheduler is not held up and does not end: then the runs of `k` are those of the sheet turned on and on, no other
and none missing. -/
theorem C79_for_ever {env : Env} (c : Course env) (hfs : c.WeaklyFair (ByScheduler · = true)) (ht : c.Turning) {k n : Nat}
    {Q : Sheet} (h : OnPaper env k (c.upTo n) (c.st n) Q) (ha : Aside k (c.st n))
    (hq : ∀ m l, n ≤ m → c.lab m = some l → ¬ Touches k l)
    (hsk : ∀ m, .skip ∉ history env k (init env) (c.upTo m)) :
    (∀ m, n ≤ m → ∃ runs, startTicks k (c.st m).log = runs.map Prod.fst ∧
      startRoutines k (c.st m).log = runs.map Prod.snd ∧ runs <+: (Q.turns env.clock ((c.st m).ticks - (c.st n).ticks)).runs) ∧
    ∀ j m, c.Comes m fun s => ∃ runs, startTicks k s.log = runs.map Prod.fst ∧
      startRoutines k s.log = runs.map Prod.snd ∧ (Q.turns env.clock j).runs <+: runs := by
  have paper : ∀ m, n ≤ m →
      OnPaper env k (c.upTo m) (c.st m) (Q.turns env.clock ((c.st m).ticks - (c.st n).ticks)) := by
    intro m hm
    obtain ⟨ls, h1, h2⟩ := course_between c hm
    have hsk' := hsk m
    rw [h1, history_append _ (course_run c n)] at hsk'
    rw [h1]
    refine paper_stays h ha ?_ (fun hx => hsk' (List.mem_append_right _ hx)) h2
    intro l hl
    obtain ⟨i, hi, hlab⟩ := course_since c hm h1 l hl
    exact hq i l hi hlab
  constructor
  · intro m hm
    obtain ⟨runs, a, b, d, _⟩ := C79_always (paper m hm)
    exact ⟨runs, a, b, d⟩
  · intro j m0
    obtain ⟨m, hm, hlt⟩ := C71_turns c hfs ht (max m0 n) ((c.st n).ticks + j + 1)
    have hlt : (c.st n).ticks + j + 1 ≤ (c.st m).ticks := hlt
    refine ⟨m, by omega, ?_⟩
    obtain ⟨runs, a, b, _, d⟩ := C79_always (paper m (by omega))
    refine ⟨runs, a, b, ?_⟩
    obtain ⟨i, hi⟩ : ∃ i, (c.st m).ticks - (c.st n).ticks = j + i := ⟨(c.st m).ticks - (c.st n).ticks - j, by omega⟩
    have hdQ : Dated Q := by
      obtain ⟨R, h1, rfl, _⟩ := h.sim
      exact fire_dated (play_dated _ h1 (fun r hr => nomatch hr))
    have hdj : Dated (Q.turns env.clock j) := turns_dated j hdQ
    have hpre := turns_on (clock := env.clock) i (Q.turns env.clock j)
    have hnow := paper_now h (course_turns c ht n).2.1
    rw [hi, turns_add] at d
    rcases d (course_turns c ht m).2.1 with d | ⟨r, d⟩
    · exact d ▸ hpre
    · rw [d] at hpre
      rcases List.prefix_concat_iff.1 hpre with he | he
      · have := hdj ((c.st m).ticks, r) (by rw [he]; simp)
        rw [turns_now] at this
        simp only at this
        omega
      · exact he

/-! ### It can happen -/

theorem between_prefix {env : Env} {k : Nat} : ∀ (l1 : List Label) {l2 : List Label} {s : St},
    BetweenTicks env k s (l1 ++ l2) → BetweenTicks env k s l1
  | [], _, _, _ => trivial
  | _ :: l1, _, _, h => ⟨h.1, h.2.1, fun s' hs => between_prefix l1 (h.2.2 s' hs)⟩

/-- What is on paper has been on paper all the time. -/
theorem paper_prefix {env : Env} {k : Nat} {l1 l2 : List Label} {s1 s2 : St} {Q : Sheet}
    (h : OnPaper env k (l1 ++ l2) s2 Q) (h1 : run env (init env) l1 = some s1) : ∃ P, OnPaper env k l1 s1 P := by
  have hh := history_append (k := k) l1 (l2 := l2) h1
  obtain ⟨R, hs, _, _⟩ := h.sim
  rw [hh, play_append] at hs
  cases hP : Sheet.blank.play env.clock k (history env k (init env) l1) with
  | none => rw [hP] at hs; cases hs
  | some P =>
    exact ⟨P.fire env.clock false, h1, between_prefix l1 h.between,
      fun ev hev => h.built ev (hh ▸ List.mem_append_left _ hev), by unfold Sheet.after; rw [hP]; rfl⟩

/-- Whoever has been told to stop is stopping. -/
theorem stop_kept {env : Env} {ls : List Label} {s : St} (h : run env (init env) ls = some s) (hs : .uSend .stop ∈ ls) :
    .stopTimer ∈ s.chan ∨ s.motivation = false := by
  refine handed_induct (fun ls s => .uSend .stop ∈ ls → .stopTimer ∈ s.chan ∨ s.motivation = false)
    (fun h => nomatch h) ?_ ls s h hs
  intro ls s l s' _ ih ha hx
  rcases List.mem_append.1 hx with hx | hx
  · rcases ih hx with h | h
    · rcases chan_step ha with ⟨_, hc | ⟨e, hc, _⟩⟩ | ⟨rfl, _, e, hc⟩ | ⟨_, hc⟩
      · exact Or.inl (hc ▸ h)
      · exact Or.inl (hc ▸ List.mem_append_left _ h)
      · rw [hc] at h
        rcases List.mem_cons.1 h with h | h
        · subst h
          right
          have hh : s.chan.head? = some .stopTimer := by rw [hc]; rfl
          clear hc h
          cases ha <;> first | rfl | (rw [‹s.chan = _›] at hh; cases hh)
        · exact Or.inl h
      · exact Or.inl (hc ▸ h)
    · right
      cases ha <;> first | exact h | rfl | (simp; exact h)
  · rw [List.mem_singleton] at hx
    subst hx
    left
    cases ha
    simp [push, UserOp.event]

theorem spawn_panics {env : Env} {ls : List Label} {s : St} (h : run env (init env) ls = some s) (hs : .tSpawn true ∈ ls) :
    s.tpc = .panicked := by
  refine handed_induct (fun ls s => .tSpawn true ∈ ls → s.tpc = .panicked) (fun h => nomatch h) ?_ ls s h hs
  intro ls s l s' _ ih ha hx
  rcases List.mem_append.1 hx with hx | hx
  · exact dead_step ha (ih hx)
  · rw [List.mem_singleton] at hx
    subst hx
    cases ha
    rfl

/-- **Every timetable can be kept for ever.** Whatever sheet is written with plain tasks of the id `k`: with overflow
checks off there is a fair execution without end that has this history of `k`, and starts from then on what the sheet
says, all of it and nothing else. -/
theorem C79_unending {env : Env} (ho : env.overflowChecks = false) {k : Nat} (es : List SheetEv)
    (hn : ∀ ev ∈ es, Names k ev) (hp : ∀ ev ∈ es, ev.Plain) {Q : Sheet}
    (hQ : Sheet.after env.clock k es = some Q) :
    ∃ c : Course env, c.Fair ∧ c.Turning ∧ (∀ m, ∃ P, OnPaper env k (c.upTo m) (c.st m) P) ∧
      (∀ m, .skip ∉ history env k (init env) (c.upTo m)) ∧ ∃ n, history env k (init env) (c.upTo n) = es ∧ (c.st n).ticks = Q.now ∧
      startTicks k (c.st n).log = Q.runs.map Prod.fst ∧ startRoutines k (c.st n).log = Q.runs.map Prod.snd ∧
      (∀ m, n ≤ m → ∃ runs, startTicks k (c.st m).log = runs.map Prod.fst ∧
        startRoutines k (c.st m).log = runs.map Prod.snd ∧
        runs <+: (Q.turns env.clock ((c.st m).ticks - Q.now)).runs) ∧
      ∀ j m, c.Comes m fun s => ∃ runs, startTicks k s.log = runs.map Prod.fst ∧
        startRoutines k s.log = runs.map Prod.snd ∧ (Q.turns env.clock j).runs <+: runs := by
  obtain ⟨s0, d0, h0⟩ := pause (env := env) (k := k) ho (s := init env) ⟨[], rfl⟩ rfl rfl rfl rfl
    (copies_init env _ _ k)
  obtain ⟨s, d, hrdy⟩ := realize ho es h0 hn (fun ev h => (hp ev h).2)
  obtain ⟨pre, h1, h2, h3, h3'⟩ := d0.trans d
  have h3 : history env k (init env) pre = es := h3
  obtain ⟨c, hpre, hst, hf, _, hun⟩ := fair_course h1
  have hpaper : OnPaper env k pre s Q := ⟨h1, h2, h3 ▸ fun ev h => (hp ev h).1, h3 ▸ hQ⟩
  have hasked : ∀ m l, c.lab m = some l → l ∈ pre ∨ Unasked l := fun m l hl =>
    unasked_upTo hpre hun ((mem_upTo c (m + 1)).2 ⟨m, by omega, hl⟩)
  have hsk : ∀ m, .skip ∉ history env k (init env) (c.upTo m) := by
    refine fun m => C79_no_skip (course_run c m) fun t hx => ?_
    obtain ⟨l, hl, hx⟩ := List.mem_flatMap.1 hx
    rcases unasked_upTo hpre hun hl with h | h
    · exact h3' t (List.mem_flatMap.2 ⟨l, h, hx⟩)
    · cases l <;> first | (cases hx) | exact h.elim
  have ht : c.Turning := by
    refine C71_turning c ?_ ?_ ?_
    · intro m hm
      rcases hasked m _ hm with h | h
      · rcases stop_kept h1 h with h | h
        · rw [hrdy.chan] at h; cases h
        · rw [hrdy.going] at h; cases h
      · exact h
    · intro m hm
      rcases hasked m _ hm with h | h
      · have := spawn_panics h1 h
        rw [hrdy.tpc] at this; cases this
      · exact h
    · intro _ _ _ _ _ h
      rw [ho] at h; cases h
  have ha : Aside k (c.st pre.length) := by
    rw [hst]
    exact ⟨by rw [hrdy.chan]; simp, by rw [hrdy.epc]; exact id⟩
  have hquiet : ∀ m l, pre.length ≤ m → c.lab m = some l → ¬ Touches k l := fun m l hm hl htch => by
    have := hun m l hm hl
    cases l <;> first | exact htch | exact this
  obtain ⟨e1, e2, e3, _⟩ := C79 hpaper hrdy.tpc (by rw [hrdy.epc]; exact id)
  obtain ⟨f1, f2⟩ := C79_for_ever c hf.scheduler ht (by rw [hpre, hst]; exact hpaper) ha hquiet hsk
  rw [hst, e1] at f1
  refine ⟨c, hf, ht, fun m => ?_, hsk, pre.length, by rw [hpre]; exact h3, by rw [hst]; exact e1, by rw [hst]; exact e2,
    by rw [hst]; exact e3, f1, f2⟩
  obtain ⟨ls, g1, _⟩ := course_between c (Nat.le_max_left m pre.length)
  obtain ⟨ls2, g2, g3⟩ := course_between c (Nat.le_max_right m pre.length)
  have g4 := paper_stays (Q := Q) (ls := c.upTo pre.length) (by rw [hpre, hst]; exact hpaper) ha (fun l hl htch =>
    let ⟨i, hi, hlab⟩ := course_since c (Nat.le_max_right m pre.length) g2 l hl
    hquiet i l hi hlab htch) (fun hx => by
      have := hsk (max m pre.length)
      rw [g2, history_append _ (course_run c pre.length)] at this
      exact this (List.mem_append_right _ hx)) g3
  rw [← g2, g1] at g4
  exact paper_prefix g4 (course_run c m)

/-! ### Examples -/

namespace Ex

/-- Task 5, every four seconds; its third run is brought forward. -/
def steady : List SheetEv :=
  [.op (.add (every 5 103 4)), .tick, .tick, .tick, .tick, .tick, .tick, .tick, .tick, .tick, .op .advance]

theorem steady_ok : ∀ ev ∈ steady, Names 5 ev ∧ ev.Plain := by
  intro ev h
  simp only [steady, List.mem_cons, List.not_mem_nil, or_false] at h
  rcases h with h | h | h | h | h | h | h | h | h | h | h <;> subst h <;>
    first | exact ⟨trivial, trivial, trivial⟩ | exact ⟨rfl, ⟨rfl, rfl, (fun h => nomatch h)⟩, rfl⟩

theorem steady_after : ∃ Q, Sheet.after env0.clock 5 steady = some Q ∧ Q.now = 9 ∧
    Q.runs = [(4, 5), (8, 5)] ∧ (Q.turns env0.clock 11).runs = [(4, 5), (8, 5), (10, 5), (16, 5), (20, 5)] := by
  have h : (Sheet.after env0.clock 5 steady).map (fun Q => (Q.now, Q.runs, (Q.turns env0.clock 11).runs)) =
    some (9, [(4, 5), (8, 5)], [(4, 5), (8, 5), (10, 5), (16, 5), (20, 5)]) := by decide +kernel
  obtain ⟨Q, h1, h2⟩ := Option.map_eq_some_iff.1 h
  simp only [Prod.mk.injEq] at h2
  exact ⟨Q, h1, h2⟩

example : ∃ c : Course env0, c.Fair ∧ c.Turning ∧ ∃ n, (c.st n).ticks = 9 ∧ startTicks 5 (c.st n).log = [4, 8] ∧
    c.Comes n fun s => [4, 8, 10, 16, 20] <+: startTicks 5 s.log := by
  obtain ⟨Q, hQ, q1, q2, q3⟩ := steady_after
  obtain ⟨c, h1, h2, _, _, n, _, h3, h4, _, _, h5⟩ := C79_unending (env := env0) rfl steady (fun ev h => (steady_ok ev h).1)
    (fun ev h => (steady_ok ev h).2) hQ
  refine ⟨c, h1, h2, n, h3.trans q1, by rw [h4, q2]; rfl, ?_⟩
  obtain ⟨m, hm, runs, a, _, d⟩ := h5 11 n
  refine ⟨m, hm, ?_⟩
  rw [q3] at d
  show _ <+: startTicks 5 (c.st m).log
  rw [a]
  exact d.map Prod.fst

/-- The hypotheses of `C79_live` are met. -/
example : ∃ (c : Course env0) (Q : Nat → Sheet), c.WeaklyFair (ByScheduler · = true) ∧ c.Turning ∧
    (∀ n, OnPaper env0 5 (c.upTo n) (c.st n) (Q n)) ∧ (∀ n, .skip ∉ history env0 5 (init env0) (c.upTo n)) ∧
    ∃ n, startTicks 5 (c.st n).log = [4, 8] := by
  obtain ⟨Q, hQ, _, q2, _⟩ := steady_after
  obtain ⟨c, h1, h2, hp, hsk, n, _, _, h4, _⟩ := C79_unending (env := env0) rfl steady (fun ev h => (steady_ok ev h).1)
    (fun ev h => (steady_ok ev h).2) hQ
  exact ⟨c, fun m => (hp m).choose, h1.scheduler, h2, fun m => (hp m).choose_spec, hsk, n, by rw [h4, q2]; rfl⟩

end Ex
end DelayTimer
