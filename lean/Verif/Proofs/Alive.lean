import Verif.Proofs.Asked

/-! What can kill the scheduler thread. -/

namespace DelayTimer
open Spec

theorem Copies.map {P Q P' Q' : Task → Prop} {k : Nat} {s : St} (h : Copies P Q k s) (hP : ∀ t, P t → P' t)
    (hQ : ∀ t, Q t → Q' t) : Copies P' Q' k s :=
  ⟨fun t x => hP t (h.chan t x), fun t a b => hP t (h.upd t a b), fun t x => hP t (h.epc t x),
    fun i t x => hP t (h.wheel i t x), fun t x => hP t (h.held t x), fun t x => hQ t (h.started t x)⟩

/-- A count of zero is one that was handed in. -/
def ZeroStems (H : List Task) (t : Task) : Prop := runsLeft t = some 0 → ∃ t0 ∈ H, runsLeft t0 = some 0

theorem down_true_ne {t t' : Task} {c : Bool} (h : t.downCountAndSetValid c = some (true, t')) :
    runsLeft t' ≠ some 0 := by
  intro h0
  unfold Task.downCountAndSetValid at h
  split at h
  · cases h
  · rename_i f _
    simp only [Option.some.injEq, Prod.mk.injEq] at h
    obtain ⟨h1, rfl⟩ := h
    cases f <;> simp_all [runsLeft, FrequencyInner.isDownOver]

theorem down_none {t : Task} {c : Bool} (h : t.downCountAndSetValid c = none) : c = true ∧ runsLeft t = some 0 := by
  unfold Task.downCountAndSetValid at h
  cases hf : t.frequency <;> cases c <;> simp_all [FrequencyInner.downCount, decU64, runsLeft]
  all_goals grind

theorem zeroStems {env : Env} {ls : List Label} {s : St} (h : run env (init env) ls = some s) (k : Nat) :
    Copies (ZeroStems (handed k ls)) (ZeroStems (handed k ls)) k s := by
  refine handed_induct (fun ls s => Copies (ZeroStems (handed k ls)) (ZeroStems (handed k ls)) k s)
    (Nobody.init env k).copies ?_ ls s h
  intro ls s l s' _ hs ha
  have hm : ∀ t, ZeroStems (handed k ls) t → ZeroStems (handed k (ls ++ [l])) t := by
    intro t ht h0
    obtain ⟨t0, h1, h2⟩ := ht h0
    exact ⟨t0, by rw [handed_append]; exact List.mem_append_left _ h1, h2⟩
  refine copies_step ?_ ?_ ?_ (fun _ h => h) ?_ (hs.map hm hm) ha
  · exact fun t c ht h0 => ht h0
  · exact fun t ht h0 => ht (by rw [← runsLeft_ask]; exact h0)
  · exact fun t t' _ hd h0 => absurd h0 (down_true_ne hd)
  · intro t ht h0
    exact ⟨t, by rw [handed_append]; exact List.mem_append_right _ (by simpa [handed] using ht), h0⟩

theorem attempts_length (k : Nat) : ∀ log : List Obs, (attempts k log).length ≤ log.length := by
  intro log
  induction log with
  | nil => simp [attempts]
  | cons o log ih =>
    unfold attempts
    split <;> (repeat' split) <;> simp_all <;> omega

theorem attempts_mono {env : Env} {s s' : St} {l : Label} (k : Nat) (h : Act env s l s') :
    (attempts k s.log).length ≤ (attempts k s'.log).length := by
  rcases attempts_step k h with h | ⟨_, _, _, _, _, h⟩ <;> rw [h] <;> simp [attempts]

theorem killed_mono {env : Env} {ls : List Label} {s s' : St} {l : Label} (h : Killed env ls s.log)
    (ha : Act env s l s') : Killed env (ls ++ [l]) s'.log := by
  rcases h with h | ⟨h1, ⟨k, rtn, rec, n, ts, h2, t, h3, h4⟩ | ⟨k, h2, t, h3, h4⟩⟩
  · exact Or.inl (List.mem_append_left _ h)
  · exact Or.inr ⟨h1, Or.inl ⟨k, rtn, rec, n, ts, log_mono ha h2, t, by
      rw [handed_append]; exact List.mem_append_left _ h3, h4⟩⟩
  · have hle := attempts_mono k ha
    refine Or.inr ⟨h1, Or.inr ⟨k, ?_, t, by rw [handed_append]; exact List.mem_append_left _ h3,
      fun hf => h4 (fits_mono hf (by omega))⟩⟩
    intro hx
    rw [hx] at hle
    exact h2 (List.length_eq_zero_iff.1 (by simpa using hle))

theorem panicked_why {env : Env} {ls : List Label} {s : St} (h : run env (init env) ls = some s)
    (hp : s.tpc = .panicked) : Killed env ls s.log := by
  refine handed_induct (fun ls s => s.tpc = .panicked → Killed env ls s.log) ?_ ?_ ls s h hp
  · intro h; cases h
  · intro ls s l s' hr hs ha hp'
    have hm := fun {o : Obs} => log_mono ha (o := o)
    have hx : (s.tpc = .panicked) ∨ l = .tSpawn true ∨
        (∃ p t rec, s.tpc = .gate p t rec ∧ t.downCountAndSetValid env.overflowChecks = none) := by
      cases ha
      case spawn_panic => exact Or.inr (Or.inl rfl)
      case gate_panic p t rec hg hd => exact Or.inr (Or.inr ⟨p, t, rec, hg, hd⟩)
      all_goals first
        | (simp at hp'; done)
        | exact Or.inl hp'
        | (left; simpa using hp')
    rcases hx with hx | rfl | ⟨p, t, rec, hg, hd⟩
    · exact killed_mono (hs hx) ha
    · exact Or.inl (by simp)
    · obtain ⟨ho, h0⟩ := down_none hd
      obtain ⟨t0, h1, h2⟩ := (zeroStems hr t.taskId).started t (by rw [hg]; simp [startedTok]) h0
      obtain ⟨_, r, hrt, hid⟩ := (rtOk ⟨_, hr⟩).gate p t rec hg
      obtain ⟨⟨n, ts, h3⟩, _⟩ := (rtOk ⟨_, hr⟩).rt rec r hrt
      rw [hid] at h3
      exact Or.inr ⟨ho, Or.inl ⟨_, _, _, _, _, hm h3, t0, by
        rw [handed_append]; exact List.mem_append_left _ h1, Or.inl h2⟩⟩

theorem crashed_why {env : Env} {ls : List Label} {s : St} (h : run env (init env) ls = some s)
    (hc : Crashed env s) : Killed env ls s.log := by
  obtain ⟨ho, ⟨p, t, box, m, hp, hm, hb⟩ | ⟨p, t, upd, hp, hf⟩⟩ := hc
  · obtain ⟨_, ⟨rtn, n, h1⟩, _⟩ := (rtOk ⟨_, h⟩).app p t box hp
    obtain ⟨t0, h2, _, h3, _⟩ := (stems h t.taskId).started t (by rw [hp]; simp [startedTok])
    exact Or.inr ⟨ho, Or.inl ⟨_, _, _, _, _, h1, t0, h2, Or.inr ⟨m, h3.trans hm, hb⟩⟩⟩
  · obtain ⟨t0, h2, h3⟩ := (asked h t.taskId).held t (by rw [hp]; simp [tpcTok])
    obtain ⟨A, hA⟩ := (handOk ⟨_, h⟩).last t.taskId (by rw [hp]; simp [tpcTok])
    exact Or.inr ⟨ho, Or.inr ⟨t.taskId, by rw [hA]; simp, t0, h2, fun hx => hf (h3 1 hx)⟩⟩

/-- The start times in the log are what the clock showed. -/
theorem started_clock {env : Env} {s : St} (hr : Reachable env s) : ∀ k rtn rec n ts,
    .started k rtn rec n ts ∈ s.log → ts = env.clock n := by
  refine Reachable.induct (fun s => ∀ k rtn rec n ts, .started k rtn rec n ts ∈ s.log → ts = env.clock n) ?_ ?_ s hr
  · intro k rtn rec n ts h; cases h
  · intro s l s' _ hs ha k rtn rec n ts h
    rcases log_cases ha with ⟨o, hn, hmi, _⟩ | ⟨p, t, rec', box', rfl, hp, hp', hb, hn, _⟩ | ⟨e'', _, hn, _⟩ |
      ⟨u, now, o, rfl, _, _, hn⟩ | ⟨rec', r, rfl, _, hn, _⟩
    all_goals rw [hn] at h
    · rcases List.mem_append.1 h with h | h
      · exact (hmi _ h).elim
      · exact hs _ _ _ _ _ h
    all_goals (simp only [List.mem_cons, reduceCtorEq, false_or] at h)
    · rcases h with h | h
      · cases h; rfl
      · exact hs _ _ _ _ _ h
    all_goals exact hs _ _ _ _ _ h

theorem safe_split {env : Env} {n : Nat} {t : Task} (h : Safe env 0 t) (hf : env.overflowChecks = true → AlarmsFit n t) :
    Safe env n t := fun ho => ⟨(h ho).1, (h ho).2.1, hf ho⟩

/-- If only safe tasks have been handed in, the scheduler never comes across another. -/
theorem sound_of_handed {env : Env} {ls : List Label} {s : St} {n : Nat} (h : run env (init env) ls = some s)
    (hsafe : ∀ k, ∀ t ∈ handed k ls, Safe env ((attempts k s.log).length + n + 2) t) : Sound env n s := by
  have hc : ∀ k, Copies (Safe env 0) (Safe env 0) k s := by
    intro k
    refine handed_induct (fun ls s => (∀ t ∈ handed k ls, Safe env 0 t) → Copies (Safe env 0) (Safe env 0) k s)
      (fun _ => (Nobody.init env k).copies) ?_ ls s h (fun t ht => safe_mono (hsafe k t ht) (by omega))
    intro ls s l s' _ hs ha hl
    refine copies_step (fun t c ht => ht) ?_
      (fun t t' ht hd => safe_again ht hd) (fun _ h => h) ?_ (hs ?_) ha
    · intro t ht ho
      rw [runsLeft_ask, asked_limit]
      exact ⟨(ht ho).1, (ht ho).2.1, fun j hj => by omega⟩
    · intro t ht
      exact hl t (by rw [handed_append]; exact List.mem_append_right _ (by simpa [handed] using ht))
    · intro t ht
      exact hl t (by rw [handed_append]; exact List.mem_append_left _ ht)
  have ha := asked h
  have hfit : ∀ {k m : Nat} {t : Task}, Asked (handed k ls) m t → m ≤ (attempts k s.log).length + 1 →
      env.overflowChecks = true → AlarmsFit (n + 1) t := by
    rintro k m t ⟨t0, h1, h2⟩ hm ho
    exact h2 _ (fits_mono (hsafe k t0 h1 ho).2.2 (by omega))
  have hw : ∀ k i t, inWheel s.wheel k i t → Safe env (n + 1) t := fun k i t hi =>
    safe_split ((hc k).wheel i t hi) (hfit ((ha k).wheel i t hi) (by omega))
  have hheld : ∀ t, holding s.tpc = some t → Safe env (n + 1) t := by
    intro t ht
    have htok : t ∈ tpcTok t.taskId s.tpc := by
      cases hp : s.tpc <;> rw [hp] at ht <;> cases ht <;> simp [tpcTok]
    refine safe_split ?_ (hfit ((ha t.taskId).held t htok) (by omega))
    cases hp : s.tpc <;> rw [hp] at ht <;> cases ht
    case append.refl => exact (hc t.taskId).started t (by rw [hp]; simp [startedTok])
    case gate.refl => exact (hc t.taskId).started t (by rw [hp]; simp [startedTok])
    all_goals exact (hc t.taskId).held t (by rw [hp]; simp [heldTok])
  refine ⟨wheelOk ⟨_, h⟩, pendOk ⟨_, h⟩, fun k i t hi => safe_mono (hw k i t hi) (by omega), fun k i t hi _ => hw k i t hi,
    hheld, fun t ht => ?_, ?_⟩
  · refine (handOk ⟨_, h⟩).notPending _ ?_
    cases hp : s.tpc <;> rw [hp] at ht <;> cases ht <;> simp [tpcTok]
  · rintro ⟨ho, ⟨p, t, box, m, hp, hm, hb⟩ | ⟨p, t, upd, hp, hf⟩⟩
    · obtain ⟨_, ⟨rtn, n, h1⟩, _⟩ := (rtOk ⟨_, h⟩).app p t box hp
      rw [started_clock ⟨_, h⟩ _ _ _ _ _ h1] at hb
      have := (((hc t.taskId).started t (by rw [hp]; simp [startedTok])) ho).2.1 m hm n
      omega
    · exact hf (fits_one (hheld t (by rw [hp]; rfl) ho).2.2)

theorem zero_down {t : Task} (h : runsLeft t = some 0) : t.downCountAndSetValid true = none := by
  unfold Task.downCountAndSetValid
  cases hf : t.frequency <;> simp_all [FrequencyInner.downCount, decU64, runsLeft]

/-- With overflow checks a count of zero stays. -/
theorem zeros {env : Env} {ls : List Label} {s : St} {k : Nat} (ho : env.overflowChecks = true)
    (h : run env (init env) ls = some s) (hz : ∀ t ∈ handed k ls, runsLeft t = some 0) :
    Copies (fun t => runsLeft t = some 0) (fun t => runsLeft t = some 0) k s := by
  refine handed_induct (fun ls s => (∀ t ∈ handed k ls, runsLeft t = some 0) →
    Copies (fun t => runsLeft t = some 0) (fun t => runsLeft t = some 0) k s)
    (fun _ => (Nobody.init env k).copies) ?_ ls s h hz
  intro ls s l s' _ hs ha hl
  refine copies_step (fun t c ht => ht) (fun t ht => (runsLeft_ask t).trans ht) ?_ (fun _ h => h) ?_ (hs ?_) ha
  · intro t t' ht hd
    rw [ho, zero_down ht] at hd
    cases hd
  · intro t ht
    exact hl t (by rw [handed_append]; exact List.mem_append_right _ (by simpa [handed] using ht))
  · intro t ht
    exact hl t (by rw [handed_append]; exact List.mem_append_left _ ht)

/-! ## Stopping -/

theorem stop_why {env : Env} {ls : List Label} {s : St} (h : run env (init env) ls = some s) :
    (.stopTimer ∈ s.chan ∨ s.motivation = false ∨ s.tpc = .halted) → .uSend .stop ∈ ls := by
  refine handed_induct (fun ls s => (.stopTimer ∈ s.chan ∨ s.motivation = false ∨ s.tpc = .halted) →
    .uSend .stop ∈ ls) ?_ ?_ ls s h
  · rintro (h | h | h) <;> cases h
  · intro ls s l s' hr hs ha hx
    have hc : .stopTimer ∈ s'.chan → .uSend .stop ∈ ls ++ [l] := by
      intro he
      rcases chan_sub ha he with h1 | ⟨_, _, _, _, _, h1⟩ | ⟨_, _, _, _, _, _, _, h1⟩ | ⟨op, rfl, h1⟩ | ⟨_, _, _, h1⟩ |
        ⟨_, _, _, h1⟩ | ⟨_, _, h1⟩ <;> try (cases h1; done)
      · exact List.mem_append_left _ (hs (Or.inl h1))
      · cases op <;> cases h1
        simp
    rcases hx with hx | hx
    · exact hc hx
    · refine List.mem_append_left _ (hs ?_)
      cases ha
      case recv_stop rest he hch => exact Or.inl (by rw [hch]; simp)
      case load_halt hp hm => exact Or.inr (Or.inl hm)
      all_goals first
        | exact Or.inr hx
        | (refine Or.inr ?_; simpa using hx)
        | (refine Or.inr ?_; simp at hx; first | exact Or.inl hx | exact hx)

/-- Unless the scheduler thread is gone, it has something to do. -/
theorem scheduler_next {env : Env} {s : St} (hh : s.tpc ≠ .halted) (hp : s.tpc ≠ .panicked)
    (hc : ¬ Crashed env s) : ∃ l s', ByScheduler l = true ∧ step env s l = some s' := by
  cases h : s.tpc with
  | head =>
    cases hm : s.motivation with
    | true => exact ⟨.tLoad, _, rfl, by simp only [step, tLoad, h, hm, if_true]; rfl⟩
    | false => exact ⟨.tLoad, _, rfl, by simp only [step, tLoad, h, hm, Bool.false_eq_true, if_false]; rfl⟩
  | store => exact ⟨.tStore, _, rfl, by simp only [step, tStore, h]; rfl⟩
  | arrive =>
    obtain ⟨s', h1⟩ : ∃ s', step env s .tArrive = some s' := by
      simp only [step, tArrive, h]; split <;> exact ⟨_, rfl⟩
    exact ⟨_, s', rfl, h1⟩
  | batch p =>
    cases p with
    | nil => exact ⟨.tLapse, _, rfl, by simp only [step, tLapse, h]; rfl⟩
    | cons id rest =>
      obtain ⟨s', h1⟩ : ∃ s', step env s (.tPop id) = some s' := by
        simp only [step, tPop, h, List.mem_cons, true_or, if_true]
        (repeat' split) <;> exact ⟨_, rfl⟩
      exact ⟨_, s', rfl, h1⟩
  | check p t =>
    obtain ⟨rec, hlt⟩ := exists_fresh env s.recs
    obtain ⟨s', h1⟩ : ∃ s', step env s (.tCheck rec) = some s' := by
      simp only [step, tCheck, h, if_pos hlt]
      (repeat' split) <;> exact ⟨_, rfl⟩
    exact ⟨_, s', rfl, h1⟩
  | spawn p t rec => exact ⟨.tSpawn false, _, rfl, by simp only [step, tSpawn, h]; rfl⟩
  | append p t box =>
    exact ⟨.tAppend, _, rfl, by simp only [step, tAppend, h, limit_ok hc h, Bool.false_eq_true, if_false]; rfl⟩
  | gate p t rec =>
    obtain ⟨s', h1⟩ : ∃ s', step env s .tGate = some s' := by
      simp only [step, tGate, h]
      (repeat' split) <;> exact ⟨_, rfl⟩
    exact ⟨_, s', rfl, h1⟩
  | rearm p t upd =>
    obtain ⟨s', h1⟩ : ∃ s', step env s .tSlot = some s' := by
      simp only [step, tSlot, h, alarm_ok hc h, Bool.false_eq_true, if_false]
      (repeat' split) <;> exact ⟨_, rfl⟩
    exact ⟨_, s', rfl, h1⟩
  | mark p id slot upd =>
    obtain ⟨s', h1⟩ : ∃ s', step env s .tMark = some s' := by
      simp only [step, tMark, h]
      (repeat' split) <;> exact ⟨_, rfl⟩
    exact ⟨_, s', rfl, h1⟩
  | halted => exact absurd h hh
  | panicked => exact absurd h hp

end DelayTimer
