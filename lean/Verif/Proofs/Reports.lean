import Verif.Proofs.Trace

/-! RunEnded runs and public events. -/

namespace DelayTimer
open Spec

theorem queuedTags_append (a b : List Obs) : queuedTags (a ++ b) = queuedTags b ++ queuedTags a := by
  induction a with
  | nil => simp [queuedTags]
  | cons o a ih => cases o <;> simp [queuedTags, ih]

theorem EndKind.mem_endTags (k : EndKind) (id : Nat) (rec : Int) : k.tag id rec ∈ endTags id rec := by
  cases k <;> simp [EndKind.tag, endTags]

theorem mem_endTags {t : Tag} {id : Nat} {rec : Int} (h : t ∈ endTags id rec) : ∃ k : EndKind, t = k.tag id rec := by
  simp only [endTags, List.mem_cons, List.not_mem_nil, or_false] at h
  rcases h with rfl | rfl | rfl
  · exact ⟨.cancel, rfl⟩
  · exact ⟨.timeout, rfl⟩
  · exact ⟨.finish, rfl⟩

/-- Dispatch of an event: what a step adds to the history of dispatched events. -/
theorem dispatch_cases {env : Env} {s : St} {l : Label} {s' : St} (hr : Reachable env s) (h : Act env s l s') :
    (∃ k id rec r rest s2 e, s.epc = .idle ∧ s.chan = e :: rest ∧ e.tag = k.tag id rec ∧
      Ending env { s with chan := rest } k id rec r s2 ∧ l = .eRecv ∧
      s' = done env s2 (k.tag id rec) (publicOf e) r) ∨
    (∃ id box rest, s.epc = .idle ∧ s.chan = .appendTaskHandle id box :: rest ∧ l = .eRecv ∧
      s' = done env (maintainTaskStatus { s with chan := rest } id box) (.append id box.recordId)
        (some (.runningTask box.taskId box.recordId)) (some true)) ∨
    (∃ tag r, (∀ id rec, tag ∉ endTags id rec) ∧ (∀ id rec, tag ≠ .append id rec) ∧
      s'.log = .dispatched tag r :: s.log ∧ s'.trace = s.trace ∧
      ((∃ id, tag = .remove id ∧ env.statusReport = true ∧ r = some true ∧ s'.reports = s.reports ++ [.removeTask id]) ∨
       (s'.reports = s.reports ∧ ((∀ id, tag ≠ .remove id) ∨ env.statusReport = false ∨ r ≠ some true)))) ∨
    (s'.reports = s.reports ∧ s'.trace = s.trace ∧ ∃ news, s'.log = news ++ s.log ∧
      ∀ o ∈ news, (∀ t r, o ≠ .dispatched t r) ∧ (∀ i q, o ≠ .stopped i q)) := by
  cases h
  case recv_cancel id rec rest he hc =>
    exact Or.inl ⟨.cancel, id, rec, _, rest, _, _, he, hc, rfl, Ending.of_cancel env _ id rec, rfl, rfl⟩
  case recv_timeout id rec rest he hc =>
    exact Or.inl ⟨.timeout, id, rec, _, rest, _, _, he, hc, rfl, Ending.of_timeout env _ id rec, rfl, rfl⟩
  case recv_finish b rest he hc =>
    exact Or.inl ⟨.finish, b.taskId, b.recordId, _, rest, _, _, he, hc, rfl, Ending.of_finish env _ _ _, rfl, rfl⟩
  case recv_append id box rest he hc =>
    exact Or.inr (Or.inl ⟨id, box, rest, he, hc, rfl, rfl⟩)
  case next_add3 tag m he =>
    refine Or.inr (Or.inr (Or.inl ⟨tag, some true, ?_, ?_, by simp, by simp, Or.inr ⟨?_, ?_⟩⟩))
    · rcases add3Tag hr he with ⟨h, _⟩ | ⟨c, h, _⟩ <;> simp [h, endTags]
    · rcases add3Tag hr he with ⟨h, _⟩ | ⟨c, h, _⟩ <;> simp [h]
    · cases hb : env.statusReport <;> simp [done, hb]
    · left; rcases add3Tag hr he with ⟨h, _⟩ | ⟨c, h, _⟩ <;> simp [h]
  case next_add1_err t chain hand he hn =>
    refine Or.inr (Or.inr (Or.inl ⟨addTag t chain, none, ?_, ?_, by simp, by simp, Or.inr ⟨?_, ?_⟩⟩))
    · cases chain <;> simp [addTag, endTags]
    · cases chain <;> simp [addTag]
    · cases hb : env.statusReport <;> simp [done, hb]
    · right; right; simp
  case next_remove id ok he =>
    refine Or.inr (Or.inr (Or.inl ⟨.remove id, _, by simp [endTags], by simp, by simp only [done_log, dropMark_log]; rfl, by simp, ?_⟩))
    cases hb : env.statusReport
    · right; exact ⟨by simp [done, hb], by simp⟩
    · cases ok
      · right; exact ⟨by simp [done, hb], by simp⟩
      · left; exact ⟨id, rfl, rfl, rfl, by simp [done, hb]⟩
  all_goals try (
    refine Or.inr (Or.inr (Or.inr ⟨rfl, rfl, [], rfl, ?_⟩)); simp; done)
  all_goals try (
    refine Or.inr (Or.inr (Or.inr ⟨rfl, rfl, [_], rfl, ?_⟩)); simp; done)
  all_goals try (
    refine Or.inr (Or.inr (Or.inr ⟨rfl, rfl, [_, _], rfl, ?_⟩)); simp; done)
  all_goals
    apply Or.inr; apply Or.inr; apply Or.inl
    refine ⟨_, _, ?_, ?_, by simp only [done_log]; rfl, by simp, Or.inr ⟨?_, ?_⟩⟩
    · simp [endTags]
    · simp
    · cases hb : env.statusReport <;> simp [done, hb]
    · left; simp

/-- Reported events, oldest first. -/
def reported : List Obs → List Tag
  | [] => []
  | .dispatched t (some true) :: log =>
    match t with
    | .remove _ | .append .. | .finish .. | .timeout .. => reported log ++ [t]
    | _ => reported log
  | _ :: log => reported log

structure RepOk (env : Env) (s : St) : Prop where
  reps : env.statusReport = true → s.reports.map pubTag = reported s.log
  off : env.statusReport = false → s.reports = []
  app : ∀ id rec, .append id rec ∈ dispatchedTags s.log → .append id rec ∈ reported s.log
  sub : (reported s.log).Sublist (dispatchedTags s.log)
  ends : ∀ id rec, (reported s.log).count (.finish id rec) + (reported s.log).count (.timeout id rec) ≤
    s.log.count (.stopped id rec)
  first : ∀ l1 l2 x id rec, reported s.log = l1 ++ x :: l2 → x = .finish id rec ∨ x = .timeout id rec →
    .append id rec ∈ l1
  ended : ∀ id rec, RunEnded id rec s.log ↔ .stopped id rec ∈ s.log

theorem RunEnded.mono {id : Nat} {rec : Int} {log news : List Obs} (h : RunEnded id rec log) : RunEnded id rec (news ++ log) := by
  obtain ⟨l1, l2, tag, r, h1, h2, h3⟩ := h
  exact ⟨news ++ l1, l2, tag, r, by rw [h1]; simp, h2, h3⟩

theorem ended_cons {id : Nat} {rec : Int} {o : Obs} {log : List Obs} :
    RunEnded id rec (o :: log) ↔ RunEnded id rec log ∨
      ∃ tag r, o = .dispatched tag r ∧ tag ∈ endTags id rec ∧ .append id rec ∈ dispatchedTags log := by
  constructor
  · rintro ⟨l1, l2, tag, r, h1, h2, h3⟩
    cases l1 with
    | nil => cases h1; exact Or.inr ⟨tag, r, rfl, h2, h3⟩
    | cons p l1 => cases h1; exact Or.inl ⟨l1, l2, tag, r, rfl, h2, h3⟩
  · rintro (h | ⟨tag, r, rfl, h2, h3⟩)
    · exact RunEnded.mono (news := [o]) h
    · exact ⟨[], log, tag, r, rfl, h2, h3⟩

theorem ended_quiet {id : Nat} {rec : Int} {news log : List Obs}
    (h : ∀ o ∈ news, (∀ t r, o ≠ .dispatched t r) ∧ (∀ i q, o ≠ .stopped i q)) :
    (RunEnded id rec (news ++ log) ↔ RunEnded id rec log) ∧ dispatchedTags (news ++ log) = dispatchedTags log ∧
    reported (news ++ log) = reported log ∧
    (∀ i q, (news ++ log).count (.stopped i q) = log.count (.stopped i q)) := by
  induction news with
  | nil => simp
  | cons o news ih =>
    obtain ⟨h1, h2⟩ := h o List.mem_cons_self
    obtain ⟨a, b, c, d⟩ := ih (fun o ho => h o (List.mem_cons_of_mem _ ho))
    refine ⟨?_, ?_, ?_, ?_⟩
    · rw [List.cons_append, ended_cons, a]
      constructor
      · rintro (h | ⟨t, r, h, _⟩)
        · exact h
        · exact absurd h (h1 t r)
      · exact Or.inl
    · cases o <;> first | exact b | exact absurd rfl (h1 _ _)
    · cases o <;> first | exact c | exact absurd rfl (h1 _ _)
    · intro i q
      rw [List.cons_append, List.count_cons_of_ne (h2 i q), d]

theorem count_snoc {α : Type} [DecidableEq α] (l : List α) (a x : α) :
    (l ++ [a]).count x = l.count x + if a = x then 1 else 0 := by
  rw [List.count_append]
  congr 1
  by_cases h : a = x
  · subst h; simp
  · simp [h]

theorem first_snoc {q : List Tag} {y : Tag}
    (h : ∀ l1 l2 x id rec, q = l1 ++ x :: l2 → x = .finish id rec ∨ x = .timeout id rec → .append id rec ∈ l1)
    (hy : ∀ id rec, y = .finish id rec ∨ y = .timeout id rec → .append id rec ∈ q) :
    ∀ l1 l2 x id rec, q ++ [y] = l1 ++ x :: l2 → x = .finish id rec ∨ x = .timeout id rec → .append id rec ∈ l1 := by
  intro l1 l2 x id rec he hx
  rcases List.eq_nil_or_concat l2 with rfl | ⟨l2', z, rfl⟩
  · have h1 := List.append_inj_right' (t₁ := [y]) (t₂ := [x]) he rfl
    have h2 := List.append_inj_left' (t₁ := [y]) (t₂ := [x]) he rfl
    cases h1
    rw [← h2]; exact hy _ _ hx
  · have he' : q ++ [y] = (l1 ++ x :: l2') ++ [z] := by rw [he]; simp
    exact h l1 l2' x id rec (List.append_inj_left' he' rfl) hx

theorem Ending.res {env : Env} {s : St} {k : EndKind} {id : Nat} {rec : Int} {r : Option Bool} {s' : St}
    (h : Ending env s k id rec r s') : r = some true → s'.log ≠ s.log := by
  intro hr
  have hne : ∀ (a b : Obs), a :: b :: s.log ≠ s.log := by
    intro a b h; have := congrArg List.length h; simp at this; omega
  have hne1 : ∀ (a : Obs), a :: s.log ≠ s.log := by
    intro a h; have := congrArg List.length h; simp at this
  cases h
  case miss => cases k <;> cases hr
  case found => exact hne _ _
  all_goals exact hne1 _

theorem Ending.reports {env : Env} {s : St} {k : EndKind} {id : Nat} {rec : Int} {r : Option Bool} {s' : St}
    (h : Ending env s k id rec r s') : s'.reports = s.reports := by cases h <;> rfl

theorem reported_snoc (t : Tag) (r : Option Bool) (log : List Obs) :
    reported (.dispatched t r :: log) = reported log ∨
    (r = some true ∧ reported (.dispatched t r :: log) = reported log ++ [t] ∧
      ((∃ id, t = .remove id) ∨ (∃ id rec, t = .append id rec) ∨ (∃ id rec, t = .finish id rec) ∨ ∃ id rec, t = .timeout id rec)) := by
  rcases r with _ | _ | _
  · left; rfl
  · left; rfl
  · cases t <;> first | (left; rfl) | (right; refine ⟨rfl, rfl, ?_⟩; simp)

theorem repOk_step {env : Env} {s : St} {l : Label} {s' : St} (hr : Reachable env s) (hs : RepOk env s)
    (h : Act env s l s') : RepOk env s' := by
  obtain ⟨h1, h2, h3, h4, h5, h6, h7⟩ := hs
  have htr := traceOk hr
  rcases dispatch_cases hr h with ⟨k, id, rec, r, rest, s2, e, he, hc, htag, hend, rfl, rfl⟩ | ⟨id, box, rest, he, hc, rfl, rfl⟩ |
    ⟨tag, r, ht1, ht2, hlog, htrc, hrep⟩ | ⟨hrep, htrc, news, hlog, hq⟩
  · have hrp := hend.reports
    have hres := hend.res
    rcases hend.trace (htr.sorted id) with ⟨rfl, hno, rfl⟩ | ⟨ht, ⟨b, hb, hbr⟩, hlog⟩
    · -- nothing happens
      have hrr : reported (.dispatched (k.tag id rec) k.missRes :: s.log) = reported s.log := by cases k <;> rfl
      have hx : ∀ pub, (done env { s with chan := rest } (k.tag id rec) pub k.missRes).reports = s.reports := by
        intro pub; cases k <;> cases hb : env.statusReport <;> simp [done, hb, EndKind.missRes]
      have hnap : ∀ i q, k.tag id rec ≠ .append i q := by intro i q; cases k <;> simp [EndKind.tag]
      refine ⟨?_, ?_, ?_, ?_, ?_, ?_, ?_⟩
      · rw [hx]; simp only [done_log]; rw [hrr]; exact h1
      · rw [hx]; exact h2
      · intro i q hm
        rw [done_dispatched, mem_snoc_tag (hnap i q).symm] at hm
        simp only [done_log]; rw [hrr]; exact h3 i q hm
      · simp only [done_log, dispatchedTags]; rw [hrr]; exact h4.trans (List.sublist_append_left _ _)
      · intro i q
        simp only [done_log]
        rw [hrr, List.count_cons_of_ne (by simp)]; exact h5 i q
      · simp only [done_log]; rw [hrr]; exact h6
      · intro i q
        simp only [done_log]
        rw [ended_cons, h7]
        simp only [List.mem_cons, reduceCtorEq, false_or]
        constructor
        · rintro (h | ⟨t, r, ht, hte, hap⟩)
          · exact h
          · cases ht
            have hk : i = id ∧ q = rec := by cases k <;> simp_all [endTags, EndKind.tag]
            obtain ⟨rfl, rfl⟩ := hk
            refine Classical.byContradiction fun hns => ?_
            obtain ⟨b, hb, hbr⟩ := (htr.mem i q).2 ⟨hap, hns⟩
            exact hno b hb hbr
        · exact Or.inl
    · have hin := (htr.mem id rec).1 ⟨b, hb, hbr⟩
      have hd2 : dispatchedTags s2.log = dispatchedTags s.log := by
        rcases hlog with h | ⟨_, _, h⟩ <;> rw [h] <;> rfl
      have hr2 : reported s2.log = reported s.log := by
        rcases hlog with h | ⟨_, _, h⟩ <;> rw [h] <;> rfl
      have hc2 : ∀ i q, s2.log.count (.stopped i q) = s.log.count (.stopped i q) + if i = id ∧ q = rec then 1 else 0 := by
        intro i q
        rcases hlog with h | ⟨_, _, h⟩ <;> rw [h] <;> simp only [List.count_cons, beq_iff_eq, Obs.stopped.injEq, reduceCtorEq, if_false, Nat.add_zero, eq_comm (a := id), eq_comm (a := rec)]
      have he2 : ∀ i q, RunEnded i q s2.log ↔ RunEnded i q s.log := by
        intro i q
        rcases hlog with h | ⟨_, _, h⟩ <;> rw [h] <;> simp [ended_cons]
      have hst2 : ∀ i q, .stopped i q ∈ s2.log ↔ .stopped i q ∈ s.log ∨ (i = id ∧ q = rec) := by
        intro i q
        rcases hlog with h | ⟨_, _, h⟩ <;> rw [h] <;> simp [or_comm]
      have hnap : ∀ i q, k.tag id rec ≠ .append i q := by intro i q; cases k <;> simp [EndKind.tag]
      have hrs := reported_snoc (k.tag id rec) r s2.log
      have hend' : ∀ i q, RunEnded i q (.dispatched (k.tag id rec) r :: s2.log) ↔ .stopped i q ∈ (.dispatched (k.tag id rec) r :: s2.log : List Obs) := by
        intro i q
        rw [ended_cons, he2, h7, hd2]
        simp only [List.mem_cons, reduceCtorEq, false_or, hst2]
        constructor
        · rintro (h | ⟨t, r, ht, hte, hap⟩)
          · exact Or.inl h
          · cases ht
            right
            cases k <;> simp_all [endTags, EndKind.tag]
        · rintro (h | ⟨rfl, rfl⟩)
          · exact Or.inl h
          · exact Or.inr ⟨_, _, rfl, k.mem_endTags _ _, hin.1⟩
      have hrpd : ∀ (hsr : env.statusReport = true),
          (done env s2 (k.tag id rec) (publicOf e) r).reports.map pubTag = reported (.dispatched (k.tag id rec) r :: s2.log) := by
        intro hsr
        have h1' := h1 hsr
        rcases r with _ | _ | _
        · simp only [done, hsr]; rw [hrp]; exact h1'.trans hr2.symm
        · simp only [done, hsr]; rw [hrp]; exact h1'.trans hr2.symm
        · cases e <;> cases k <;> simp_all [TimerEvent.tag, EndKind.tag, publicOf, done, reported, pubTag]
      refine ⟨hrpd, ?_, ?_, ?_, ?_, ?_, hend'⟩
      · intro hsr; simp [done, hsr, hrp, h2 hsr]
      · intro i q hm
        rw [done_dispatched, mem_snoc_tag (hnap i q).symm, hd2] at hm
        have := h3 i q hm
        simp only [done_log]
        rcases hrs with h | ⟨_, h, _⟩ <;> rw [h, hr2]
        · exact this
        · exact List.mem_append_left _ this
      · simp only [done_log, dispatchedTags, hd2]
        rcases hrs with h | ⟨_, h, _⟩ <;> rw [h, hr2]
        · exact h4.trans (List.sublist_append_left _ _)
        · exact h4.append_right _
      · intro i q
        simp only [done_log]
        rw [List.count_cons_of_ne (by simp), hc2]
        have := h5 i q
        rcases hrs with h | ⟨_, h, _⟩ <;> rw [h, hr2]
        · omega
        · rw [count_snoc, count_snoc]
          by_cases hiq : i = id ∧ q = rec
          · obtain ⟨rfl, rfl⟩ := hiq
            cases k <;> simp [EndKind.tag] <;> omega
          · have a1 : k.tag id rec ≠ .finish i q := by
              intro hk; apply hiq; cases k <;> simp_all [EndKind.tag]
            have a2 : k.tag id rec ≠ .timeout i q := by
              intro hk; apply hiq; cases k <;> simp_all [EndKind.tag]
            simp only [a1, a2, if_false]; omega
      · simp only [done_log]
        rcases hrs with h | ⟨_, h, _⟩ <;> rw [h, hr2]
        · exact h6
        · refine first_snoc h6 ?_
          intro i q hk
          have : i = id ∧ q = rec := by cases k <;> simp_all [EndKind.tag]
          obtain ⟨rfl, rfl⟩ := this
          exact h3 _ _ hin.1
  · -- registration
    obtain ⟨g1, _⟩ := (rtOk hr).chanApp id box (by rw [hc]; exact List.mem_cons_self)
    have hlog : (done env (maintainTaskStatus { s with chan := rest } id box) (.append id box.recordId)
        (some (.runningTask box.taskId box.recordId)) (some true)).log = .dispatched (.append id box.recordId) (some true) :: s.log := by
      simp
    have hrr : reported (.dispatched (.append id box.recordId) (some true) :: s.log) = reported s.log ++ [.append id box.recordId] := rfl
    refine ⟨?_, ?_, ?_, ?_, ?_, ?_, ?_⟩
    · intro hsr; rw [hlog, hrr]; simp [done, hsr, h1 hsr, pubTag, g1]
    · intro hsr; simp [done, hsr, h2 hsr]
    · intro i q hm
      rw [hlog] at hm ⊢
      rw [hrr]
      simp only [dispatchedTags, List.mem_append] at hm ⊢
      exact hm.imp (h3 i q) (fun h => h)
    · rw [hlog, hrr]; exact h4.append_right _
    · intro i q
      rw [hlog, hrr, count_snoc, count_snoc, List.count_cons_of_ne (by simp)]
      simpa using h5 i q
    · rw [hlog, hrr]; exact first_snoc h6 (by simp)
    · intro i q
      rw [hlog, ended_cons, h7]
      simp only [List.mem_cons, reduceCtorEq, false_or]
      constructor
      · rintro (h | ⟨t, r, ht, hte, _⟩)
        · exact h
        · cases ht; simp [endTags] at hte
      · exact Or.inl
  · -- other events
    have hend : ∀ i q, RunEnded i q (.dispatched tag r :: s.log) ↔ RunEnded i q s.log := by
      intro i q
      rw [ended_cons]
      constructor
      · rintro (h | ⟨t, r, ht, hte, _⟩)
        · exact h
        · cases ht; exact absurd hte (ht1 _ _)
      · exact Or.inl
    have hrs := reported_snoc tag r s.log
    have hno : ∀ i q, tag ≠ .finish i q ∧ tag ≠ .timeout i q := by
      intro i q
      exact ⟨fun h => ht1 i q (by rw [h]; simp [endTags]), fun h => ht1 i q (by rw [h]; simp [endTags])⟩
    refine ⟨?_, ?_, ?_, ?_, ?_, ?_, ?_⟩
    · intro hsr
      rw [hlog]
      rcases hrep with ⟨id, rfl, _, rfl, hrep⟩ | ⟨hrep, hx⟩
      · rw [hrep]; simp [h1 hsr, reported, pubTag]
      · rw [hrep, h1 hsr]
        rcases hrs with h | ⟨hr', h, ht⟩
        · exact h.symm
        · exfalso
          rcases hx with hx | hx | hx
          · rcases ht with ⟨_, h⟩ | ⟨_, _, h⟩ | ⟨_, _, h⟩ | ⟨_, _, h⟩
            · exact hx _ h
            · exact ht2 _ _ h
            · exact (hno _ _).1 h
            · exact (hno _ _).2 h
          · rw [hsr] at hx; cases hx
          · exact hx hr'
    · intro hsr
      rcases hrep with ⟨id, rfl, hsr', _⟩ | ⟨hrep, hx⟩
      · rw [hsr] at hsr'; cases hsr'
      · rw [hrep]; exact h2 hsr
    · intro i q hm
      rw [hlog] at hm ⊢
      simp only [dispatchedTags] at hm
      rw [mem_snoc_tag (ht2 i q).symm] at hm
      have := h3 i q hm
      rcases hrs with h | ⟨_, h, _⟩ <;> rw [h]
      · exact this
      · exact List.mem_append_left _ this
    · rw [hlog]; simp only [dispatchedTags]
      rcases hrs with h | ⟨_, h, _⟩ <;> rw [h]
      · exact h4.trans (List.sublist_append_left _ _)
      · exact h4.append_right _
    · intro i q
      rw [hlog, List.count_cons_of_ne (by simp)]
      have := h5 i q
      rcases hrs with h | ⟨_, h, _⟩ <;> rw [h]
      · omega
      · rw [count_snoc, count_snoc]; simp only [(hno i q).1, (hno i q).2, if_false]; omega
    · rw [hlog]
      rcases hrs with h | ⟨_, h, _⟩ <;> rw [h]
      · exact h6
      · exact first_snoc h6 (by intro i q hx; rcases hx with hx | hx; exact absurd hx (hno i q).1; exact absurd hx (hno i q).2)
    · intro i q
      rw [hlog, hend, h7]; simp
  · have hq' := fun i q => ended_quiet (id := i) (rec := q) (log := s.log) hq
    obtain ⟨_, q2, q3, q4⟩ := hq' 0 0
    refine ⟨?_, ?_, ?_, ?_, ?_, ?_, ?_⟩
    · rw [hrep, hlog, q3]; exact h1
    · rw [hrep]; exact h2
    · rw [hlog, q2, q3]; exact h3
    · rw [hlog, q2, q3]; exact h4
    · intro i q; rw [hlog, q3, q4]; exact h5 i q
    · rw [hlog, q3]; exact h6
    · intro i q
      rw [hlog, (hq' i q).1, h7, ← List.count_pos_iff, ← List.count_pos_iff, q4]

theorem repOk {env : Env} {s : St} (h : Reachable env s) : RepOk env s := by
  refine Reachable.induct (RepOk env) ⟨?_, ?_, ?_, ?_, ?_, ?_, ?_⟩ (fun _ _ _ hr hs h => repOk_step hr hs h) s h
  · intro _; rfl
  · intro _; rfl
  · intro _ _ hx; cases hx
  · exact List.Sublist.refl _
  · intro _ _; simp [init, reported]
  · intro l1 l2 x id rec hx; simp [init, reported] at hx
  · intro id rec
    constructor
    · rintro ⟨l1, l2, tag, r, hx, _⟩; simp [init] at hx
    · intro hx; cases hx

end DelayTimer
