import Verif.Proofs.Inst

/-! Invariants of instances. -/

namespace DelayTimer
open Spec

theorem dull_writes {news log : List Obs} (h : ∀ o ∈ news, Dull o) (k : Nat) :
    stateWrites k (news ++ log) = stateWrites k log := by
  induction news with
  | nil => rfl
  | cons o news ih =>
    have h1 := h o List.mem_cons_self
    have h2 := ih (fun o ho => h o (List.mem_cons_of_mem _ ho))
    cases o <;> simp_all [Dull, stateWrites]

theorem dull_delivered {news log : List Obs} (h : ∀ o ∈ news, Dull o) (c : Nat) :
    deliveredOn c (news ++ log) = deliveredOn c log := by
  induction news with
  | nil => rfl
  | cons o news ih =>
    have h1 := h o List.mem_cons_self
    have h2 := ih (fun o ho => h o (List.mem_cons_of_mem _ ho))
    cases o <;> simp_all [Dull, deliveredOn]

theorem dull_mem_delivered {news log : List Obs} (h : ∀ o ∈ news, Dull o) {c : Nat} {i : Instance} :
    .delivered c i ∈ news ++ log ↔ .delivered c i ∈ log := by
  rw [List.mem_append]
  exact ⟨fun hx => hx.elim (fun hx => absurd (h _ hx) (by simp [Dull])) (fun h => h), Or.inr⟩

theorem dull_stopped {news log : List Obs} (h : ∀ o ∈ news, Dull o) {id : Nat} {rec : Int} :
    .stopped id rec ∈ news ++ log ↔ .stopped id rec ∈ log := by
  rw [List.mem_append]
  exact ⟨fun hx => hx.elim (fun hx => absurd (h _ hx) (by simp [Dull])) (fun h => h), Or.inr⟩

theorem mem_deliveredOn {c : Nat} {i : Instance} {log : List Obs} :
    i ∈ deliveredOn c log ↔ .delivered c i ∈ log := by
  induction log with
  | nil => simp [deliveredOn]
  | cons o log ih =>
    cases o <;> simp [deliveredOn, ih]
    rename_i c' j
    by_cases hc : c' = c
    · subst hc; simp [ih, or_comm]
    · simp [hc, ih, Ne.symm hc]

/-- Instances that somebody can still see. -/
def Alive (s : St) (i : Instance) : Prop :=
  (∃ c, i ∈ s.chainQueue c) ∨ (∃ c, .delivered c i ∈ s.log) ∨ ∃ id mt, mts s id = some mt ∧ i ∈ mt.innerList

structure InstOk (env : Env) (s : St) : Prop where
  lt : ∀ i, Alive s i → i.hdr < s.nextHdr
  inj : ∀ i j, Alive s i → Alive s j → i.hdr = j.hdr → i = j
  inner : ∀ id mt, mts s id = some mt → ∀ i ∈ mt.innerList, i.taskId = id ∧ s.hdrState i.hdr = RUNNING ∧
    .append id i.recordId ∈ dispatchedTags s.log ∧ .stopped id i.recordId ∉ s.log
  sorted : ∀ id mt, mts s id = some mt → mt.innerList.Pairwise (fun a b => Earlier env a.recordId b.recordId)
  high : ∀ h, s.hdrState h ≠ RUNNING → h < s.nextHdr
  truth : ∀ i, Alive s i → s.hdrState i.hdr = RUNNING ∨
    ∃ k : EndKind, s.hdrState i.hdr = k.state ∧ k.tag i.taskId i.recordId ∈ dispatchedTags s.log
  writes : ∀ h, (stateWrites h s.log = [] ∧ s.hdrState h = RUNNING) ∨
    ∃ k : EndKind, stateWrites h s.log = [(RUNNING, k.state)] ∧ s.hdrState h = k.state

theorem Alive.of_less {s s' : St} {i : Instance} (h : Alive s' i)
    (hq : ∀ c, ∀ i ∈ s'.chainQueue c, Alive s i) (hd : ∀ c i, .delivered c i ∈ s'.log → Alive s i)
    (hm : ∀ id mt, mts s' id = some mt → ∀ i ∈ mt.innerList, Alive s i) : Alive s i := by
  rcases h with ⟨c, h⟩ | ⟨c, h⟩ | ⟨id, mt, h1, h2⟩
  · exact hq c i h
  · exact hd c i h
  · exact hm id mt h1 i h2

/-- Steps that neither make an instance nor set a state. -/
theorem InstOk.of_less {env : Env} {s s' : St} (hs : InstOk env s) (hA : ∀ i, Alive s' i → Alive s i)
    (hm : ∀ id mt, mts s' id = some mt → mts s id = some mt ∨ mt.innerList = [])
    (hh : s'.hdrState = s.hdrState) (hn : s'.nextHdr = s.nextHdr) (hlog : ∀ o ∈ s.log, o ∈ s'.log)
    (hst : ∀ id mt, mts s' id = some mt → ∀ i ∈ mt.innerList, .stopped id i.recordId ∈ s'.log → .stopped id i.recordId ∈ s.log)
    (hw : ∀ h, stateWrites h s'.log = stateWrites h s.log) : InstOk env s' := by
  obtain ⟨h1, h2, h3, h4, h5, h6, h7⟩ := hs
  have hd : ∀ {t}, t ∈ dispatchedTags s.log → t ∈ dispatchedTags s'.log := by
    intro t ht
    rw [mem_dispatchedTags] at ht ⊢
    obtain ⟨r, hr⟩ := ht
    exact ⟨r, hlog _ hr⟩
  refine ⟨?_, ?_, ?_, ?_, ?_, ?_, ?_⟩
  · intro i hi; rw [hn]; exact h1 i (hA i hi)
  · intro i j hi hj; exact h2 i j (hA i hi) (hA j hj)
  · intro id mt hmt i hi
    rcases hm id mt hmt with h | h
    · obtain ⟨a, b, c, d⟩ := h3 id mt h i hi
      exact ⟨a, by rw [hh]; exact b, hd c, fun hx => d (hst id mt hmt i hi hx)⟩
    · rw [h] at hi; cases hi
  · intro id mt hmt
    rcases hm id mt hmt with h | h
    · exact h4 id mt h
    · rw [h]; exact List.Pairwise.nil
  · rw [hh, hn]; exact h5
  · intro i hi
    rw [hh]
    rcases h6 i (hA i hi) with h | ⟨k, h, h'⟩
    · exact Or.inl h
    · exact Or.inr ⟨k, h, hd h'⟩
  · intro h; rw [hh, hw]; exact h7 h

theorem EndKind.state_ne (k : EndKind) : k.state ≠ RUNNING := by cases k <;> decide

theorem instOk_step {env : Env} {s : St} {l : Label} {s' : St} (hr : Reachable env s) (hs : InstOk env s)
    (ha : Act env s l s') : InstOk env s' := by
  have hlog : ∀ o ∈ s.log, o ∈ s'.log := fun o ho => log_mono ha ho
  have hd : ∀ {t}, t ∈ dispatchedTags s.log → t ∈ dispatchedTags s'.log := by
    intro t ht
    rw [mem_dispatchedTags] at ht ⊢
    obtain ⟨r, hr⟩ := ht
    exact ⟨r, hlog _ hr⟩
  have hq0 : ∀ {c} {i : Instance}, i ∈ s.chainQueue c → Alive s i := fun h => Or.inl ⟨_, h⟩
  have hd0 : ∀ {c} {i : Instance}, .delivered c i ∈ s.log → Alive s i := fun h => Or.inr (Or.inl ⟨_, h⟩)
  have hm0 : ∀ {id mt} {i : Instance}, mts s id = some mt → i ∈ mt.innerList → Alive s i :=
    fun h1 h2 => Or.inr (Or.inr ⟨_, _, h1, h2⟩)
  cases instStep hr ha with
  | dull _ hsame news hl hdull =>
    obtain ⟨a1, a2, a3, a4, a5, a6, a7⟩ := hsame
    refine hs.of_less (fun i hi => hi.of_less ?_ ?_ ?_) ?_ a2 a3 hlog ?_ ?_
    · rw [a5]; exact fun c i h => hq0 h
    · intro c i hx; rw [hl, dull_mem_delivered hdull] at hx; exact hd0 hx
    · intro id mt h i hi; rw [a1] at h; exact hm0 h hi
    · intro id mt h; rw [a1] at h; exact Or.inl h
    · intro id mt _ i _ hx; rw [hl, dull_stopped hdull] at hx; exact hx
    · intro h; rw [hl, dull_writes hdull]
  | miss k id rec r hb hsame hl =>
    obtain ⟨a1, a2, a3, a4, a5, a6, a7⟩ := hsame
    refine hs.of_less (fun i hi => hi.of_less ?_ ?_ ?_) ?_ a2 a3 hlog ?_ ?_
    · rw [a5]; exact fun c i h => hq0 h
    · intro c i hx; rw [hl] at hx; exact hd0 (c := c) (by simpa using hx)
    · intro id mt h i hi; rw [a1] at h; exact hm0 h hi
    · intro id mt h; rw [a1] at h; exact Or.inl h
    · intro id mt _ i _ hx; rw [hl] at hx; simpa using hx
    · intro h; rw [hl]; rfl
  | quiet k id rec r hb hm hsame hl =>
    obtain ⟨a1, a2, a3, a4, a5, a6, a7⟩ := hsame
    refine hs.of_less (fun i hi => hi.of_less ?_ ?_ ?_) ?_ a2 a3 hlog ?_ ?_
    · rw [a5]; exact fun c i h => hq0 h
    · intro c i hx; rw [hl] at hx; exact hd0 (c := c) (by simpa using hx)
    · intro id mt h i hi; rw [a1] at h; exact hm0 h hi
    · intro id mt h; rw [a1] at h; exact Or.inl h
    · intro id' mt h i hi hx
      rw [hl] at hx
      simp at hx
      rcases hx with ⟨rfl, hx⟩ | hx
      · rw [a1] at h; exact absurd hx ((hm mt h).2 i hi)
      · exact hx
    · intro h; rw [hl]; rfl
  | dropped k id rec r mt hb hm hdr hmt hh hn hcs hq hch hnc hl =>
    refine hs.of_less (fun i hi => hi.of_less ?_ ?_ ?_) ?_ hh hn hlog ?_ ?_
    · rw [hq]; exact fun c i h => hq0 h
    · intro c i hx; rw [hl] at hx; exact hd0 (c := c) (by simpa using hx)
    · intro id mt h i hi; rw [hmt] at h; split at h
      · cases h
      · exact hm0 h hi
    · intro id mt h; rw [hmt] at h; split at h
      · cases h
      · exact Or.inl h
    · intro id' mt h i hi hx
      rw [hl] at hx
      simp at hx
      rcases hx with ⟨rfl, hx⟩ | hx
      · rw [hmt] at h; simp at h
      · exact hx
    · intro h; rw [hl]; rfl
  | plain id box rest he hc hm hsame hl =>
    obtain ⟨a1, a2, a3, a4, a5, a6, a7⟩ := hsame
    refine hs.of_less (fun i hi => hi.of_less ?_ ?_ ?_) ?_ a2 a3 hlog ?_ ?_
    · rw [a5]; exact fun c i h => hq0 h
    · intro c i hx; rw [hl] at hx; exact hd0 (c := c) (by simpa using hx)
    · intro id mt h i hi; rw [a1] at h; exact hm0 h hi
    · intro id mt h; rw [a1] at h; exact Or.inl h
    · intro id mt _ i _ hx; rw [hl] at hx; simpa using hx
    · intro h; rw [hl]; rfl
  | nobody id box rest mt he hc hm hdr hmt hh hn hcs hq hch hnc hl =>
    refine hs.of_less (fun i hi => hi.of_less ?_ ?_ ?_) ?_ hh hn hlog ?_ ?_
    · rw [hq]; exact fun c i h => hq0 h
    · intro c i hx; rw [hl] at hx; exact hd0 (c := c) (by simpa using hx)
    · intro id mt h i hi; rw [hmt] at h; split at h
      · cases h
      · exact hm0 h hi
    · intro id mt h; rw [hmt] at h; split at h
      · cases h
      · exact Or.inl h
    · intro id mt _ i _ hx; rw [hl] at hx; simpa using hx
    · intro h; rw [hl]; rfl
  | mark id new tag r ht hmt hh hn hcs hq hch hnc hl =>
    have hnew : ∀ mt, new = some mt → mt.innerList = [] := by
      intro mt hx
      rcases ht with ⟨_, h, _⟩ | ⟨m, he, _, h, _⟩
      · rw [h] at hx; cases hx
      · rcases add3Tag hr he with ⟨_, h'⟩ | ⟨c, _, h'⟩
        · rw [h, h'] at hx; cases hx
        · rw [h, h'] at hx; cases hx; rfl
    refine hs.of_less (fun i hi => hi.of_less ?_ ?_ ?_) ?_ hh hn hlog ?_ ?_
    · rw [hq]; exact fun c i h => hq0 h
    · intro c i hx; rw [hl] at hx; exact hd0 (c := c) (by simpa using hx)
    · intro id mt h i hi; rw [hmt] at h; split at h
      · rw [hnew mt h] at hi; cases hi
      · exact hm0 h hi
    · intro id mt h; rw [hmt] at h; split at h
      · exact Or.inr (hnew mt h)
      · exact Or.inl h
    · intro id mt _ i _ hx; rw [hl] at hx; simpa using hx
    · intro h; rw [hl]; rfl
  | refused t c hand he hmt hh hn hcs hq hch hnc hl =>
    refine hs.of_less (fun i hi => hi.of_less ?_ ?_ ?_) ?_ hh hn hlog ?_ ?_
    · rw [hq]; exact fun c i h => hq0 h
    · intro c i hx; rw [hl] at hx; exact hd0 (c := c) (by simpa using hx)
    · intro id mt h i hi; rw [hmt] at h; exact hm0 h hi
    · intro id mt h; rw [hmt] at h; exact Or.inl h
    · intro id mt _ i _ hx; rw [hl] at hx; simpa using hx
    · intro h; rw [hl]; rfl
  | insert t hmt hh hn hcs hq hch hnc hl =>
    refine hs.of_less (fun i hi => hi.of_less ?_ ?_ ?_) ?_ hh hn hlog ?_ ?_
    · intro c i hx; rw [hq, set_apply] at hx; split at hx
      · cases hx
      · exact hq0 hx
    · intro c i hx; rw [hl] at hx; exact hd0 (c := c) (by simpa using hx)
    · intro id mt h i hi; rw [hmt] at h; exact hm0 h hi
    · intro id mt h; rw [hmt] at h; exact Or.inl h
    · intro id mt _ i _ hx; rw [hl] at hx; simpa using hx
    · intro h; rw [hl]; rfl
  | deliver c i rest hheld hab hqu hmt hh hn hcs hq hch hnc hl =>
    refine hs.of_less (fun i hi => hi.of_less ?_ ?_ ?_) ?_ hh hn hlog ?_ ?_
    · intro c' i hx; rw [hq, set_apply] at hx; split at hx
      · exact hq0 (c := c) (by rw [hqu]; exact List.mem_cons_of_mem _ hx)
      · exact hq0 hx
    · intro c' j hx; rw [hl] at hx
      rcases List.mem_cons.1 hx with hx | hx
      · cases hx; exact hq0 (c := c) (by rw [hqu]; exact List.mem_cons_self)
      · exact hd0 hx
    · intro id mt h i hi; rw [hmt] at h; exact hm0 h hi
    · intro id mt h; rw [hmt] at h; exact Or.inl h
    · intro id mt _ i _ hx; rw [hl] at hx; simpa using hx
    · intro h; rw [hl]; rfl
  | drop c hheld hmt hh hn hcs hq hch hnc hl =>
    refine hs.of_less (fun i hi => hi.of_less ?_ ?_ ?_) ?_ hh hn hlog ?_ ?_
    · rw [hq]; exact fun c i h => hq0 h
    · rw [hl]; intro c i hx; exact hd0 hx
    · intro id mt h i hi; rw [hmt] at h; exact hm0 h hi
    · intro id mt h; rw [hmt] at h; exact Or.inl h
    · intro id mt _ i _ hx; rw [hl] at hx; exact hx
    · intro h; rw [hl]
  | found k id rec r mt a i b hb hm hdr hil hi hmt hh hn hcs hq hch hnc hl =>
    obtain ⟨h1, h2, h3, h4, h5, h6, h7⟩ := hs
    have hi0 : Alive s i := hm0 hm (by rw [hil]; simp)
    obtain ⟨i1, i2, i3, i4⟩ := h3 id mt hm i (by rw [hil]; simp)
    have hsub : ∀ j ∈ a ++ b, j ∈ mt.innerList := by
      intro j hj; rw [hil]
      rcases List.mem_append.1 hj with h | h <;> simp [h]
    have hso := h4 id mt hm
    have hne : ∀ j ∈ a ++ b, j.recordId ≠ rec := by
      intro j hj
      rw [hil, List.pairwise_append, List.pairwise_cons] at hso
      obtain ⟨_, ⟨s2, _⟩, s3⟩ := hso
      rcases List.mem_append.1 hj with h | h
      · rw [← hi]; exact (s3 j h i (by simp)).1
      · rw [← hi]; exact (s2 j h).1.symm
    have hA : ∀ j, Alive s' j → Alive s j := by
      intro j hj
      refine hj.of_less ?_ ?_ ?_
      · rw [hq]; exact fun c i h => hq0 h
      · intro c i hx; rw [hl] at hx; exact hd0 (c := c) (by simpa using hx)
      · intro id' mt' h j hj; rw [hmt] at h; split at h
        · cases h; exact hm0 hm (hsub j hj)
        · exact hm0 h hj
    refine ⟨?_, ?_, ?_, ?_, ?_, ?_, ?_⟩
    · intro j hj; rw [hn]; exact h1 j (hA j hj)
    · intro j j' hj hj'; exact h2 j j' (hA j hj) (hA j' hj')
    · intro id' mt' h j hj
      rw [hmt] at h
      split at h
      · rename_i hid; subst hid
        cases h
        obtain ⟨j1, j2, j3, j4⟩ := h3 id' mt hm j (hsub j hj)
        have hhd : j.hdr ≠ i.hdr := by
          intro he
          have := h2 j i (hm0 hm (hsub j hj)) hi0 he
          exact hne j hj (by rw [this]; exact hi)
        refine ⟨j1, by rw [hh, set_other _ _ _ hhd]; exact j2, hd j3, ?_⟩
        rw [hl]
        intro hx
        simp at hx
        rcases hx with hx | hx
        · exact hne j hj hx
        · exact j4 hx
      · rename_i hid
        obtain ⟨j1, j2, j3, j4⟩ := h3 id' mt' h j hj
        have hhd : j.hdr ≠ i.hdr := by
          intro he
          have := h2 j i (hm0 h hj) hi0 he
          rw [this, i1] at j1
          exact hid j1.symm
        refine ⟨j1, by rw [hh, set_other _ _ _ hhd]; exact j2, hd j3, ?_⟩
        rw [hl]
        intro hx
        simp at hx
        rcases hx with ⟨hx, _⟩ | hx
        · exact hid hx
        · exact j4 hx
    · intro id' mt' h
      rw [hmt] at h
      split at h
      · cases h
        rw [hil] at hso
        exact List.Pairwise.sublist (List.Sublist.append_left (List.sublist_cons_self _ _) _) hso
      · exact h4 id' mt' h
    · intro h' hx
      rw [hn]
      rw [hh, set_apply] at hx
      split at hx
      · rename_i he; subst he; exact h1 i hi0
      · exact h5 h' hx
    · intro j hj
      rw [hh, set_apply]
      split
      · rename_i he
        have := h2 j i (hA j hj) hi0 he
        subst this
        refine Or.inr ⟨k, rfl, ?_⟩
        rw [hl, i1, hi]; simp [dispatchedTags]
      · rcases h6 j (hA j hj) with h | ⟨k', h, h'⟩
        · exact Or.inl h
        · exact Or.inr ⟨k', h, hd h'⟩
    · intro h'
      rw [hl, hh, set_apply]
      simp only [stateWrites]
      by_cases he : h' = i.hdr
      · subst he
        rw [if_pos rfl, if_pos rfl]
        rcases h7 i.hdr with ⟨w1, w2⟩ | ⟨k', w1, w2⟩
        · exact Or.inr ⟨k, by rw [w1, i2]; rfl, rfl⟩
        · exact absurd (w2.symm.trans i2) k'.state_ne
      · rw [if_neg (Ne.symm he), if_neg he]; exact h7 h'
  | newInst id box rest mt he hc hm hdr hmt hh hn hcs hq hch hnc hl =>
    obtain ⟨h1, h2, h3, h4, h5, h6, h7⟩ := hs
    have hA : ∀ j, Alive s' j → Alive s j ∨ j = ⟨s.nextHdr, id, box.recordId⟩ := by
      rintro j (⟨c, hj⟩ | ⟨c, hj⟩ | ⟨id', mt', hj, hj'⟩)
      · rw [hq, set_apply] at hj
        split at hj
        · rcases List.mem_append.1 hj with hj | hj
          · exact Or.inl (hq0 hj)
          · exact Or.inr (by simpa using hj)
        · exact Or.inl (hq0 hj)
      · rw [hl] at hj; exact Or.inl (hd0 (c := c) (by simpa using hj))
      · rw [hmt] at hj
        split at hj
        · cases hj
          rcases List.mem_append.1 hj' with hj' | hj'
          · exact Or.inl (hm0 hm hj')
          · exact Or.inr (by simpa using hj')
        · exact Or.inl (hm0 hj hj')
    have hfresh : ∀ {i q}, .append i q ∈ dispatchedTags s.log → Earlier env q box.recordId :=
      fun h => append_fresh (fifo hr) (recOk hr) he hc h
    have hnr : s.hdrState s.nextHdr = RUNNING :=
      Classical.byContradiction fun hx => absurd (h5 s.nextHdr hx) (by omega)
    have hhe : s'.hdrState = s.hdrState := by rw [hh, ← hnr, set_self]
    refine ⟨?_, ?_, ?_, ?_, ?_, ?_, ?_⟩
    · intro j hj; rw [hn]
      rcases hA j hj with hj | rfl
      · have := h1 j hj; omega
      · simp
    · intro j j' hj hj' hjj
      rcases hA j hj with hj | rfl <;> rcases hA j' hj' with hj' | rfl
      · exact h2 j j' hj hj' hjj
      · have := h1 j hj; simp at hjj; omega
      · have := h1 j' hj'; simp at hjj; omega
      · rfl
    · intro id' mt' h j hj
      rw [hhe]
      rw [hmt] at h
      have hst : ∀ {q}, .stopped id' q ∈ s'.log → .stopped id' q ∈ s.log := by
        intro q hx; rw [hl] at hx; simpa using hx
      split at h
      · rename_i hid; subst hid
        cases h
        rcases List.mem_append.1 hj with hj | hj
        · obtain ⟨j1, j2, j3, j4⟩ := h3 _ mt hm j hj
          exact ⟨j1, j2, hd j3, fun hx => j4 (hst hx)⟩
        · simp at hj; subst hj
          refine ⟨rfl, hnr, by rw [hl]; simp [dispatchedTags], fun hx => ?_⟩
          exact (hfresh ((traceOk hr).stop _ _ (hst hx))).1 rfl
      · obtain ⟨j1, j2, j3, j4⟩ := h3 id' mt' h j hj
        exact ⟨j1, j2, hd j3, fun hx => j4 (hst hx)⟩
    · intro id' mt' h
      rw [hmt] at h
      split at h
      · cases h
        rw [List.pairwise_append]
        refine ⟨h4 id mt hm, by simp, ?_⟩
        intro x hx y hy
        simp at hy; subst hy
        exact hfresh (h3 id mt hm x hx).2.2.1
      · exact h4 id' mt' h
    · intro h' hx; rw [hhe] at hx; rw [hn]; have := h5 h' hx; omega
    · intro j hj
      rw [hhe]
      rcases hA j hj with hj | rfl
      · rcases h6 j hj with h | ⟨k', h, h'⟩
        · exact Or.inl h
        · exact Or.inr ⟨k', h, hd h'⟩
      · exact Or.inl hnr
    · intro h'; rw [hhe, hl]; exact h7 h'

theorem instOk {env : Env} {s : St} (h : Reachable env s) : InstOk env s := by
  refine Reachable.induct (InstOk env) ?_ (fun _ _ _ hr hs ha => instOk_step hr hs ha) s h
  have hA : ∀ i, ¬ Alive (init env) i := by
    rintro i (⟨c, h⟩ | ⟨c, h⟩ | ⟨id, mt, h, _⟩)
    · cases h
    · cases h
    · cases h
  refine ⟨fun i hi => absurd hi (hA i), fun i _ hi => absurd hi (hA i), ?_, ?_, ?_, fun i hi => absurd hi (hA i), ?_⟩
  · intro _ _ h; cases h
  · intro _ _ h; cases h
  · intro h hx; exact absurd rfl hx
  · intro h; exact Or.inl ⟨rfl, rfl⟩

end DelayTimer
