import Verif.Proofs.InstOk
import Verif.Proofs.Sweep

/-! Invariants of chains. -/

namespace DelayTimer
open Spec

/-- The chains in the insert events among `tags`. -/
def insertChains (tags : List Tag) : List Nat :=
  tags.filterMap fun t => match t with | .insert _ c => some c | _ => none

theorem insertChains_append (a b : List Tag) : insertChains (a ++ b) = insertChains a ++ insertChains b := by
  simp [insertChains]

theorem mem_insertChains {id c : Nat} {tags : List Tag} (h : .insert id c ∈ tags) : c ∈ insertChains tags := by
  simp only [insertChains, List.mem_filterMap]
  exact ⟨_, h, rfl⟩

/-- Chains are numbered in the order of the `insert_task` calls. -/
theorem insertChains_range {env : Env} {s : St} (h : Reachable env s) :
    insertChains (queuedTags s.log) = List.range s.nextChain := by
  refine Reachable.induct (fun s => insertChains (queuedTags s.log) = List.range s.nextChain) rfl ?_ s h
  intro s l s' hr hs ha
  rcases log_cases ha with ⟨n, hn, hmi, hsub⟩ | ⟨p, t, rec, box', rfl, hp, hp', hb, hn, hce⟩ | ⟨e'', hc', hn, he⟩ | ⟨u, now, n, rfl, hp, hc', hn⟩ | ⟨rec, r, rfl, hr, hn, hce⟩
  · have hnc : s'.nextChain = s.nextChain := by
      cases ha
      all_goals try rfl
      all_goals try (simp; done)
      case uinsert t =>
        exfalso
        have := queuedTags_minor (log := s.log) hmi
        rw [← hn] at this
        have := congrArg List.length this
        simp [uInsert, push, queuedTags] at this
    rw [hn, queuedTags_minor hmi, hnc]; exact hs
  · rw [hn]; cases ha; exact hs
  · rw [hn]
    simp only [queuedTags, insertChains_append, hs]
    rcases he with ⟨p, t, box', rfl, hp, rfl⟩ | ⟨_, _, r, rfl, hrt, hg, _, rfl⟩ | ⟨op, rfl, rfl⟩ | ⟨t, c, rfl, rfl⟩ | ⟨_, _, rfl, rfl⟩
    · cases ha; simp [insertChains, TimerEvent.tag]
    · cases ha; simp [insertChains, TimerEvent.tag]
    · cases ha; cases op <;> simp [insertChains, TimerEvent.tag, UserOp.event]
    · cases ha
      simp [uInsert, push, TimerEvent.tag] at hn
      simp only [insertChains, TimerEvent.tag, uInsert, push, List.filterMap_cons, List.filterMap_nil]
      rw [List.range_succ, hn]
    · cases ha; simp [insertChains, TimerEvent.tag]
  · rw [hn]; cases ha
    simpa [queuedTags, insertChains_append, insertChains] using hs
  · rw [hn]; cases ha; exact hs

theorem insert_unique {env : Env} {s : St} (h : Reachable env s) {a b : List Tag}
    (hq : queuedTags s.log = a ++ b) {id id' c : Nat} (h1 : .insert id c ∈ a) (h2 : .insert id' c ∈ b) : False := by
  have := insertChains_range h
  rw [hq, insertChains_append] at this
  have hn : (insertChains a ++ insertChains b).Nodup := by rw [this]; exact List.nodup_range
  rw [List.nodup_append] at hn
  exact hn.2.2 c (mem_insertChains h1) c (mem_insertChains h2) rfl

theorem filterMap_inj_of_nodup {tags : List Tag} (hn : (insertChains tags).Nodup) {id id' c : Nat}
    (h1 : .insert id c ∈ tags) (h2 : .insert id' c ∈ tags) : id = id' := by
  induction tags with
  | nil => cases h1
  | cons t tags ih =>
    have hc : insertChains (t :: tags) = insertChains [t] ++ insertChains tags := insertChains_append [t] tags
    rw [hc, List.nodup_append] at hn
    obtain ⟨n1, n2, n3⟩ := hn
    rcases List.mem_cons.1 h1 with h1 | h1 <;> rcases List.mem_cons.1 h2 with h2 | h2
    · rw [← h1] at h2; cases h2; rfl
    · exact absurd rfl (n3 c (by rw [← h1]; simp [insertChains]) c (mem_insertChains h2))
    · exact absurd rfl (n3 c (by rw [← h2]; simp [insertChains]) c (mem_insertChains h1))
    · exact ih n2 h1 h2

theorem insert_id {env : Env} {s : St} (h : Reachable env s) {id id' c : Nat}
    (h1 : .insert id c ∈ queuedTags s.log) (h2 : .insert id' c ∈ queuedTags s.log) : id = id' :=
  filterMap_inj_of_nodup (by rw [insertChains_range h]; exact List.nodup_range) h1 h2

theorem dispatched_queued {env : Env} {s : St} (h : Reachable env s) {t : Tag} (ht : t ∈ dispatchedTags s.log) :
    t ∈ queuedTags s.log := by
  rw [fifo h]; simp [ht]

/-- An event in work or on the channel has not been dispatched. -/
theorem insert_pending {env : Env} {s : St} (h : Reachable env s) {id id' c : Nat}
    (h1 : .insert id c ∈ dispatchedTags s.log) (h2 : .insert id' c ∈ epcTags s.epc ++ s.chan.map TimerEvent.tag) : False :=
  insert_unique h (a := dispatchedTags s.log) (by rw [fifo h, List.append_assoc]) h1 h2

theorem chainOf_dispatched {id c : Nat} {log : List Obs} (h : chainOf id log = some c) :
    .dispatched (.insert id c) (some true) ∈ log := by
  induction log with
  | nil => cases h
  | cons o log ih =>
    unfold chainOf at h
    split at h
    · cases h
    · rename_i i c' _ heq
      cases heq
      split at h
      · rename_i hi; cases h; subst hi; exact List.mem_cons_self
      · exact List.mem_cons_of_mem _ (ih h)
    · rename_i i _ heq
      cases heq
      split at h
      · cases h
      · exact List.mem_cons_of_mem _ (ih h)
    · rename_i i _ heq
      cases heq
      split at h
      · cases h
      · exact List.mem_cons_of_mem _ (ih h)
    · rename_i heq; cases heq; exact List.mem_cons_of_mem _ (ih h)

theorem dull_chainOf {news log : List Obs} (h : ∀ o ∈ news, Dull o) (id : Nat) :
    chainOf id (news ++ log) = chainOf id log := by
  induction news with
  | nil => rfl
  | cons o news ih =>
    have h1 := h o List.mem_cons_self
    have h2 := ih (fun o ho => h o (List.mem_cons_of_mem _ ho))
    rw [List.cons_append]
    cases o
    case dispatched t r =>
      cases t
      case add i =>
        cases r with
        | none => simpa [chainOf] using h2
        | some b => cases b with
          | true => exact h1.elim
          | false => simpa [chainOf] using h2
      all_goals first | exact h1.elim | simpa [chainOf] using h2
    all_goals simpa [chainOf] using h2

theorem chainOf_end (k : EndKind) (id : Nat) (rec : Int) (r : Option Bool) (log : List Obs) (j : Nat) :
    chainOf j (.dispatched (k.tag id rec) r :: log) = chainOf j log := by
  cases k <;> simp [chainOf, EndKind.tag]

/-- The instances put on chain `c` so far. -/
def onChain (c : Nat) (s : St) : List Instance := deliveredOn c s.log ++ s.chainQueue c

structure ChainOk (s : St) : Prop where
  /-- the maintainer of a task belongs to its current chain -/
  cur : ∀ id mt, mts s id = some mt → chainOf id s.log = some mt.chain
  /-- nothing is on a chain that was not processed yet -/
  own : ∀ c, ∀ i ∈ onChain c s, .insert i.taskId c ∈ dispatchedTags s.log ∧
    .append i.taskId i.recordId ∈ dispatchedTags s.log
  /-- in the order of registration -/
  order : ∀ c, ((onChain c s).map (·.recordId)).Sublist (appendRecs (dispatchedTags s.log))
  /-- running instances of the current chain are listed -/
  listed : ∀ id mt, mts s id = some mt → ∀ i ∈ onChain mt.chain s,
    i ∈ mt.innerList ∨ s.hdrState i.hdr ≠ RUNNING
  lt : ∀ c, s.chainHeld c = true → c < s.nextChain
  res : ∀ id c r, .dispatched (.insert id c) r ∈ s.log → r = none ∨ r = some true
  wait : ∀ id c, s.chainHeld c = true → .insert id c ∈ epcTags s.epc ++ s.chan.map TimerEvent.tag →
    s.chainState c = LIVING
  fail : ∀ id c, s.chainHeld c = true → .dispatched (.insert id c) none ∈ s.log → s.chainState c = ABANDONED
  live : ∀ id c, s.chainHeld c = true → chainOf id s.log = some c →
    s.chainState c = LIVING ∧ ∃ mt, mts s id = some mt ∧ mt.chain = c
  gone : ∀ id c, s.chainHeld c = true → .dispatched (.insert id c) (some true) ∈ s.log →
    chainOf id s.log ≠ some c → s.chainState c = ABANDONED

theorem pending_sub {env : Env} {s : St} {l : Label} {s' : St} (hr : Reachable env s) (hr' : Reachable env s')
    (ha : Act env s l s') (hl : ∀ t, l ≠ .uInsert t) {id c : Nat}
    (h : .insert id c ∈ epcTags s'.epc ++ s'.chan.map TimerEvent.tag) :
    .insert id c ∈ epcTags s.epc ++ s.chan.map TimerEvent.tag := by
  have h1 : .insert id c ∈ queuedTags s'.log := by
    rw [fifo hr', List.append_assoc]; exact List.mem_append_right _ h
  have h2 : .insert id c ∈ queuedTags s.log := by
    rcases log_cases ha with ⟨n, hn, hmi, hsub⟩ | ⟨p, t, rec, box', rfl, hp, hp', hb, hn, hce⟩ | ⟨e'', hc', hn, he⟩ | ⟨u, now, n, rfl, hp, hc', hn⟩ | ⟨rec, r, rfl, hr, hn, hce⟩
    · rw [hn, queuedTags_minor hmi] at h1; exact h1
    · rw [hn] at h1; exact h1
    · rw [hn] at h1
      simp only [queuedTags, List.mem_append, List.mem_singleton] at h1
      rcases h1 with h1 | h1
      · exact h1
      · exfalso
        rcases he with ⟨p, t, box', rfl, hp, rfl⟩ | ⟨_, _, r, rfl, hrt, hg, _, rfl⟩ | ⟨op, rfl, rfl⟩ | ⟨t, c, rfl, rfl⟩ | ⟨_, _, rfl, rfl⟩
        · cases h1
        · cases h1
        · cases op <;> cases h1
        · exact hl t rfl
        · cases h1
    · rw [hn] at h1; simpa [queuedTags] using h1
    · rw [hn] at h1; exact h1
  rw [fifo hr, List.append_assoc] at h2
  rcases List.mem_append.1 h2 with h3 | h3
  · exfalso
    refine insert_pending hr' (id := id) ?_ h
    rw [mem_dispatchedTags] at h3 ⊢
    obtain ⟨r, h3⟩ := h3
    exact ⟨r, log_mono ha h3⟩
  · exact h3

/-- Steps that change no state, put nothing on a chain and dispatch no insertion. -/
theorem ChainOk.of_same {s s' : St} (hs : ChainOk s)
    (hm : ∀ id mt, mts s' id = some mt → ∃ mt0, mts s id = some mt0 ∧ mt.chain = mt0.chain ∧
      ∀ i ∈ mt0.innerList, i ∈ mt.innerList ∨ s'.hdrState i.hdr ≠ RUNNING)
    (hh : ∀ h, s.hdrState h ≠ RUNNING → s'.hdrState h ≠ RUNNING)
    (hco : ∀ id, chainOf id s'.log = chainOf id s.log)
    (hon : ∀ c, onChain c s' = onChain c s)
    (hdp : (dispatchedTags s.log).Sublist (dispatchedTags s'.log))
    (hch : s'.chainHeld = s.chainHeld) (hnc : s'.nextChain = s.nextChain)
    (hin : ∀ id c r, .dispatched (.insert id c) r ∈ s'.log → .dispatched (.insert id c) r ∈ s.log)
    (hp : ∀ id c, .insert id c ∈ epcTags s'.epc ++ s'.chan.map TimerEvent.tag →
      .insert id c ∈ epcTags s.epc ++ s.chan.map TimerEvent.tag)
    (hlv : ∀ c, s.chainHeld c = true → s.chainState c = LIVING → s'.chainState c = LIVING)
    (hab : ∀ c, s.chainHeld c = true → s.chainState c = ABANDONED → s'.chainState c = ABANDONED)
    (hlm : ∀ id mt, mts s id = some mt → s.chainHeld mt.chain = true → s.chainState mt.chain = LIVING → ∃ mt', mts s' id = some mt' ∧ mt'.chain = mt.chain) :
    ChainOk s' := by
  have hdt : ∀ {t}, t ∈ dispatchedTags s.log → t ∈ dispatchedTags s'.log := fun h => hdp.subset h
  obtain ⟨h1, h2, h3, h4, h5, h6, h7, h8, h9, h10⟩ := hs
  refine ⟨?_, ?_, ?_, ?_, ?_, ?_, ?_, ?_, ?_, ?_⟩
  · intro id mt h
    obtain ⟨mt0, a, b, _⟩ := hm id mt h
    rw [hco, b]; exact h1 id mt0 a
  · intro c i hi; rw [hon] at hi
    obtain ⟨a, b⟩ := h2 c i hi
    exact ⟨hdt a, hdt b⟩
  · intro c; rw [hon]; exact (h3 c).trans (hdp.filterMap _)
  · intro id mt h i hi
    obtain ⟨mt0, a, b, d⟩ := hm id mt h
    rw [b, hon] at hi
    rcases h4 id mt0 a i hi with h | h
    · exact d i h
    · exact Or.inr (hh _ h)
  · rw [hch, hnc]; exact h5
  · exact fun id c r h => h6 id c r (hin id c r h)
  · intro id c hc h; rw [hch] at hc; exact hlv c hc (h7 id c hc (hp id c h))
  · intro id c hc h; rw [hch] at hc; exact hab c hc (h8 id c hc (hin _ _ _ h))
  · intro id c hc h; rw [hch] at hc; rw [hco] at h
    obtain ⟨a, mt, b, d⟩ := h9 id c hc h
    refine ⟨hlv c hc a, ?_⟩
    obtain ⟨mt', e, f⟩ := hlm id mt b (by rw [d]; exact hc) (by rw [d]; exact a)
    exact ⟨mt', e, by rw [f, d]⟩
  · intro id c hc h hx; rw [hch] at hc; rw [hco] at hx; exact hab c hc (h10 id c hc (hin _ _ _ h) hx)

theorem abandon_keep {cs : Nat → Nat} {m : Option Maintainer} {c : Nat} (h : cs c = ABANDONED) :
    abandon cs m c = ABANDONED := by
  cases m with
  | none => exact h
  | some m => simp only [abandon, set_apply]; split <;> first | rfl | exact h

theorem onChain_eq {s s' : St} {c : Nat} (h1 : deliveredOn c s'.log = deliveredOn c s.log)
    (h2 : s'.chainQueue = s.chainQueue) : onChain c s' = onChain c s := by
  simp only [onChain, h1, h2]

theorem chainOk_step {env : Env} {s : St} {l : Label} {s' : St} (hr : Reachable env s) (hr' : Reachable env s')
    (hs : ChainOk s) (ha : Act env s l s') : ChainOk s' := by
  have hdp := dispatched_grows ha
  have hdt : ∀ {t}, t ∈ dispatchedTags s.log → t ∈ dispatchedTags s'.log := fun h => hdp.subset h
  have hpend : (∀ t, l ≠ .uInsert t) → ∀ id c, .insert id c ∈ epcTags s'.epc ++ s'.chan.map TimerEvent.tag →
      .insert id c ∈ epcTags s.epc ++ s.chan.map TimerEvent.tag := fun hl _ _ h => pending_sub hr hr' ha hl h
  have msame : (∀ id, mts s' id = mts s id) → s'.hdrState = s.hdrState → ∀ id mt, mts s' id = some mt →
      ∃ mt0, mts s id = some mt0 ∧ mt.chain = mt0.chain ∧ ∀ i ∈ mt0.innerList, i ∈ mt.innerList ∨ s'.hdrState i.hdr ≠ RUNNING :=
    fun h _ id mt hmt => ⟨mt, by rw [← h]; exact hmt, rfl, fun i hi => Or.inl hi⟩
  have hlab := instStep hr ha
  cases hlab with
  | dull _ hsame news hl hdull =>
    obtain ⟨a1, a2, a3, a4, a5, a6, a7⟩ := hsame
    by_cases hui : ∃ t, l = .uInsert t
    · obtain ⟨t, rfl⟩ := hui
      cases ha
      exfalso
      have := a7
      simp [uInsert] at this
    refine hs.of_same (msame a1 a2) (by rw [a2]; exact fun _ h => h) (fun id => by rw [hl, dull_chainOf hdull])
      (fun c => onChain_eq (by rw [hl, dull_delivered hdull]) a5) hdp a6 a7 ?_ (hpend fun t h => hui ⟨t, h⟩)
      (by rw [a4]; exact fun _ _ h => h) (by rw [a4]; exact fun _ _ h => h) (fun id mt h _ _ => ⟨mt, by rw [a1]; exact h, rfl⟩)
    intro id c r hx
    rw [hl] at hx
    rcases List.mem_append.1 hx with hx | hx
    · exact absurd (hdull _ hx) (by simp [Dull])
    · exact hx
  | miss k id rec r hb hsame hl =>
    obtain ⟨a1, a2, a3, a4, a5, a6, a7⟩ := hsame
    refine hs.of_same (msame a1 a2) (by rw [a2]; exact fun _ h => h) (fun id => by rw [hl, chainOf_end])
      (fun c => onChain_eq (by rw [hl]; rfl) a5) hdp a6 a7 ?_ (hpend (by simp))
      (by rw [a4]; exact fun _ _ h => h) (by rw [a4]; exact fun _ _ h => h) (fun id mt h _ _ => ⟨mt, by rw [a1]; exact h, rfl⟩)
    intro i c r hx
    rw [hl] at hx
    cases k <;> simpa [EndKind.tag] using hx
  | quiet k id rec r hb hm hsame hl =>
    obtain ⟨a1, a2, a3, a4, a5, a6, a7⟩ := hsame
    refine hs.of_same (msame a1 a2) (by rw [a2]; exact fun _ h => h) (fun id => by rw [hl, chainOf_end]; rfl)
      (fun c => onChain_eq (by rw [hl]; rfl) a5) hdp a6 a7 ?_ (hpend (by simp))
      (by rw [a4]; exact fun _ _ h => h) (by rw [a4]; exact fun _ _ h => h) (fun id mt h _ _ => ⟨mt, by rw [a1]; exact h, rfl⟩)
    intro i c r hx
    rw [hl] at hx
    cases k <;> simpa [EndKind.tag] using hx
  | dropped k id rec r mt hb hm hdr hmt hh hn hcs hq hch hnc hl =>
    refine hs.of_same ?_ (by rw [hh]; exact fun _ h => h) (fun id => by rw [hl, chainOf_end]; rfl)
      (fun c => onChain_eq (by rw [hl]; rfl) hq) hdp hch hnc ?_ (hpend (by simp)) ?_ ?_ ?_
    · intro j mt' h
      rw [hmt] at h
      split at h
      · cases h
      · exact ⟨mt', h, rfl, fun i hi => Or.inl hi⟩
    · intro i c r hx
      rw [hl] at hx
      cases k <;> simpa [EndKind.tag] using hx
    · intro c _ h
      rw [hcs, set_apply]
      split
      · rename_i hc; subst hc; rw [hdr] at h; cases h
      · exact h
    · intro c _ h
      rw [hcs, set_apply]
      split <;> first | rfl | exact h
    · intro j mt' h _ hlv
      rw [hmt]
      split
      · rename_i hj; subst hj
        rw [hm] at h; cases h
        rw [hdr] at hlv; cases hlv
      · exact ⟨mt', h, rfl⟩
  | plain id box rest he hc hm hsame hl =>
    obtain ⟨a1, a2, a3, a4, a5, a6, a7⟩ := hsame
    refine hs.of_same (msame a1 a2) (by rw [a2]; exact fun _ h => h) (fun id => by rw [hl]; simp [chainOf])
      (fun c => onChain_eq (by rw [hl]; rfl) a5) hdp a6 a7 ?_ (hpend (by simp))
      (by rw [a4]; exact fun _ _ h => h) (by rw [a4]; exact fun _ _ h => h) (fun id mt h _ _ => ⟨mt, by rw [a1]; exact h, rfl⟩)
    intro i c r hx
    rw [hl] at hx
    simpa using hx
  | nobody id box rest mt he hc hm hdr hmt hh hn hcs hq hch hnc hl =>
    refine hs.of_same ?_ (by rw [hh]; exact fun _ h => h) (fun id => by rw [hl]; simp [chainOf])
      (fun c => onChain_eq (by rw [hl]; rfl) hq) hdp hch hnc ?_ (hpend (by simp)) ?_ ?_ ?_
    · intro j mt' h
      rw [hmt] at h
      split at h
      · cases h
      · exact ⟨mt', h, rfl, fun i hi => Or.inl hi⟩
    · intro i c r hx
      rw [hl] at hx
      simpa using hx
    · intro c _ h
      rw [hcs, set_apply]
      split
      · rename_i hc; subst hc; rw [hdr] at h; cases h
      · exact h
    · intro c _ h
      rw [hcs, set_apply]
      split <;> first | rfl | exact h
    · intro j mt' h _ hlv
      rw [hmt]
      split
      · rename_i hj; subst hj
        rw [hm] at h; cases h
        rw [hdr] at hlv; cases hlv
      · exact ⟨mt', h, rfl⟩
  | found k id rec r mt a i b hb hm hdr hil hi hmt hh hn hcs hq hch hnc hl =>
    have hst : ∀ h, s.hdrState h ≠ RUNNING → s'.hdrState h ≠ RUNNING := by
      intro h hx
      rw [hh, set_apply]
      split
      · exact k.state_ne
      · exact hx
    refine hs.of_same ?_ hst (fun id => by rw [hl, chainOf_end]; rfl)
      (fun c => onChain_eq (by rw [hl]; rfl) hq) hdp hch hnc ?_ (hpend (by simp))
      (by rw [hcs]; exact fun _ _ h => h) (by rw [hcs]; exact fun _ _ h => h) ?_
    · intro j mt' h
      rw [hmt] at h
      split at h
      · rename_i hj; subst hj
        cases h
        refine ⟨mt, hm, rfl, ?_⟩
        intro x hx
        rw [hil] at hx
        rcases List.mem_append.1 hx with hx | hx
        · left; simp [hx]
        · rcases List.mem_cons.1 hx with rfl | hx
          · right; rw [hh, set_same]; exact k.state_ne
          · left; simp [hx]
      · exact ⟨mt', h, rfl, fun i hi => Or.inl hi⟩
    · intro i c r hx
      rw [hl] at hx
      cases k <;> simpa [EndKind.tag] using hx
    · intro j mt' h _ _
      rw [hmt]
      split
      · rename_i hj; subst hj
        rw [hm] at h; cases h
        exact ⟨_, rfl, rfl⟩
      · exact ⟨mt', h, rfl⟩
  | deliver c i rest hheld hab hqu hmt hh hn hcs hq hch hnc hl =>
    refine hs.of_same (msame hmt hh) (by rw [hh]; exact fun _ h => h) (fun id => by rw [hl]; rfl) ?_ hdp hch hnc ?_
      (hpend (by simp)) (by rw [hcs]; exact fun _ _ h => h) (by rw [hcs]; exact fun _ _ h => h)
      (fun id mt h _ _ => ⟨mt, by rw [hmt]; exact h, rfl⟩)
    · intro c'
      simp only [onChain, hl, hq, deliveredOn, set_apply]
      by_cases hc : c' = c
      · subst hc; simp [hqu]
      · simp [hc, Ne.symm hc]
    · intro i c r hx
      rw [hl] at hx
      simpa using hx
  | drop c hheld hmt hh hn hcs hq hch hnc hl =>
    have hc' : ∀ {x}, s'.chainHeld x = true → s.chainHeld x = true ∧ x ≠ c := by
      intro x hx
      rw [hch, set_apply] at hx
      split at hx
      · cases hx
      · exact ⟨hx, by assumption⟩
    obtain ⟨h1, h2, h3, h4, h5, h6, h7, h8, h9, h10⟩ := hs
    have hon : ∀ x, onChain x s' = onChain x s := fun x => onChain_eq (by rw [hl]) hq
    have hcs' : ∀ {x}, x ≠ c → s'.chainState x = s.chainState x := by
      intro x hx; rw [hcs, set_other _ _ _ hx]
    refine ⟨?_, ?_, ?_, ?_, ?_, ?_, ?_, ?_, ?_, ?_⟩
    · intro id mt h; rw [hmt] at h; rw [hl]; exact h1 id mt h
    · intro x i hi; rw [hon] at hi; rw [hl]; exact h2 x i hi
    · intro x; rw [hon]; exact (h3 x).trans (hdp.filterMap _)
    · intro id mt h i hi; rw [hmt] at h; rw [hon] at hi; rw [hh]; exact h4 id mt h i hi
    · intro x hx; rw [hnc]; exact h5 x (hc' hx).1
    · rw [hl]; exact h6
    · intro id x hx h
      obtain ⟨a, b⟩ := hc' hx
      rw [hcs' b]; exact h7 id x a (hpend (by simp) id x h)
    · intro id x hx h
      obtain ⟨a, b⟩ := hc' hx
      rw [hcs' b]; rw [hl] at h; exact h8 id x a h
    · intro id x hx h
      obtain ⟨a, b⟩ := hc' hx
      rw [hcs' b]; rw [hl] at h
      obtain ⟨d, mt, e, f⟩ := h9 id x a h
      exact ⟨d, mt, by rw [hmt]; exact e, f⟩
    · intro id x hx h hy
      obtain ⟨a, b⟩ := hc' hx
      rw [hcs' b]; rw [hl] at h hy; exact h10 id x a h hy
  | insert t hmt hh hn hcs hq hch hnc hl =>
    have hc' : ∀ {x}, x ≠ s.nextChain → s'.chainHeld x = true → s.chainHeld x = true := by
      intro x hxn hx
      rw [hch, set_other _ _ _ hxn] at hx; exact hx
    have hcs' : ∀ {x}, x ≠ s.nextChain → s'.chainState x = s.chainState x := by
      intro x hx; rw [hcs, set_other _ _ _ hx]
    have hlt : ∀ {id c}, .insert id c ∈ dispatchedTags s.log → c < s.nextChain := by
      intro id c h
      have := mem_insertChains (dispatched_queued hr h)
      rw [insertChains_range hr] at this
      simpa using this
    have hdlog : ∀ {t r}, .dispatched t r ∈ s'.log → .dispatched t r ∈ s.log := by
      intro t r hx; rw [hl] at hx; simpa using hx
    have hco : ∀ id, chainOf id s'.log = chainOf id s.log := by intro id; rw [hl]; rfl
    obtain ⟨h1, h2, h3, h4, h5, h6, h7, h8, h9, h10⟩ := hs
    have hnew : onChain s.nextChain s = [] := by
      rw [List.eq_nil_iff_forall_not_mem]
      intro i hi
      have := hlt (h2 _ i hi).1
      omega
    have hon : ∀ x, onChain x s' = onChain x s := by
      intro x
      by_cases hx : x = s.nextChain
      · subst hx
        rw [hnew]
        simp only [onChain, List.append_eq_nil_iff] at hnew
        simp only [onChain, hl, hq, set_same, deliveredOn, hnew.1, List.append_nil]
      · simp only [onChain, hl, hq, set_other _ _ _ hx, deliveredOn]
    refine ⟨?_, ?_, ?_, ?_, ?_, ?_, ?_, ?_, ?_, ?_⟩
    · intro id mt h; rw [hmt] at h; rw [hco]; exact h1 id mt h
    · intro x i hi; rw [hon] at hi
      obtain ⟨a, b⟩ := h2 x i hi
      exact ⟨hdt a, hdt b⟩
    · intro x; rw [hon]; exact (h3 x).trans (hdp.filterMap _)
    · intro id mt h i hi; rw [hmt] at h; rw [hon] at hi; rw [hh]; exact h4 id mt h i hi
    · intro x hx; rw [hnc]
      by_cases hxn : x = s.nextChain
      · omega
      · have := h5 x (hc' hxn hx); omega
    · exact fun id c r h => h6 id c r (hdlog h)
    · intro id x hx h
      by_cases hxn : x = s.nextChain
      · subst hxn; rw [hcs, set_same]
      · rw [hcs' hxn]
        refine h7 id x (hc' hxn hx) ?_
        cases ha
        simp only [uInsert, push_epc, push_chan, List.map_append, List.map_cons, List.map_nil, TimerEvent.tag] at h
        rw [← List.append_assoc] at h
        rcases List.mem_append.1 h with h | h
        · exact h
        · simp at h; exact absurd h.2 hxn
    · intro id x hx h
      have h := hdlog h
      have : x ≠ s.nextChain := by
        have := hlt (mem_dispatchedTags.2 ⟨_, h⟩); omega
      rw [hcs' this]; exact h8 id x (hc' this hx) h
    · intro id x hx h
      rw [hco] at h
      have : x ≠ s.nextChain := by
        have := hlt (mem_dispatchedTags.2 ⟨_, chainOf_dispatched h⟩); omega
      rw [hcs' this]
      obtain ⟨d, mt, e, f⟩ := h9 id x (hc' this hx) h
      exact ⟨d, mt, by rw [hmt]; exact e, f⟩
    · intro id x hx h hy
      have h := hdlog h
      rw [hco] at hy
      have : x ≠ s.nextChain := by
        have := hlt (mem_dispatchedTags.2 ⟨_, h⟩); omega
      rw [hcs' this]; exact h10 id x (hc' this hx) h hy
  | refused t c hand he hmt hh hn hcs hq hch hnc hl =>
    have hpc : .insert t.taskId c ∈ epcTags s.epc ++ s.chan.map TimerEvent.tag := by
      rw [he]; simp [epcTags, addTag]
    have hco : ∀ id, chainOf id s'.log = chainOf id s.log := by intro id; rw [hl]; simp [chainOf]
    have hon : ∀ x, onChain x s' = onChain x s := fun x => onChain_eq (by rw [hl]; rfl) hq
    have hcs' : ∀ {x}, x ≠ c → s'.chainState x = s.chainState x := by
      intro x hx; rw [hcs, set_other _ _ _ hx]
    obtain ⟨h1, h2, h3, h4, h5, h6, h7, h8, h9, h10⟩ := hs
    refine ⟨?_, ?_, ?_, ?_, ?_, ?_, ?_, ?_, ?_, ?_⟩
    · intro id mt h; rw [hmt] at h; rw [hco]; exact h1 id mt h
    · intro x i hi; rw [hon] at hi
      obtain ⟨a, b⟩ := h2 x i hi
      exact ⟨hdt a, hdt b⟩
    · intro x; rw [hon]; exact (h3 x).trans (hdp.filterMap _)
    · intro id mt h i hi; rw [hmt] at h; rw [hon] at hi; rw [hh]; exact h4 id mt h i hi
    · rw [hch, hnc]; exact h5
    · intro id x r h
      rw [hl] at h
      rcases List.mem_cons.1 h with h | h
      · cases h; exact Or.inl rfl
      · exact h6 id x r h
    · intro id x hx h
      rw [hch] at hx
      have hne : x ≠ c := by
        rintro rfl
        refine insert_pending hr' (id := t.taskId) ?_ h
        rw [hl]; simp [dispatchedTags]
      rw [hcs' hne]; exact h7 id x hx (hpend (by simp) id x h)
    · intro id x hx h
      rw [hch] at hx
      rw [hcs, set_apply]
      split
      · rfl
      · rename_i hne
        rw [hl] at h
        rcases List.mem_cons.1 h with h | h
        · cases h; exact absurd rfl hne
        · exact h8 id x hx h
    · intro id x hx h
      rw [hch] at hx
      rw [hco] at h
      obtain ⟨d, mt, e, f⟩ := h9 id x hx h
      have hne : x ≠ c := by
        rintro rfl
        exact insert_pending hr (mem_dispatchedTags.2 ⟨_, chainOf_dispatched h⟩) hpc
      exact ⟨by rw [hcs' hne]; exact d, mt, by rw [hmt]; exact e, f⟩
    · intro id x hx h hy
      rw [hch] at hx
      rw [hco] at hy
      rw [hcs, set_apply]
      split
      · rfl
      · rw [hl] at h
        rcases List.mem_cons.1 h with h | h
        · cases h
        · exact h10 id x hx h hy
  | newInst id box rest mt he hc hm hdr hmt hh hn hcs hq hch hnc hl =>
    have hco : ∀ id, chainOf id s'.log = chainOf id s.log := by intro id; rw [hl]; simp [chainOf]
    have hnr : s.hdrState s.nextHdr = RUNNING :=
      Classical.byContradiction fun hx => absurd ((instOk hr).high s.nextHdr hx) (by omega)
    have hhe : s'.hdrState = s.hdrState := by rw [hh, ← hnr, set_self]
    have hon : ∀ x, onChain x s' = onChain x s ++ if x = mt.chain then [⟨s.nextHdr, id, box.recordId⟩] else [] := by
      intro x
      simp only [onChain, hl, hq, deliveredOn, set_apply]
      by_cases hx : x = mt.chain
      · subst hx; simp
      · simp [hx]
    have hdlog : ∀ {i c r}, .dispatched (.insert i c) r ∈ s'.log → .dispatched (.insert i c) r ∈ s.log := by
      intro i c r hx; rw [hl] at hx; simpa using hx
    have hcur := hs.cur id mt hm
    have hins : .insert id mt.chain ∈ dispatchedTags s.log := mem_dispatchedTags.2 ⟨_, chainOf_dispatched hcur⟩
    have hmo : ∀ j mt', mts s' j = some mt' → ∃ mt0, mts s j = some mt0 ∧ mt'.chain = mt0.chain := by
      intro j mt' h
      rw [hmt] at h
      split at h
      · rename_i hj; subst hj; cases h; exact ⟨mt, hm, rfl⟩
      · exact ⟨mt', h, rfl⟩
    obtain ⟨h1, h2, h3, h4, h5, h6, h7, h8, h9, h10⟩ := hs
    refine ⟨?_, ?_, ?_, ?_, ?_, ?_, ?_, ?_, ?_, ?_⟩
    · intro j mt' h
      obtain ⟨mt0, a, b⟩ := hmo j mt' h
      rw [hco, b]; exact h1 j mt0 a
    · intro x i hi; rw [hon] at hi
      rcases List.mem_append.1 hi with h | h
      · obtain ⟨a, b⟩ := h2 x i h
        exact ⟨hdt a, hdt b⟩
      · by_cases hx : x = mt.chain
        · subst hx
          simp only [if_true, List.mem_singleton] at h; subst h
          exact ⟨hdt hins, by rw [hl]; simp [dispatchedTags]⟩
        · rw [if_neg hx] at h; cases h
    · intro x; rw [hon, hl]
      simp only [dispatchedTags, appendRecs_append, List.map_append]
      refine (h3 x).append ?_
      split <;> simp [appendRecs]
    · intro j mt' h i hi
      rw [hhe]
      rw [hon] at hi
      rw [hmt] at h
      split at h
      · rename_i hj; subst hj
        cases h
        simp only [if_true] at hi
        rcases List.mem_append.1 hi with hi | hi
        · rcases h4 _ mt hm i hi with hx | hx
          · exact Or.inl (List.mem_append_left _ hx)
          · exact Or.inr hx
        · exact Or.inl (List.mem_append_right _ hi)
      · rename_i hj
        rcases List.mem_append.1 hi with hi | hi
        · exact h4 j mt' h i hi
        · split at hi
          · rename_i hx
            exfalso
            have := chainOf_dispatched (h1 j mt' h)
            rw [hx] at this
            exact hj (insert_id hr (dispatched_queued hr (mem_dispatchedTags.2 ⟨_, this⟩)) (dispatched_queued hr hins))
          · cases hi
    · rw [hch, hnc]; exact h5
    · exact fun i c r h => h6 i c r (hdlog h)
    · intro i x hx h; rw [hch] at hx; rw [hcs]; exact h7 i x hx (hpend (by simp) i x h)
    · intro i x hx h; rw [hch] at hx; rw [hcs]; exact h8 i x hx (hdlog h)
    · intro i x hx h; rw [hch] at hx; rw [hco] at h; rw [hcs]
      obtain ⟨d, mt', e, f⟩ := h9 i x hx h
      refine ⟨d, ?_⟩
      rw [hmt]
      split
      · rename_i hi; subst hi
        rw [hm] at e; cases e
        exact ⟨_, rfl, f⟩
      · exact ⟨mt', e, f⟩
    · intro i x hx h hy; rw [hch] at hx; rw [hco] at hy; rw [hcs]; exact h10 i x hx (hdlog h) hy
  | mark id new tag r ht hmt hh hn hcs hq hch hnc hl =>
    have hon : ∀ x, onChain x s' = onChain x s := fun x => onChain_eq (by rw [hl]; rfl) hq
    -- what kind of event this is
    have hkind : ((tag = .remove id ∨ (tag = .add id ∧ r = some true)) ∧ new = none) ∨
        ∃ c, tag = .insert id c ∧ r = some true ∧ new = some { chain := c, innerList := [] } ∧
          .insert id c ∈ epcTags s.epc ++ s.chan.map TimerEvent.tag := by
      rcases ht with ⟨a, b, _⟩ | ⟨m, e, hid, hne, hrr⟩
      · exact Or.inl ⟨Or.inl a, b⟩
      · subst hid
        rcases add3Tag hr e with ⟨a, b⟩ | ⟨c, a, b⟩
        · exact Or.inl ⟨Or.inr ⟨a, hrr⟩, by rw [hne, b]⟩
        · refine Or.inr ⟨c, a, hrr, by rw [hne, b], ?_⟩
          rw [e, a]; simp [epcTags]
    have hco : ∀ j, j ≠ id → chainOf j s'.log = chainOf j s.log := by
      intro j hj
      rw [hl]
      rcases hkind with ⟨rfl | ⟨rfl, rfl⟩, _⟩ | ⟨c, rfl, rfl, _⟩ <;> simp [chainOf, Ne.symm hj]
    have hcoid : chainOf id s'.log = new.map (·.chain) := by
      rw [hl]
      rcases hkind with ⟨rfl | ⟨rfl, rfl⟩, hne⟩ | ⟨c, rfl, rfl, hne, _⟩ <;> rw [hne] <;> simp [chainOf]
    have hdlog : ∀ {i c q}, .dispatched (.insert i c) q ∈ s'.log → .dispatched (.insert i c) q ∈ s.log ∨
        (i = id ∧ q = some true ∧ tag = .insert id c ∧ new = some { chain := c, innerList := [] }) := by
      intro i c q hx
      rw [hl] at hx
      rcases List.mem_cons.1 hx with hx | hx
      · right
        rcases hkind with ⟨rfl | ⟨rfl, rfl⟩, hne⟩ | ⟨c', rfl, rfl, hne, _⟩ <;> cases hx
        exact ⟨rfl, rfl, rfl, hne⟩
      · exact Or.inl hx
    -- the abandoned chain belongs to `id`
    have hother : ∀ {j c}, j ≠ id → .insert j c ∈ queuedTags s.log → s'.chainState c = s.chainState c := by
      intro j c hj h
      rw [hcs]
      cases hm : mts s id with
      | none => rfl
      | some mt =>
        simp only [abandon, set_apply]
        split
        · rename_i hc; subst hc
          have := dispatched_queued hr (mem_dispatchedTags.2 ⟨_, chainOf_dispatched (hs.cur id mt hm)⟩)
          exact absurd (insert_id hr h this) hj
        · rfl
    have hpendcs : ∀ {j c}, .insert j c ∈ epcTags s.epc ++ s.chan.map TimerEvent.tag → s'.chainState c = s.chainState c := by
      intro j c h
      rw [hcs]
      cases hm : mts s id with
      | none => rfl
      | some mt =>
        simp only [abandon, set_apply]
        split
        · rename_i hc; subst hc
          exact absurd (insert_pending hr (mem_dispatchedTags.2 ⟨_, chainOf_dispatched (hs.cur id mt hm)⟩) h) (fun h => h)
        · rfl
    have hkeep : ∀ {c}, s.chainState c = ABANDONED → s'.chainState c = ABANDONED := by
      intro c h; rw [hcs]; exact abandon_keep h
    obtain ⟨h1, h2, h3, h4, h5, h6, h7, h8, h9, h10⟩ := hs
    refine ⟨?_, ?_, ?_, ?_, ?_, ?_, ?_, ?_, ?_, ?_⟩
    · intro j mt h
      rw [hmt] at h
      split at h
      · rename_i hj; subst hj; rw [hcoid, h]; rfl
      · rename_i hj; rw [hco j hj]; exact h1 j mt h
    · intro x i hi; rw [hon] at hi
      obtain ⟨a, b⟩ := h2 x i hi
      exact ⟨hdt a, hdt b⟩
    · intro x; rw [hon]; exact (h3 x).trans (hdp.filterMap _)
    · intro j mt h i hi
      rw [hon] at hi; rw [hh]
      rw [hmt] at h
      split at h
      · rcases hkind with ⟨_, hne⟩ | ⟨c, rfl, rfl, hne, hp⟩
        · rw [hne] at h; cases h
        · rw [hne] at h; cases h
          exact absurd (insert_pending hr (h2 _ i hi).1 hp) (fun h => h)
      · exact h4 j mt h i hi
    · rw [hch, hnc]; exact h5
    · intro i c q h
      rcases hdlog h with h | ⟨_, h, _⟩
      · exact h6 i c q h
      · exact Or.inr h
    · intro i x hx h
      rw [hch] at hx
      have hp := hpend (by simp) i x h
      rw [hpendcs hp]; exact h7 i x hx hp
    · intro i x hx h
      rw [hch] at hx
      rcases hdlog h with h | ⟨_, h, _⟩
      · exact hkeep (h8 i x hx h)
      · cases h
    · intro i x hx h
      rw [hch] at hx
      by_cases hi : i = id
      · subst hi
        rw [hcoid] at h
        rcases hkind with ⟨_, hne⟩ | ⟨c, _, _, hne, hp⟩
        · rw [hne] at h; cases h
        · rw [hne] at h; simp at h; subst h
          exact ⟨by rw [hpendcs hp]; exact h7 _ _ hx hp, { chain := c, innerList := [] }, by rw [hmt, if_pos rfl, hne], rfl⟩
      · rw [hco i hi] at h
        obtain ⟨d, mt, e, f⟩ := h9 i x hx h
        refine ⟨?_, mt, by rw [hmt, if_neg hi]; exact e, f⟩
        rw [hother hi (dispatched_queued hr (mem_dispatchedTags.2 ⟨_, chainOf_dispatched h⟩))]
        exact d
    · intro i x hx h hy
      rw [hch] at hx
      rcases hdlog h with h | ⟨rfl, _, _, hne⟩
      · by_cases hold : chainOf i s.log = some x
        · by_cases hi : i = id
          · subst hi
            obtain ⟨_, mt, e, f⟩ := h9 i x hx hold
            rw [hcs, e, ← f]; simp [abandon, set_same]
          · rw [hco i hi] at hy; exact absurd hold hy
        · exact hkeep (h10 i x hx h hold)
      · rw [hcoid, hne] at hy; simp at hy

theorem chainOk {env : Env} {s : St} (h : Reachable env s) : ChainOk s := by
  suffices H : ∀ ls s s', Reachable env s → ChainOk s → run env s ls = some s' → ChainOk s' by
    obtain ⟨ls, hl⟩ := h
    refine H ls _ s (.init env) ⟨?_, ?_, ?_, ?_, ?_, ?_, ?_, ?_, ?_, ?_⟩ hl
    · intro _ _ h; cases h
    · intro _ _ h; cases h
    · intro _; exact List.nil_sublist _
    · intro _ _ h; cases h
    · intro _ h; cases h
    · intro _ _ _ h; cases h
    · intro _ _ h; cases h
    · intro _ _ h; cases h
    · intro _ _ h; cases h
    · intro _ _ h; cases h
  intro ls
  induction ls with
  | nil => intro s s' _ hs h; cases h; exact hs
  | cons l ls ih =>
    intro s s' hr hs h
    simp only [run] at h
    split at h
    · rename_i s1 h1
      exact ih s1 s' (hr.step h1) (chainOk_step hr (hr.step h1) hs (step_act h1)) h
    · cases h

theorem dull_regsOn {news log : List Obs} (h : ∀ o ∈ news, Dull o) (c : Nat) :
    regsOn c (news ++ log) = regsOn c log := by
  induction news with
  | nil => rfl
  | cons o news ih =>
    have h1 := h o List.mem_cons_self
    have h2 := ih (fun o ho => h o (List.mem_cons_of_mem _ ho))
    rw [List.cons_append]
    cases o
    case dispatched t r =>
      cases t
      all_goals first | exact h1.elim | simpa [regsOn] using h2
    all_goals simpa [regsOn] using h2

theorem regsOn_end (k : EndKind) (id : Nat) (rec : Int) (r : Option Bool) (log : List Obs) (c : Nat) :
    regsOn c (.dispatched (k.tag id rec) r :: log) = regsOn c log := by
  cases k <;> simp [regsOn, EndKind.tag]

theorem regsOn_none {c : Nat} {log : List Obs} (h : ∀ id r, .dispatched (.insert id c) r ∉ log) :
    regsOn c log = [] := by
  induction log with
  | nil => rfl
  | cons o log ih =>
    have h2 := ih fun id r hx => h id r (List.mem_cons_of_mem _ hx)
    cases o
    case dispatched t r =>
      cases t
      case append i q =>
        simp only [regsOn]
        split
        · rename_i hc
          exact absurd (List.mem_cons_of_mem _ (chainOf_dispatched hc)) (h _ _)
        · exact h2
      all_goals simpa [regsOn] using h2
    all_goals simpa [regsOn] using h2

/-- On a chain in use are exactly the runs registered while it was the chain of its task. -/
theorem chainRuns {env : Env} {s : St} (h : Reachable env s) {c : Nat} (hc : s.chainHeld c = true) :
    (onChain c s).map (·.recordId) = regsOn c s.log := by
  revert c
  refine Reachable.induct (fun s => ∀ {c}, s.chainHeld c = true → (onChain c s).map (·.recordId) = regsOn c s.log)
    ?_ ?_ s h
  · intro c h; cases h
  intro s l s' hr hs ha c hc
  have key : s.chainHeld c = true → onChain c s' = onChain c s → regsOn c s'.log = regsOn c s.log →
      (onChain c s').map (·.recordId) = regsOn c s'.log := by
    intro h1 h2 h3; rw [h2, h3]; exact hs h1
  have hi := instStep hr ha
  cases hi with
  | dull _ hsame news hl hdull =>
    obtain ⟨a1, a2, a3, a4, a5, a6, a7⟩ := hsame
    exact key (by rw [← a6]; exact hc) (onChain_eq (by rw [hl, dull_delivered hdull]) a5) (by rw [hl, dull_regsOn hdull])
  | miss k id rec r hb hsame hl =>
    obtain ⟨a1, a2, a3, a4, a5, a6, a7⟩ := hsame
    exact key (by rw [← a6]; exact hc) (onChain_eq (by rw [hl]; rfl) a5) (by rw [hl, regsOn_end])
  | quiet k id rec r hb hm hsame hl =>
    obtain ⟨a1, a2, a3, a4, a5, a6, a7⟩ := hsame
    exact key (by rw [← a6]; exact hc) (onChain_eq (by rw [hl]; rfl) a5) (by rw [hl, regsOn_end]; rfl)
  | dropped k id rec r mt hb hm hdr hmt hh hn hcs hq hch hnc hl =>
    exact key (by rw [← hch]; exact hc) (onChain_eq (by rw [hl]; rfl) hq) (by rw [hl, regsOn_end]; rfl)
  | plain id box rest he hcn hm hsame hl =>
    obtain ⟨a1, a2, a3, a4, a5, a6, a7⟩ := hsame
    refine key (by rw [← a6]; exact hc) (onChain_eq (by rw [hl]; rfl) a5) ?_
    rw [hl]
    simp only [regsOn]
    rw [if_neg]
    intro hx
    obtain ⟨_, mt, e, _⟩ := (chainOk hr).live id c (by rw [← a6]; exact hc) hx
    rw [hm] at e; cases e
  | nobody id box rest mt he hcn hm hdr hmt hh hn hcs hq hch hnc hl =>
    refine key (by rw [← hch]; exact hc) (onChain_eq (by rw [hl]; rfl) hq) ?_
    rw [hl]
    simp only [regsOn]
    rw [if_neg]
    intro hx
    obtain ⟨hlv, mt', e, f⟩ := (chainOk hr).live id c (by rw [← hch]; exact hc) hx
    rw [hm] at e; cases e
    rw [f, hlv] at hdr; cases hdr
  | found k id rec r mt a i b hb hm hdr hil hi hmt hh hn hcs hq hch hnc hl =>
    exact key (by rw [← hch]; exact hc) (onChain_eq (by rw [hl]; rfl) hq) (by rw [hl, regsOn_end]; rfl)
  | deliver c' i rest hheld hab hqu hmt hh hn hcs hq hch hnc hl =>
    refine key (by rw [← hch]; exact hc) ?_ (by rw [hl]; rfl)
    simp only [onChain, hl, hq, deliveredOn, set_apply]
    by_cases hcc : c = c'
    · subst hcc; simp [hqu]
    · simp [hcc, Ne.symm hcc]
  | drop c' hheld hmt hh hn hcs hq hch hnc hl =>
    refine key ?_ (onChain_eq (by rw [hl]) hq) (by rw [hl])
    rw [hch, set_apply] at hc
    split at hc
    · cases hc
    · exact hc
  | insert t hmt hh hn hcs hq hch hnc hl =>
    by_cases hcn : c = s.nextChain
    · subst hcn
      have hlt : ∀ {id r}, .dispatched (.insert id s.nextChain) r ∉ s.log := by
        intro id r h
        have := mem_insertChains (dispatched_queued hr (mem_dispatchedTags.2 ⟨_, h⟩))
        rw [insertChains_range hr] at this
        simp at this
      have hnew : onChain s.nextChain s = [] := by
        rw [List.eq_nil_iff_forall_not_mem]
        intro i hi
        obtain ⟨r, h⟩ := mem_dispatchedTags.1 ((chainOk hr).own _ i hi).1
        exact hlt h
      simp only [onChain, List.append_eq_nil_iff] at hnew
      have h1 : regsOn s.nextChain s'.log = [] := by
        rw [hl]; exact regsOn_none (log := s.log) fun id r => hlt
      rw [h1]
      simp only [onChain, hl, hq, set_same, deliveredOn, hnew.1, List.append_nil, List.map_nil]
    · refine key ?_ ?_ (by rw [hl]; rfl)
      · rw [hch, set_other _ _ _ hcn] at hc; exact hc
      · simp only [onChain, hl, hq, set_other _ _ _ hcn, deliveredOn]
  | refused t c' hand he hmt hh hn hcs hq hch hnc hl =>
    exact key (by rw [← hch]; exact hc) (onChain_eq (by rw [hl]; rfl) hq) (by rw [hl]; rfl)
  | mark id new tag r ht hmt hh hn hcs hq hch hnc hl =>
    refine key (by rw [← hch]; exact hc) (onChain_eq (by rw [hl]; rfl) hq) ?_
    rw [hl]
    rcases ht with ⟨rfl, _⟩ | ⟨m, e, _⟩
    · rfl
    · rcases add3Tag hr e with ⟨rfl, _⟩ | ⟨c, rfl, _⟩ <;> rfl
  | newInst id box rest mt he hcn hm hdr hmt hh hn hcs hq hch hnc hl =>
    have hc0 : s.chainHeld c = true := by rw [← hch]; exact hc
    rw [hl]
    simp only [regsOn, onChain, hl, hq, deliveredOn, set_apply]
    by_cases hx : c = mt.chain
    · subst hx
      rw [if_pos ((chainOk hr).cur id mt hm), ← hs hc0]
      simp [onChain]
    · rw [if_neg hx, if_neg, ← hs hc0]
      · rfl
      · intro h; rw [(chainOk hr).cur id mt hm] at h; cases h; exact hx rfl

/-- What stands behind an event on the channel. -/
def Cause (env : Env) (ls : List Label) (s : St) : Tag → Prop
  | .append id rec => ∃ rtn n ts, .started id rtn rec n ts ∈ s.log
  | .finish id rec => BodyOver env id rec s.log
  | .cancel id rec => ∃ l ∈ ls, CancelCall id rec l
  | .insert id _ => ∃ t, .uInsert t ∈ ls ∧ t.taskId = id
  | _ => True

theorem cause {env : Env} {ls : List Label} {s : St} (h : run env (init env) ls = some s) {t : Tag}
    (ht : t ∈ queuedTags s.log) : Cause env ls s t := by
  revert t
  refine handed_induct (fun ls s => ∀ {t}, t ∈ queuedTags s.log → Cause env ls s t) ?_ ?_ ls s h
  · intro t h; cases h
  intro ls s l s' hr hs ha t ht
  have hrr : Reachable env s := ⟨ls, hr⟩
  have hold : t ∈ queuedTags s.log → Cause env (ls ++ [l]) s' t := by
    intro h
    have := hs h
    cases t <;> simp only [Cause] at this ⊢
    · obtain ⟨t, h1, h2⟩ := this
      exact ⟨t, List.mem_append_left _ h1, h2⟩
    · obtain ⟨l, h1, h2⟩ := this
      exact ⟨l, List.mem_append_left _ h1, h2⟩
    · exact bodyOver_mono this (fun h => log_mono ha h)
    · obtain ⟨a, b, c, h1⟩ := this
      exact ⟨a, b, c, log_mono ha h1⟩
  rcases log_cases ha with ⟨n, hn, hmi, hsub⟩ | ⟨p, t, rec, box', rfl, hp, hp', hb, hn, hce⟩ | ⟨e'', hc', hn, he⟩ | ⟨u, now, n, rfl, hp, hc', hn⟩ | ⟨rec, r, rfl, hrt, hn, hce⟩
  · rw [hn, queuedTags_minor hmi] at ht; exact hold ht
  · rw [hn] at ht; exact hold ht
  · rw [hn] at ht
    simp only [queuedTags, List.mem_append, List.mem_singleton] at ht
    rcases ht with ht | ht
    · exact hold ht
    · subst ht
      rcases he with ⟨p, t, box', rfl, hp, rfl⟩ | ⟨_, _, r, rfl, hrt, hg, hb, rfl⟩ | ⟨op, rfl, rfl⟩ | ⟨t, c, rfl, rfl⟩ | ⟨w, i, rfl, rfl⟩
      · obtain ⟨_, ⟨rtn, n, h1⟩, _⟩ := (rtOk hrr).app p t box' hp
        exact ⟨rtn, n, _, log_mono ha h1⟩
      · exact bodyOver_mono (((rtOk hrr).rt _ _ hrt).2.2 hb) (fun h => log_mono ha h)
      · cases op <;> simp [Cause, UserOp.event, TimerEvent.tag]
        right; exact ⟨rfl, rfl⟩
      · exact ⟨t, by simp, rfl⟩
      · exact ⟨.uCancel w i, by simp, rfl, rfl⟩
  · rw [hn] at ht
    simp only [queuedTags, List.mem_append, List.mem_singleton] at ht
    rcases ht with ht | ht
    · exact hold ht
    · subst ht; trivial
  · rw [hn] at ht; exact hold ht

end DelayTimer
