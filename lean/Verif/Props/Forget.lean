import Verif.Props.Count
import Verif.Props.Instances
import Verif.Proofs.Parallel
import Verif.Props.Operations

/-! Property C50: what is left of a count-down task after its last run. -/

namespace DelayTimer
open Spec

theorem wheelW_ge (k : Nat) (w : Nat → Option Slot) : ∀ n i, i < n → slotW k (w i) ≤ wheelW k w n := by
  intro n
  induction n with
  | zero => intro i hi; omega
  | succ n ih =>
    intro i hi
    simp only [wheelW]
    by_cases h : i = n
    · subst h; omega
    · have := ih i (by omega); omega

theorem counted_run {env : Env} {k : Nat} : ∀ (ls : List Label) {s s' : St}, Copies Counted Counted k s →
    (∀ t ∈ handed k ls, Counted t) → run env s ls = some s' → Copies Counted Counted k s' := by
  intro ls
  induction ls with
  | nil => intro s s' hs _ hr; cases hr; exact hs
  | cons l ls ih =>
    intro s s' hs hb hr
    simp only [run] at hr
    split at hr
    · rename_i s1 h1
      simp only [handed, List.flatMap_cons, List.mem_append] at hb
      exact ih (counted_step (fun t ht => hb t (Or.inl ht)) hs (step_act h1)) (fun t ht => hb t (Or.inr ht)) hr
    · cases hr

/-- No copy of `k` is left anywhere. -/
def Spent (k : Nat) (s : St) : Prop := Copies (fun _ => False) (fun _ => False) k s

theorem spent_step {env : Env} {k : Nat} {s : St} {l : Label} {s' : St} (hs : Spent k s) (hl : ¬ Brings k l)
    (h : Act env s l s') : Spent k s' :=
  copies_step (fun _ _ h => h) (fun _ h => h) (fun _ _ h _ => h) (fun _ h => h) (by rw [broughtBy_nil hl]; simp) hs h

theorem spent {env : Env} {k n : Nat} {t : Task} {ls : List Label} {s : St}
    (hr : run env (init env) ls = some s) (ht : handed k ls = [t]) (hn : runsLeft t = some n) (h1 : 1 ≤ n)
    (hs : (startTicks k s.log).length = n) (hp : ¬ Handling k s.tpc) : Spent k s := by
  have hre : Reachable env s := ⟨ls, hr⟩
  have hc0 : ∀ u ∈ handed k ls, Counted u := by
    rw [ht]; intro u hu; cases List.mem_singleton.1 hu; exact ⟨n, hn, h1⟩
  have htot := total_run ls (wheelOk (Reachable.init env)) (copies_init env Counted Counted k) hc0 hr
  rw [total_init] at htot
  have h2 : ((handed k ls).map weight).sum = n := by simp [ht, weight, hn]
  have h3 : (startTicks k (init env).log).length = 0 := rfl
  have h4 : total k s = 0 := by omega
  simp only [total] at h4
  have hcop := counted_run ls (copies_init env Counted Counted k) hc0 hr
  have hchan : ∀ e ∈ s.chan, eventW k e = 0 := by
    intro e he
    obtain ⟨a, b, hc⟩ := List.append_of_mem he
    simp only [hc, chanW, List.map_append, List.map_cons, List.sum_append, List.sum_cons] at h4
    omega
  refine ⟨?_, ?_, ?_, ?_, ?_, ?_⟩
  · intro u hu
    have h5 := (hcop.chan u hu).weight
    obtain ⟨hk, he | ⟨c, he⟩⟩ := mem_chanAdds.1 hu
    all_goals
      have := hchan _ he
      simp only [eventW, if_pos hk] at this
      omega
  · intro u he hk
    have h5 := (hcop.upd u he hk).weight
    have := hchan _ he
    simp only [eventW, if_pos hk] at this
    omega
  · intro u hu
    have h5 := (hcop.epc u hu).weight
    obtain ⟨a, b, hc⟩ := List.append_of_mem hu
    simp only [epcW, hc, List.map_append, List.map_cons, List.sum_append, List.sum_cons] at h4
    omega
  · rintro i u ⟨sl, hw, hu, hk⟩
    have hi : i < 3600 := ((wheelOk hre).shape.1 i).1 (by rw [hw]; rfl)
    have h5 := wheelW_ge k s.wheel 3600 i hi
    have h6 : 1 ≤ slotW k (s.wheel i) := by
      rw [hw]
      cases hf : sl.find? (fun x => x.taskId == k) with
      | none =>
        have := List.find?_eq_none.1 hf u hu
        simp [hk] at this
      | some v =>
        rw [slotW_of hf]
        exact (hcop.wheel i v ⟨sl, hw, List.mem_of_find?_eq_some hf, by simpa using List.find?_some hf⟩).weight
    omega
  · intro u hu
    apply hp
    revert hu
    cases s.tpc <;> simp +contextual [heldTok, Handling]
  · intro u hu
    apply hp
    revert hu
    cases s.tpc <;> simp +contextual [startedTok, Handling]

/-- **C50**, the part that holds: when a task with a count-down of `n` has been started `n` times and the scheduler
is through with the last of these runs, no copy of it is left in the wheel or anywhere else; and when its runs
have ended, none of them is left in the books. What is missing is the record of the task: it is kept for ever
(`C50_record_kept`), and so is its chain, so that `next*` blocks for ever (`C50_blocks`). -/
theorem C50_partial {env : Env} {k n : Nat} {t : Task} {ls : List Label} {s : St}
    (hr : run env (init env) ls = some s) (ht : handed k ls = [t]) (hn : runsLeft t = some n) (h1 : 1 ≤ n)
    (hs : (startTicks k s.log).length = n) (hp : ¬ Handling k s.tpc) :
    Unscheduled k s ∧ ((∀ r ∈ startedRecsOf k s.log, RunEnded k r s.log) → s.trace k = []) := by
  have hre : Reachable env s := ⟨ls, hr⟩
  have hsp := spent hr ht hn h1 hs hp
  refine ⟨⟨⟨?_, hp⟩, ?_, ?_⟩, ?_⟩
  · rintro ⟨i, sl, u, hw⟩
    exact hsp.wheel i u ⟨sl, hw⟩
  · exact chanAdds_nil_iff.1 (List.eq_nil_iff_forall_not_mem.2 hsp.chan)
  · intro ha
    have h6 := hsp.epc
    cases he : s.epc <;> simp only [he, Adding] at ha
    all_goals simp [he, epcTok, if_pos ha] at h6
  · intro hend
    rw [List.eq_nil_iff_forall_not_mem]
    intro b hb
    have h6 := (ongoing_iff hre).2 (trace_open hre hb)
    exact h6.2 (hend _ h6.1)

/-- What a waiting call of `next*` on chain `c` of task `k` depends on. -/
structure Settled (k c : Nat) (s : St) : Prop where
  chain : chainOf k s.log = some c
  quiet : Quiet k s
  epc : ∀ tag m, s.epc = .add3 tag m → m.taskId ≠ k

theorem settled_step {env : Env} {k c : Nat} {s : St} {l : Label} {s' : St} (hr : Reachable env s)
    (hs : Settled k c s) (hnt : ¬ Touches k l) (ha : Act env s l s') : Settled k c s' := by
  obtain ⟨h1, h2, h3⟩ := hs
  refine ⟨?_, quiet_step h2 hnt ha, ?_⟩
  · have same : chainOf k s'.log = chainOf k s.log → chainOf k s'.log = some c := fun h => by rw [h]; exact h1
    cases instStep hr ha with
    | dull _ hx news hl hdull => exact same (by rw [hl, dull_chainOf hdull])
    | miss k _ _ _ _ hx hl => exact same (by rw [hl, chainOf_end])
    | quiet k _ _ _ _ _ hx hl => exact same (by rw [hl, chainOf_end]; rfl)
    | plain _ _ _ _ _ _ hx hl => exact same (by rw [hl]; rfl)
    | found k i rec r mt a x b hb hm hdr hil hi hmt hh hn hcs hq hch hnc hl => exact same (by rw [hl, chainOf_end]; rfl)
    | newInst _ _ _ _ _ _ _ _ _ _ _ _ _ _ _ hl => exact same (by rw [hl]; rfl)
    | dropped _ _ _ _ _ _ _ _ _ _ _ _ _ _ _ hl => exact same (by rw [hl, chainOf_end]; rfl)
    | nobody _ _ _ _ _ _ _ _ _ _ _ _ _ _ _ hl => exact same (by rw [hl]; rfl)
    | refused _ _ _ _ _ _ _ _ _ _ _ hl => exact same (by rw [hl]; rfl)
    | drop _ _ _ _ _ _ _ _ _ hl => exact same (by rw [hl])
    | insert _ _ _ _ _ _ _ _ hl => exact same (by rw [hl]; rfl)
    | deliver _ _ _ _ _ _ _ _ _ _ _ _ _ hl => exact same (by rw [hl]; rfl)
    | mark j new tag r ht hmt hh hn hcs hq hch hnc hl =>
      rw [hl]
      rcases ht with ⟨rfl, _, ok, he⟩ | ⟨m, he, hid, _, rfl⟩
      · have : j ≠ k := fun h => h2.epc (by rw [he]; exact h)
        simp only [chainOf, if_neg this]; exact h1
      · have hk : m.taskId ≠ k := h3 tag m he
        rcases add3Tag hr he with ⟨rfl, _⟩ | ⟨c', rfl, _⟩
        · simp only [chainOf, if_neg hk]; exact h1
        · simp only [chainOf, if_neg hk]; exact h1
  · intro tag m he hk
    cases ha
    all_goals try (exact h3 tag m he hk)
    all_goals try (simp at he; done)
    case next_add2 t chain hand exec ts seed slot sl he' hseed hslot hw =>
      cases he
      exact h2.epc (by rw [he']; exact hk)
    case next_add2_missing t chain hand exec ts seed slot he' hseed hslot hw =>
      cases he
      exact h2.epc (by rw [he']; exact hk)

/-- **C50** fails: the record of a task is kept until an operation on it is called, however few runs it has left. -/
theorem C50_record_kept {env : Env} {k : Nat} {s s' : St} {ls : List Label} (hr : Reachable env s) (hq : Quiet k s)
    (hf : s.flags k ≠ none) (hl : ∀ l ∈ ls, ¬ Touches k l) (hrun : run env s ls = some s') : s'.flags k ≠ none :=
  (onward (fun x => Quiet k x ∧ x.flags k ≠ none) (fun l => ¬ Touches k l)
    (fun _ _ _ _ _ hx hl h => ⟨quiet_step hx.1 hl h, marked_step (fun _ => hx.1.epc) hx.2 h⟩) ls s s' hr hl ⟨hq, hf⟩ hrun).2

/-- **C50** fails: a chain does not expire until an operation on its task is called, however few runs that has left. -/
theorem C50_never_expires {env : Env} {k c : Nat} {s s' : St} {ls : List Label} (hr : Reachable env s)
    (hs : Settled k c s) (hl : ∀ l ∈ ls, ¬ Touches k l) (hrun : run env s ls = some s') : ¬ nextExpires env s' c := by
  have h1 := onward (Settled k c) (fun l => ¬ Touches k l) (fun _ _ _ hr _ hx hl h => settled_step hr hx hl h) ls s s' hr hl
    hs hrun
  have hr' := hr.run hrun
  intro hx
  cases hh : s'.chainHeld c with
  | false => simp [nextExpires, step, uNext, hh] at hx
  | true =>
    have h2 := (C25_expires hr' (id := k) hh (dispatched_queued hr'
      (mem_dispatchedTags.2 ⟨_, chainOf_dispatched h1.chain⟩))).2 (Or.inr h1.chain)
    cases hq : s'.chainQueue c with
    | nil => rw [nextExpires, h2.1 hq] at hx; cases hx
    | cons i rest =>
      obtain ⟨s2, h3, h4⟩ := h2.2 i rest hq
      rw [nextExpires, h3] at hx
      cases hx
      simp at h4

/-- No run of `k` is about to be registered. -/
structure NoMore (k : Nat) (s : St) : Prop where
  spent : Spent k s
  chan : ∀ box, .appendTaskHandle k box ∉ s.chan

theorem noMore_step {env : Env} {k : Nat} {s : St} {l : Label} {s' : St} (hs : NoMore k s) (hl : ¬ Brings k l)
    (h : Act env s l s') : NoMore k s' := by
  refine ⟨spent_step hs.spent hl h, fun box hb => ?_⟩
  rcases chan_sub h hb with h1 | ⟨p, t, box', rfl, h2, h3⟩ | ⟨_, _, _, _, _, _, _, h3⟩ | ⟨op, _, h3⟩ | ⟨_, _, _, h3⟩ |
    ⟨_, _, _, h3⟩ | ⟨_, _, h3⟩
  · exact hs.chan box h1
  · cases h3
    exact hs.spent.started t (by rw [h2]; simp [startedTok])
  · cases h3
  · cases op <;> cases h3
  · cases h3
  · cases h3
  · cases h3

theorem noMore_queue {env : Env} {k c : Nat} {s : St} {l : Label} {s' : St} (hr : Reachable env s) (hs : NoMore k s)
    (hc : chainOf k s.log = some c) (hq : s.chainQueue c = []) (h : Act env s l s') : s'.chainQueue c = [] := by
  have same : s'.chainQueue = s.chainQueue → s'.chainQueue c = [] := fun h => by rw [h]; exact hq
  cases instStep hr h with
  | dull _ hx => exact same hx.cq
  | miss k _ _ _ _ hx hl => exact same hx.cq
  | quiet k _ _ _ _ _ hx hl => exact same hx.cq
  | plain _ _ _ _ _ _ hx hl => exact same hx.cq
  | found k i rec r mt a x b hb hm hdr hil hi hmt hh hn hcs hq hch hnc hl => exact same hq
  | newInst id box rest mt he hcn hm hd hmt hh hn hcs hq' hch hnc hl =>
    rw [hq', set_apply]
    split
    · rename_i h1
      exfalso
      have h2 := chainOf_dispatched ((chainOk hr).cur id mt hm)
      have h3 : id = k := insert_id hr (dispatched_queued hr (mem_dispatchedTags.2 ⟨_, h2⟩))
        (dispatched_queued hr (mem_dispatchedTags.2 ⟨_, h1 ▸ chainOf_dispatched hc⟩))
      subst h3
      exact hs.chan box (by rw [hcn]; exact List.mem_cons_self)
    · exact hq
  | dropped _ _ _ _ _ _ _ _ _ _ _ _ hq => exact same hq
  | nobody _ _ _ _ _ _ _ _ _ _ _ _ hq => exact same hq
  | refused _ _ _ _ _ _ _ _ hq => exact same hq
  | drop _ _ _ _ _ _ hq => exact same hq
  | insert t hmt hh hn hcs hq' =>
    rw [hq', set_apply]
    split
    · rfl
    · exact hq
  | deliver c' i rest hheld ha hqu hmt hh hn hcs hq' =>
    rw [hq', set_apply]
    split
    · rename_i h1
      rw [← h1, hq] at hqu; cases hqu
    · exact hq
  | mark j new tag r ht hmt hh hn hcs hq hch hnc hl => exact same hq

/-- **C50** fails in every case: when a task with a count-down of `n` and a chain has been started `n` times, all its
runs have ended and its instances have been fetched, every call of `next*` blocks, whatever happens, until an
operation on the task is called or the chain is dropped. -/
theorem C50_blocks {env : Env} {k n c : Nat} {t : Task} {ls ls' : List Label} {s s' : St}
    (hr : run env (init env) ls = some s) (ht : handed k ls = [t]) (hn : runsLeft t = some n) (h1 : 1 ≤ n)
    (hs : (startTicks k s.log).length = n) (hp : ¬ Handling k s.tpc)
    (he : ∀ r ∈ startedRecsOf k s.log, RunEnded k r s.log) (hset : Settled k c s) (hq : s.chainQueue c = [])
    (hl : ∀ l ∈ ls', ¬ Touches k l) (hrun : run env s ls' = some s') : step env s' (.uNext c) = none := by
  have hre : Reachable env s := ⟨ls, hr⟩
  have hnm : NoMore k s := by
    refine ⟨spent hr ht hn h1 hs hp, fun box hb => ?_⟩
    obtain ⟨_, rtn, m, h2⟩ := (rtOk hre).chanApp k box hb
    have h3 := (traceOk hre).stop k box.recordId (((repOk hre).ended _ _).1 (he _ (startedRecsOf_iff.2 ⟨_, _, _, h2⟩)))
    have h4 := (recOk hre).sorted
    rw [(recOk hre).start, fifo hre] at h4
    simp only [appendRecs_append, List.append_assoc] at h4
    rw [List.pairwise_append] at h4
    have h5 := h4.2.2 box.recordId (by
      simp only [appendRecs, List.mem_filterMap]
      exact ⟨_, h3, rfl⟩) box.recordId (by
      refine List.mem_append_right _ (List.mem_append_left _ ?_)
      simp only [appendRecs, List.mem_filterMap]
      exact ⟨_, List.mem_map.2 ⟨_, hb, rfl⟩, rfl⟩)
    exact h5.1 rfl
  obtain ⟨h2, h3, h4⟩ := onward (fun x => Settled k c x ∧ NoMore k x ∧ x.chainQueue c = []) (fun l => ¬ Touches k l)
    (fun _ _ _ hr _ hx hl h => ⟨settled_step hr hx.1 hl h, noMore_step hx.2.1 (fun hb => hl (Touches.of_brings hb)) h,
      noMore_queue hr hx.2.1 hx.1.chain hx.2.2 h⟩) ls' s s' hre hl ⟨hset, hnm, hq⟩ hrun
  have hr' := hre.run hrun
  cases hh : s'.chainHeld c with
  | false => simp [step, uNext, hh]
  | true =>
    exact ((C25_expires hr' (id := k) hh (dispatched_queued hr'
      (mem_dispatchedTags.2 ⟨_, chainOf_dispatched h2.chain⟩))).2 (Or.inr h2.chain)).1 h4

/-- **C50** as listed, for a moment at which nothing is under way. -/
def C50_statement : Prop :=
  ∀ (env : Env) (k n : Nat) (t : Task) (ls : List Label) (s : St), run env (init env) ls = some s → handed k ls = [t] →
    runsLeft t = some n → 1 ≤ n → (startTicks k s.log).length = n → (∀ r ∈ startedRecsOf k s.log, RunEnded k r s.log) →
    s.epc = .idle → s.chan = [] → ¬ Handling k s.tpc → s.flags k = none

namespace Ex

/-- Task 1 with a count of one is inserted, runs, its instance is fetched and its run ends. -/
def single : List Label := ins (times 1 1 101 3) ++ idles 2 ++ pop 1 0 ++
  [.tLapse, .eRecv, .rBody 0, .rFinish 0 0, .eRecv, .uNext 0]

def singleS : St := play env0 single

/-- The hypotheses of `C50_partial`, `C50_record_kept`, `C50_never_expires` and `C50_blocks` are met. -/
theorem single_ok : run env0 (init env0) single = some singleS ∧ handed 1 single = [times 1 1 101 3] ∧
    runsLeft (times 1 1 101 3) = some 1 ∧ (startTicks 1 singleS.log).length = 1 ∧
    (∀ r ∈ startedRecsOf 1 singleS.log, RunEnded 1 r singleS.log) ∧ ¬ Handling 1 singleS.tpc ∧ Settled 1 0 singleS ∧
    singleS.chainQueue 0 = [] ∧ singleS.chainHeld 0 = true ∧ singleS.flags 1 ≠ none ∧ deliveredOn 0 singleS.log ≠ [] := by
  have hr : (run env0 (init env0) single).isSome = true := by decide +kernel
  refine ⟨play_run hr, rfl, rfl, by decide +kernel, ?_, ?_, ⟨by decide +kernel, ⟨?_, ?_⟩, ?_⟩, rfl, rfl, ?_, by decide +kernel⟩
  · intro r h
    rw [show startedRecsOf 1 singleS.log = [0] by decide +kernel] at h
    cases List.mem_singleton.1 h
    exact ((repOk (play_reachable hr)).ended _ _).2 (by decide +kernel)
  · rw [show singleS.tpc = .head from rfl]; exact id
  · rw [show singleS.chan = [] from rfl]; simp
  · rw [show singleS.epc = .idle from rfl]; exact id
  · rw [show singleS.epc = .idle from rfl]; simp
  · intro h
    have : (singleS.flags 1).isSome = true := by rfl
    rw [h] at this; cases this

/-- What may go on afterwards. -/
def singleRest : List Label := add (every 2 110 5) ++ idles 8 ++ [.uSend (.remove 2), .eRecv, .eNext]

example : ∃ s', run env0 singleS singleRest = some s' ∧ step env0 s' (.uNext 0) = none :=
  ⟨_, rfl, C50_blocks (ls' := singleRest) single_ok.1 single_ok.2.1 single_ok.2.2.1 (Nat.le_refl 1) single_ok.2.2.2.1
    single_ok.2.2.2.2.2.1 single_ok.2.2.2.2.1 single_ok.2.2.2.2.2.2.1 single_ok.2.2.2.2.2.2.2.1 (by decide) rfl⟩

end Ex

/-- **C50** does not hold. -/
theorem C50_fails : ¬ C50_statement := by
  intro h
  obtain ⟨h1, h2, h3, h4, h5, h6, _, _, _, h7, _⟩ := Ex.single_ok
  exact h7 (h Ex.env0 1 1 _ _ _ h1 h2 h3 (Nat.le_refl 1) h4 h5 rfl rfl h6)

end DelayTimer
