import Verif.Props.FairCourse
import Verif.Props.Instances
import Verif.Props.Cancel
import Verif.Props.Forget

/-!
C74: a cancelled run ends sooner or later, and its handle says so. C75: whoever goes on asking a chain gets every run.
-/

namespace DelayTimer

open Spec

/-! ## C74 -/

theorem cancel_queued {env : Env} {s s' : St} {l : Label} {id : Nat} {rec : Int} (hl : CancelCall id rec l)
    (h : step env s l = some s') : queuedTags s'.log = queuedTags s.log ++ [.cancel id rec] := by
  cases l <;> try (exact hl.elim)
  case uSend op =>
    cases op <;> try (exact hl.elim)
    case cancel i r =>
      obtain ⟨rfl, rfl⟩ := hl
      simp only [step, Option.some.injEq] at h
      rw [← h]; rfl
  case uCancel w i =>
    obtain ⟨rfl, rfl⟩ := hl
    simp only [step, uCancel, cancelInstance] at h
    split at h
    · split at h
      · cases h
      · rename_i hx
        split at hx
        · cases hx
        · cases hx
          cases h
          rfl
    · cases h

/-- **C74** A cancel request ends the run sooner or later: if the registration of the run has been accepted when the
request is made, as it has when the caller has its id from a handle or a public event, the run has ended sooner or
later (if it had not before). -/
theorem C74_ends {env : Env} (c : Course env) (hf : c.WeaklyFair (ByEvents · = true)) (hl : c.Listening) {n id : Nat}
    {rec : Int} {l : Label} (hq : .append id rec ∈ queuedTags (c.st n).log) (hlab : c.lab n = some l)
    (hc : CancelCall id rec l) : c.Comes n fun s => RunEnded id rec s.log ∧ .stopped id rec ∈ s.log := by
  obtain ⟨m, hm, b, hb⟩ := C70_processed c hf hl (n + 1)
  rw [cancel_queued hc (course_step c hlab), List.append_assoc, List.singleton_append] at hb
  obtain ⟨l1, l2, r, h3, h4⟩ := dispatched_split hb.symm
  have he : RunEnded id rec (c.st m).log := ⟨l1, l2, _, r, h3, by simp [endTags], by rw [h4]; exact hq⟩
  exact ⟨m, by omega, he, ((repOk (course_reach c m)).ended _ _).1 he⟩

/-- From moment `n` on the chain `k` is held by the user and belongs to the current registration of `id`. -/
def ChainStays {env : Env} (c : Course env) (n id k : Nat) : Prop :=
  ∀ m, n ≤ m → (c.st m).chainHeld k = true ∧ chainOf id (c.st m).log = some k

/-- **C74** The handle of a cancelled run says sooner or later that the run is over, if the chain is held and the task
neither removed nor replaced (otherwise: C24). -/
theorem C74_handle {env : Env} (c : Course env) (hf : c.WeaklyFair (ByEvents · = true)) (hl : c.Listening) {n k : Nat}
    {i : Instance} {l : Label} (hi : i ∈ deliveredOn k (c.st n).log) (hk : ChainStays c n i.taskId k) (hlab : c.lab n = some l)
    (hc : CancelCall i.taskId i.recordId l) : ∃ m0, n ≤ m0 ∧ ∀ m, m0 ≤ m → (c.st m).hdrState i.hdr ≠ RUNNING := by
  have hr := course_reach c n
  have hq := dispatched_queued hr ((chainOk hr).own k i (List.mem_append_left _ hi)).2
  obtain ⟨m, hm, _, hs⟩ := C74_ends c hf hl hq hlab hc
  refine ⟨m, hm, fun j hj => ?_⟩
  obtain ⟨ls, _, h⟩ := course_between c hj
  refine C24_reported_partial (course_reach c m) (c := k) ?_ (hk m hm).1 (hk m hm).2 hs h
  exact mem_deliveredOn.2 (course_log c hm (mem_deliveredOn.1 hi))

theorem waiter_woken {env : Env} (c : Course env) {w h n m : Nat} (hw : (c.st n).waiters w = .listening h)
    (hrun : (c.st n).hdrState h = RUNNING) (hg : ∀ j, n ≤ j → c.lab j ≠ some (.uGiveUp w)) (hm : n ≤ m)
    (he : (c.st m).hdrState h ≠ RUNNING) :
    (c.st m).waiters w = .woken h ∨ (c.st m).waiters w = .returned ((c.st m).hdrState h) := by
  obtain ⟨ls, h1, h2, h3⟩ := between_mem c (P := fun l => l ≠ .uGiveUp w) hm (fun i l hi hl hx => hg i hi (hx ▸ hl))
  rcases C23_woken_partial (course_reach c n) hw hrun h2 he with h | h | ⟨_, h⟩
  · exact Or.inl h
  · exact Or.inr h
  · exact absurd rfl (h1 _ h)

/-- **C74** `cancel_with_wait` returns, with the final state, if the caller comes to listen before the run is over
(otherwise: C23): the caller `w` cancels through its handle, and its chain is held and current. -/
theorem C74_returns {env : Env} (c : Course env) (hf : c.WeaklyFair (ByEvents · = true)) (hl : c.Listening) {n n1 k w : Nat}
    {i : Instance} (hfw : c.WeaklyFair (· = .uReturn w)) (hi : i ∈ deliveredOn k (c.st n).log)
    (hk : ChainStays c n i.taskId k) (hlab : c.lab n = some (.uCancel w i))
    (hw : (c.st n1).waiters w = .listening i.hdr) (hrun : (c.st n1).hdrState i.hdr = RUNNING)
    (hg : ∀ j, n1 ≤ j → c.lab j ≠ some (.uGiveUp w)) :
    c.Comes n1 fun s => s.waiters w = .returned (s.hdrState i.hdr) ∧ s.hdrState i.hdr ≠ RUNNING := by
  obtain ⟨m0, hm0, hd⟩ := C74_handle c hf hl hi hk hlab ⟨rfl, rfl⟩
  have hm1 : n1 ≤ max m0 n1 := Nat.le_max_right _ _
  have hd1 : ∀ j, max m0 n1 ≤ j → (c.st j).hdrState i.hdr ≠ RUNNING := fun j hj => hd j (by omega)
  refine Classical.byContradiction fun hno => ?_
  have hwk : ∀ j, max m0 n1 ≤ j → (c.st j).waiters w = .woken i.hdr := by
    intro j hj
    rcases waiter_woken c hw hrun hg (by omega) (hd1 j hj) with h | h
    · exact h
    · exact absurd ⟨j, by omega, h, hd1 j hj⟩ hno
  obtain ⟨j, hj, l, rfl, hlab⟩ := hfw (max m0 n1) fun j hj => by
    obtain ⟨s', h, _⟩ := C23_returns_partial (course_reach c j) (hwk j hj)
    exact ⟨_, s', rfl, h⟩
  obtain ⟨s', h, h2, _⟩ := C23_returns_partial (course_reach c j) (hwk j hj)
  rw [course_step c hlab, Option.some.injEq] at h
  have := hwk (j + 1) (by omega)
  rw [h, h2] at this
  cases this

/-! ## C75 -/

theorem regsOn_grows (c : Nat) (news log : List Obs) : regsOn c log <+: regsOn c (news ++ log) := by
  induction news with
  | nil => exact List.prefix_refl _
  | cons o news ih =>
    rw [List.cons_append]
    cases o
    case dispatched tag r =>
      cases tag
      case append i x =>
        simp only [regsOn]
        split
        · exact ih.trans (List.prefix_append _ _)
        · exact ih
      all_goals exact ih
    all_goals exact ih

theorem deliveredOn_grows (c : Nat) (news log : List Obs) : deliveredOn c log <+: deliveredOn c (news ++ log) := by
  induction news with
  | nil => exact List.prefix_refl _
  | cons o news ih =>
    rw [List.cons_append]
    cases o
    case delivered c' i =>
      simp only [deliveredOn]
      split
      · exact ih.trans (List.prefix_append _ _)
      · exact ih
    all_goals exact ih

theorem act_log {env : Env} {s s' : St} {l : Label} (h : step env s l = some s') : ∃ news, s'.log = news ++ s.log :=
  log_grows (env := env) (ls := [l]) (by simp only [run, h])

/-- A run registered while the chain is current is on the chain. -/
theorem registered_on {env : Env} {s s' : St} {l : Label} {id k : Nat} {rec : Int} (hr : Reachable env s)
    (h : Act env s l s') (hc : chainOf id s.log = some k) (hn : .append id rec ∉ dispatchedTags s.log)
    (hd : .append id rec ∈ dispatchedTags s'.log) : rec ∈ regsOn k s'.log := by
  cases h
  case recv_append i box rest he hch =>
    have hlog : (done env (maintainTaskStatus { s with chan := rest } i box) (.append i box.recordId)
      (some (.runningTask box.taskId box.recordId)) (some true)).log = .dispatched (.append i box.recordId) (some true) :: s.log := by
      simp [done]
    rw [hlog] at hd ⊢
    simp only [dispatchedTags, List.mem_append, List.mem_singleton] at hd
    rcases hd with hd | hd
    · exact absurd hd hn
    · cases hd
      simp only [regsOn, if_pos hc]
      simp
  case recv_cancel i r rest he hc =>
    rcases cancelTask_log env true { s with chan := rest } i r CANCELLED with h | h | ⟨_, _, h⟩ <;> simp [h, dispatchedTags] at hd <;> exact absurd hd hn
  case recv_timeout i r rest he hc =>
    rcases cancelTask_log env false { s with chan := rest } i r TIMEOUT with h | h | ⟨_, _, h⟩ <;> simp [h, dispatchedTags] at hd <;> exact absurd hd hn
  case recv_finish b rest he hc =>
    rcases finishTask_log env { s with chan := rest } b.taskId b.recordId with h | h | ⟨_, _, h⟩ <;> simp [h, dispatchedTags] at hd <;> exact absurd hd hn
  case next_add3 tag m he =>
    simp [dispatchedTags] at hd
    rcases hd with hd | rfl
    · exact absurd hd hn
    · rcases add3Tag hr he with ⟨h, _⟩ | ⟨c, h, _⟩ <;> cases h
  case next_add1_err t chain hand he hx =>
    simp [dispatchedTags] at hd
    rcases hd with hd | hd
    · exact absurd hd hn
    · cases chain <;> cases hd
  all_goals first | exact absurd hd hn | (simp [dispatchedTags] at hd; exact absurd hd hn)

/-- What a call of `next*` does on a chain that is current and not empty. -/
theorem next_delivers {env : Env} {s : St} {id k : Nat} {i : Instance} {rest : List Instance} (hr : Reachable env s)
    (hh : s.chainHeld k = true) (hc : chainOf id s.log = some k) (hq : s.chainQueue k = i :: rest) :
    ∃ s', step env s (.uNext k) = some s' ∧ deliveredOn k s'.log = deliveredOn k s.log ++ [i] := by
  have hs := ((chainOk hr).live id k hh hc).1
  refine ⟨_, by simp only [step, uNext, hh, if_true, hs, hq]; rfl, by simp [deliveredOn]⟩

/-- **C75** Every registered run is handed out sooner or later, if somebody goes on asking: the chain is held, the task
is neither removed nor replaced. -/
theorem C75_handed {env : Env} (c : Course env) {n id k : Nat} {rec : Int} (hf : c.WeaklyFair (· = .uNext k))
    (hk : ChainStays c n id k) (hr : rec ∈ regsOn k (c.st n).log) :
    c.Comes n fun s => rec ∈ (deliveredOn k s.log).map (·.recordId) := by
  have hall : ∀ m, n ≤ m → regsOn k (c.st n).log <+: regsOn k (c.st m).log := by
    intro m hm
    obtain ⟨ls, _, h⟩ := course_between c hm
    obtain ⟨news, h⟩ := log_grows h
    rw [h]; exact regsOn_grows _ _ _
  have hidx : ∀ m, n ≤ m → (regsOn k (c.st m).log).idxOf rec = (regsOn k (c.st n).log).idxOf rec := by
    intro m hm
    obtain ⟨t, ht⟩ := hall m hm
    rw [← ht, List.idxOf_append, if_pos hr]
  -- as long as it has not been handed out, fewer instances have been handed out than stand before it
  have hleft : ∀ m, n ≤ m → rec ∉ (deliveredOn k (c.st m).log).map (·.recordId) →
      (deliveredOn k (c.st m).log).length ≤ (regsOn k (c.st n).log).idxOf rec ∧ ∃ i rest, (c.st m).chainQueue k = i :: rest := by
    intro m hm hno
    have hreg := C21_complete (course_reach c m) (hk m hm).1
    rw [List.map_append] at hreg
    have hin : rec ∈ regsOn k (c.st m).log := (hall m hm).subset hr
    constructor
    · rw [← hidx m hm, ← hreg, List.idxOf_append, if_neg hno, List.length_map]
      exact Nat.le_add_left _ _
    · rw [← hreg] at hin
      rcases List.mem_append.1 hin with h | h
      · exact absurd h hno
      · cases hq : (c.st m).chainQueue k with
        | nil => rw [hq] at h; cases h
        | cons i rest => exact ⟨i, rest, rfl⟩
  refine leads c hf _ (fun s => (regsOn k (c.st n).log).idxOf rec + 1 - (deliveredOn k s.log).length) ?_ ?_ ?_
  · intro m hm hno
    obtain ⟨_, i, rest, hq⟩ := hleft m hm hno
    obtain ⟨s', h, _⟩ := next_delivers (course_reach c m) (hk m hm).1 (hk m hm).2 hq
    exact ⟨_, s', rfl, h⟩
  · rintro m l hm hlab rfl hno
    obtain ⟨h1, i, rest, hq⟩ := hleft m hm hno
    obtain ⟨s', h, h2⟩ := next_delivers (course_reach c m) (hk m hm).1 (hk m hm).2 hq
    rw [course_step c hlab, Option.some.injEq] at h
    right
    simp only [h, h2, List.length_append, List.length_singleton]
    omega
  · intro m l hm hlab _ _
    right
    obtain ⟨news, h⟩ := act_log (course_step c hlab)
    have := (deliveredOn_grows k news (c.st m).log).length_le
    rw [← h] at this
    show _ ≤ _
    omega

/-- **C75** Every run that is started and registered while the chain is current is handed out sooner or later. -/
theorem C75_every_run {env : Env} (c : Course env) (hfe : c.WeaklyFair (ByEvents · = true))
    (hfs : c.WeaklyFair (ByScheduler · = true)) (hl : c.Listening) (hc : ∀ n, ¬ Crashed env (c.st n)) {n id k rtn m ts : Nat}
    {rec : Int} (hf : c.WeaklyFair (· = .uNext k)) (hk : ChainStays c n id k)
    (hs : .started id rtn rec m ts ∈ (c.st n).log) (hn : .append id rec ∉ dispatchedTags (c.st n).log) :
    c.Comes n fun s => ∃ i ∈ deliveredOn k s.log, i.taskId = id ∧ i.recordId = rec := by
  obtain ⟨n1, hn1, r, hr, hg⟩ := gate_opens c hfs hc hs
  obtain ⟨r', hr', h0, _⟩ := (runLog (course_reach c n1)).started _ _ _ _ _ (course_log c hn1 hs)
  rw [hr] at hr'; cases hr'
  have hq := ((rtOk (course_reach c n1)).rt rec r hr).2.1 hg
  rw [h0] at hq
  obtain ⟨n2, hn2, hd⟩ := C70_processed c hfe hl n1
  have hd := hd.subset (mem_queuedTags.2 hq)
  have hreg : .append id rec ∉ dispatchedTags (c.st n2).log ∨ rec ∈ regsOn k (c.st n2).log := by
    refine course_keeps c (fun s => .append id rec ∉ dispatchedTags s.log ∨ rec ∈ regsOn k s.log) (Or.inl hn) ?_ n2 (by omega)
    intro j l hj hlab h
    rcases h with h | h
    · by_cases hx : .append id rec ∈ dispatchedTags (c.st (j + 1)).log
      · exact Or.inr (registered_on (course_reach c j) (step_act (course_step c hlab)) (hk j hj).2 h hx)
      · exact Or.inl hx
    · obtain ⟨news, h'⟩ := act_log (course_step c hlab)
      right; rw [h']; exact (regsOn_grows _ _ _).subset h
  have hreg := hreg.resolve_left (fun h => h hd)
  obtain ⟨n3, hn3, h⟩ := C75_handed c hf (fun m hm => hk m (by omega)) hreg
  obtain ⟨i, hi, hrec⟩ := List.mem_map.1 h
  refine ⟨n3, by omega, i, hi, ?_, hrec⟩
  have h1 := ((chainOk (course_reach c n3)).own k i (List.mem_append_left _ hi)).2
  obtain ⟨_, _, _, _, h5, _⟩ := (deadlineOk (course_run c n3)).reg _ _ h1
  rw [hrec] at h5
  exact (started_once (course_reach c n3) h5 (course_log c (by omega) hs)).1

/-! ## Courses in which a chain stays -/

theorem held_step {env : Env} {s s' : St} {l : Label} {k : Nat} (hr : Reachable env s) (h : s.chainHeld k = true)
    (hl : l ≠ .uDropChain k) (ha : Act env s l s') : s'.chainHeld k = true := by
  have same : s'.chainHeld = s.chainHeld → s'.chainHeld k = true := fun e => by rw [e]; exact h
  cases instStep hr ha with
  | dull _ hx => exact same hx.ch
  | miss _ _ _ _ _ hx => exact same hx.ch
  | quiet _ _ _ _ _ _ hx => exact same hx.ch
  | plain _ _ _ _ _ _ hx => exact same hx.ch
  | found _ _ _ _ _ _ _ _ _ _ _ _ _ _ _ _ _ _ hch => exact same hch
  | newInst _ _ _ _ _ _ _ _ _ _ _ _ _ hch => exact same hch
  | dropped _ _ _ _ _ _ _ _ _ _ _ _ _ hch => exact same hch
  | nobody _ _ _ _ _ _ _ _ _ _ _ _ _ hch => exact same hch
  | mark _ _ _ _ _ _ _ _ _ _ hch => exact same hch
  | refused _ _ _ _ _ _ _ _ _ hch => exact same hch
  | insert _ _ _ _ _ _ hch => rw [hch, set_apply]; split <;> [rfl; exact h]
  | deliver _ _ _ _ _ _ _ _ _ _ _ hch => exact same hch
  | drop c _ _ _ _ _ _ hch => rw [hch, set_apply, if_neg (fun e => hl (by rw [e]))]; exact h

/-- A chain that is held and current stays so, if nobody drops it and no operation on its task is called. -/
theorem chain_stays {env : Env} (c : Course env) {n id k : Nat} (hh : (c.st n).chainHeld k = true)
    (hs : DelayTimer.Settled id k (c.st n)) (hl : ∀ m l, n ≤ m → c.lab m = some l → ¬ Touches id l ∧ l ≠ .uDropChain k) :
    ChainStays c n id k := by
  have := course_keeps c (fun s => s.chainHeld k = true ∧ DelayTimer.Settled id k s) ⟨hh, hs⟩ fun m l hm hlab h =>
    ⟨held_step (course_reach c m) h.1 (hl m l hm hlab).2 (step_act (course_step c hlab)),
      settled_step (course_reach c m) h.2 (hl m l hm hlab).1 (step_act (course_step c hlab))⟩
  exact fun m hm => ⟨(this m hm).1, (this m hm).2.chain⟩

/-- What has happened at the moments before the continuation begins. -/
theorem upTo_take {env : Env} {c : Course env} {n : Nat} (h : (c.upTo n).length = n) :
    ∀ m, m ≤ n → c.upTo m = (c.upTo n).take m ∧ (m < n → c.lab m = (c.upTo n)[m]?) := by
  induction n with
  | zero => intro m hm; obtain rfl : m = 0 := by omega
            exact ⟨rfl, fun h => absurd h (by omega)⟩
  | succ n ih =>
    have hle : ∀ j, (c.upTo j).length ≤ j := by
      intro j
      induction j with
      | zero => simp [Course.upTo]
      | succ j ih => rw [Course.upTo, List.length_append]; cases c.lab j <;> simp <;> omega
    have h1 := h
    rw [Course.upTo, List.length_append] at h1
    have h2 := hle n
    cases hlab : c.lab n with
    | none => rw [hlab] at h1; simp at h1; omega
    | some l =>
      rw [hlab] at h1
      have h3 : (c.upTo n).length = n := by simpa using h1
      have h4 : c.upTo (n + 1) = c.upTo n ++ [l] := by rw [Course.upTo, hlab]; rfl
      intro m hm
      by_cases hmn : m = n + 1
      · subst hmn
        exact ⟨by rw [List.take_of_length_le (by omega)], fun h => absurd h (by omega)⟩
      · obtain ⟨h5, h6⟩ := ih h3 m (by omega)
        refine ⟨?_, fun _ => ?_⟩
        · rw [h4, List.take_append_of_le_length (by omega)]; exact h5
        · rw [h4]
          by_cases hx : m = n
          · subst hx
            rw [hlab, List.getElem?_append_right (by omega), h3]; simp
          · rw [List.getElem?_append_left (by omega)]; exact h6 (by omega)

end DelayTimer

namespace DelayTimer.Ex

open Spec

theorem cl_settled : DelayTimer.Settled 1 0 (play env0 taken) := by
  refine ⟨by decide +kernel, ⟨?_, ?_⟩, ?_⟩
  · rw [show (play env0 taken).chan = [] from rfl]; simp
  · rw [show (play env0 taken).epc = .idle from rfl]; exact id
  · rw [show (play env0 taken).epc = .idle from rfl]; simp

/-- C74, `C74_ends`, `C74_handle`, `C74_returns`: the run of task 1 is on and its handle has been taken from the chain;
caller 7 cancels it and waits. The body never ends by itself. -/
example : ∃ (c : Course env0) (n : Nat), c.WeaklyFair (ByEvents · = true) ∧ c.Listening ∧ c.WeaklyFair (· = .uReturn 7) ∧
    inst0 ∈ deliveredOn 0 (c.st n).log ∧ ChainStays c n 1 0 ∧ .append 1 0 ∈ queuedTags (c.st n).log ∧
    c.lab n = some (.uCancel 7 inst0) ∧ (c.st (n + 2)).waiters 7 = .listening inst0.hdr ∧
    (c.st (n + 2)).hdrState inst0.hdr = RUNNING ∧ ¬ RunEnded 1 0 (c.st (n + 2)).log ∧
    ∀ j, n + 2 ≤ j → c.lab j ≠ some (.uGiveUp 7) := by
  obtain ⟨c, h1, h2, h3, h4, _, h5⟩ := fair_course_with (fun _ l => l = .uReturn 7) (fun _ _ h => by cases h)
    (pre := taken ++ [.uCancel 7 inst0, .uListen 7]) (play_run (env := env0) (by rfl))
  have hlen : (taken ++ [Label.uCancel 7 inst0, Label.uListen 7]).length = taken.length + 2 := by simp
  rw [hlen] at h1 h2 h5
  have hup := upTo_take (c := c) (n := taken.length + 2) (by rw [h1, hlen])
  have hst : c.st taken.length = play env0 taken := by
    have hr := course_run c taken.length
    rw [(hup taken.length (by omega)).1, h1, List.take_left] at hr
    rw [play_run (env := env0) (ls := taken) (by rfl)] at hr
    exact (Option.some.inj hr).symm
  have hl0 : c.lab taken.length = some (.uCancel 7 inst0) := by
    rw [(hup taken.length (by omega)).2 (by omega), h1]; rfl
  have hl1 : c.lab (taken.length + 1) = some (.uListen 7) := by
    rw [(hup (taken.length + 1) (by omega)).2 (by omega), h1]; rfl
  have hlater : ∀ m l, taken.length ≤ m → c.lab m = some l → ¬ Touches 1 l ∧ l ≠ .uDropChain 0 ∧ l ≠ .uGiveUp 7 := by
    intro m l hm hlab
    by_cases hm0 : m = taken.length
    · subst hm0; rw [hl0] at hlab; cases hlab; exact ⟨id, by simp, by simp⟩
    by_cases hm1 : m = taken.length + 1
    · subst hm1; rw [hl1] at hlab; cases hlab; exact ⟨id, by simp, by simp⟩
    rcases h5 m l (by omega) hlab with hu | ⟨_, rfl⟩
    · exact ⟨unasked_touches hu, fun h => by subst h; exact hu, fun h => by subst h; exact hu⟩
    · exact ⟨id, by simp, by simp⟩
  refine ⟨c, taken.length, h3.events, (unchecked_lives rfl c).1, h4 0, ?_, ?_, ?_, hl0, ?_, ?_, ?_, fun j hj h => (hlater j _ (by omega) h).2.2 rfl⟩
  · rw [hst]; decide +kernel
  · exact chain_stays c (by rw [hst]; rfl) (by rw [hst]; exact cl_settled) fun m l hm h => ⟨(hlater m l hm h).1, (hlater m l hm h).2.1⟩
  · rw [hst]; decide +kernel
  · rw [h2]; rfl
  · rw [h2]; rfl
  · rw [(repOk (course_reach c _)).ended, h2]; decide +kernel

/-- Task 1 with chain 0 is being run for the first time: the closure has been called, the run is not registered yet. -/
def begun1 : List Label := ins (every 1 101 2) ++ idle ++ idle ++ [.tLoad, .tStore, .tArrive, .tPop 1, .tCheck 0, .tSpawn false]

/-- C75, `C75_every_run`, and later `C75_handed`. -/
example : ∃ (c : Course env0) (n : Nat), c.WeaklyFair (ByEvents · = true) ∧ c.WeaklyFair (ByScheduler · = true) ∧ c.Listening ∧
    (∀ n, ¬ Crashed env0 (c.st n)) ∧ c.WeaklyFair (· = .uNext 0) ∧ ChainStays c n 1 0 ∧
    .started 1 1 0 2 102 ∈ (c.st n).log ∧ .append 1 0 ∉ dispatchedTags (c.st n).log := by
  obtain ⟨c, h1, h2, h3, h4, _, h5⟩ := fair_course_with (fun _ l => l = .uNext 0) (fun _ _ h => by cases h)
    (pre := begun1) (play_run (env := env0) (by rfl))
  obtain ⟨hl, hc⟩ := unchecked_lives (env := env0) rfl c
  refine ⟨c, begun1.length, h3.events, h3.scheduler, hl, hc, h4 0, ?_, ?_, ?_⟩
  · refine chain_stays c (by rw [h2]; rfl) ?_ ?_
    · rw [h2]
      refine ⟨by decide +kernel, ⟨?_, ?_⟩, ?_⟩
      · rw [show (play env0 begun1).chan = [] from rfl]; simp
      · rw [show (play env0 begun1).epc = .idle from rfl]; exact id
      · rw [show (play env0 begun1).epc = .idle from rfl]; simp
    · intro m l hm hlab
      rcases h5 m l hm hlab with hu | ⟨_, rfl⟩
      · exact ⟨unasked_touches hu, fun h => by subst h; exact hu⟩
      · exact ⟨id, by simp⟩
  · rw [h2]; decide +kernel
  · rw [h2]; decide +kernel

end DelayTimer.Ex
