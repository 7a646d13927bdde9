import Verif.Model.CronCache

/-! # Properties of the cron cache: C35, C36 -/

namespace DelayTimer

/-- Specification: what a build must get, without any cache. -/
def Spec.freshIterator (parse : CronParser) (now : Int) (z : TimeZone) (s : String) :
    Option CronOwned :=
  match parse (trimBlanks s) with
  | some p => some { zone := z, spec := p, base := now }
  | none => none

/-- Specification of a well-formed cache. -/
structure Spec.CacheOk (parse : CronParser) (c : CronCache) : Prop where
  bounded : c.length ≤ 256
  distinct : (c.map (·.1)).Nodup
  valid : ∀ e ∈ c, parse e.1.expr = some e.2.spec ∧ e.2.zone = e.1.zone

open Spec

theorem CronOwned.new_eq (parse : CronParser) (now : Int) (k : CronKey) :
    CronOwned.new parse now k =
      (parse k.expr).map fun p => { zone := k.zone, spec := p, base := now } := by
  unfold CronOwned.new
  cases h : k.zone <;> rfl

theorem CronCache.get_ok {parse : CronParser} {c : CronCache} (h : CacheOk parse c) (k : CronKey) :
    CacheOk parse (c.get k).2 ∧
    (∀ v, (c.get k).1 = some v → parse k.expr = some v.spec ∧ v.zone = k.zone) ∧
    ((c.get k).1 = none → (c.get k).2 = c ∧ ∀ e ∈ c, e.1 ≠ k) := by
  unfold CronCache.get
  split
  · rename_i e he
    have hmem := List.mem_of_find?_eq_some he
    have hk : e.1 = k := by simpa using List.find?_some he
    refine ⟨⟨?_, ?_, ?_⟩, ?_, by simp⟩
    · have h1 : (c.filter (fun e => !(e.1 == k))).length < c.length := by
        rw [List.length_filter_lt_length_iff_exists]
        exact ⟨e, hmem, by simp [hk]⟩
      have := h.bounded
      simp only [List.length_cons]; omega
    · simp only [List.map_cons, List.nodup_cons]
      constructor
      · simp only [List.mem_map, List.mem_filter, not_exists, not_and]
        intro x hx hxe
        simp [hxe, hk] at hx
      · exact h.distinct.sublist (List.filter_sublist.map _)
    · intro x hx
      rcases List.mem_cons.1 hx with rfl | hx
      · exact h.valid _ hmem
      · exact h.valid _ (List.mem_filter.1 hx).1
    · intro v hv
      cases hv
      rw [← hk]; exact h.valid _ hmem
  · rename_i hn
    refine ⟨h, by simp, fun _ => ⟨rfl, ?_⟩⟩
    intro e he hek
    have := List.find?_eq_none.1 hn e he
    simp [hek] at this

theorem CronCache.put_ok {parse : CronParser} {c : CronCache} (h : CacheOk parse c) (k : CronKey)
    (v : CronOwned) (hv : parse k.expr = some v.spec ∧ v.zone = k.zone) :
    CacheOk parse (c.put k v) := by
  have hnodup : ∀ (d : CronCache), d.Sublist c → (∀ e ∈ d, e.1 ≠ k) →
      (((k, v) :: d).map (·.1)).Nodup := by
    intro d hd hk
    simp only [List.map_cons, List.nodup_cons]
    refine ⟨?_, h.distinct.sublist (hd.map _)⟩
    simp only [List.mem_map, not_exists, not_and]
    intro x hx hxk; exact hk x hx hxk
  have hvalid : ∀ (d : CronCache), d.Sublist c → ∀ e ∈ ((k, v) :: d),
      parse e.1.expr = some e.2.spec ∧ e.2.zone = e.1.zone := by
    intro d hd e he
    rcases List.mem_cons.1 he with rfl | he
    · exact hv
    · exact h.valid _ (hd.subset he)
  have hb := h.bounded
  unfold CronCache.put
  split
  · rename_i hany
    have hs : (c.filter (fun e => !(e.1 == k))).Sublist c := List.filter_sublist
    refine ⟨?_, hnodup _ hs ?_, hvalid _ hs⟩
    · obtain ⟨e, he, hk⟩ := List.any_eq_true.1 hany
      have h1 : (c.filter (fun e => !(e.1 == k))).length < c.length := by
        rw [List.length_filter_lt_length_iff_exists]
        exact ⟨e, he, by simpa using hk⟩
      simp only [List.length_cons]; omega
    · intro e he; have := (List.mem_filter.1 he).2; simpa using this
  · rename_i hany
    have hne : ∀ e ∈ c, e.1 ≠ k := by
      intro e he hk
      exact hany (List.any_eq_true.2 ⟨e, he, by simp [hk]⟩)
    split
    · rename_i hcap
      have hs : c.dropLast.Sublist c := List.dropLast_sublist c
      refine ⟨?_, hnodup _ hs (fun e he => hne e (hs.subset he)), hvalid _ hs⟩
      simp only [List.length_cons, List.length_dropLast]
      unfold CACHE_CAPACITY at hcap; omega
    · rename_i hcap
      refine ⟨?_, hnodup _ (List.Sublist.refl _) hne, hvalid _ (List.Sublist.refl _)⟩
      simp only [List.length_cons]
      unfold CACHE_CAPACITY at hcap; omega

theorem analyzeCron_of_get {parse : CronParser} {c c' : CronCache} {now : Int} {z : TimeZone}
    {s : String} {o : Option CronOwned}
    (hg : c.get { zone := z, expr := trimBlanks s } = (o, c')) :
    analyzeCron parse now c z s =
      match o with
      | some it => (some (it.refresh now z), c')
      | none =>
        match CronOwned.new parse now { zone := z, expr := trimBlanks s } with
        | some it => (some it, c'.put { zone := z, expr := trimBlanks s } it)
        | none => (none, c') := by
  unfold analyzeCron
  simp only [hg]
  cases o <;> rfl

theorem analyzeCron_ok {parse : CronParser} {c : CronCache} (h : CacheOk parse c) (now : Int)
    (z : TimeZone) (s : String) :
    CacheOk parse (analyzeCron parse now c z s).2 ∧
    (analyzeCron parse now c z s).1 = freshIterator parse now z s := by
  obtain ⟨h1, h2, h3⟩ := CronCache.get_ok h { zone := z, expr := trimBlanks s }
  generalize hg : c.get { zone := z, expr := trimBlanks s } = r at h1 h2 h3
  obtain ⟨o, c'⟩ := r
  rw [analyzeCron_of_get hg]
  cases o with
  | some it =>
    simp only at h1 h2 ⊢
    obtain ⟨hp, hz⟩ := h2 it rfl
    refine ⟨h1, ?_⟩
    simp only [freshIterator, hp, CronOwned.refresh, hz]
    obtain ⟨iz, isp, ib⟩ := it
    simp only at hz
    subst hz
    cases iz <;> rfl
  | none =>
    simp only [CronOwned.new_eq]
    simp only at h1
    cases hp : parse (trimBlanks s) with
    | none => simp [freshIterator, hp, h1]
    | some p =>
      simp only [Option.map_some]
      exact ⟨CronCache.put_ok h1 _ _ ⟨hp, rfl⟩, by simp [freshIterator, hp]⟩

theorem cacheAfter_ok (parse : CronParser) : ∀ hist, CacheOk parse (cacheAfter parse hist)
  | [] => ⟨by simp [cacheAfter], by simp [cacheAfter], by simp [cacheAfter]⟩
  | c :: rest => (analyzeCron_ok (cacheAfter_ok parse rest) c.now c.zone c.expr).1

/-- C35. After any history of builds in the thread, building from a cron expression gives exactly
what a build without cache gives: the schedule of the (blank-trimmed) expression, in the requested
zone, based at the current time; or an error exactly when the expression does not parse. -/
theorem C35_cache_transparent (parse : CronParser) (hist : List CronCall) (now : Int)
    (z : TimeZone) (s : String) :
    (analyzeCron parse now (cacheAfter parse hist) z s).1 = freshIterator parse now z s :=
  (analyzeCron_ok (cacheAfter_ok parse hist) now z s).2

/-- C36. After any history the cache has at most 256 entries, one per key, all of them parsed from
their own key. -/
theorem C36_cache_bounded (parse : CronParser) (hist : List CronCall) :
    CacheOk parse (cacheAfter parse hist) :=
  cacheAfter_ok parse hist

/-- C36, failures: an expression that does not parse is reported as an error every time and leaves
the cache as it was. -/
theorem C36_failed_parse (parse : CronParser) (hist : List CronCall) (now : Int) (z : TimeZone)
    (s : String) (hbad : parse (trimBlanks s) = none) :
    analyzeCron parse now (cacheAfter parse hist) z s = (none, cacheAfter parse hist) := by
  have h := cacheAfter_ok parse hist
  obtain ⟨_, h2, h3⟩ := CronCache.get_ok h { zone := z, expr := trimBlanks s }
  generalize hg : (cacheAfter parse hist).get { zone := z, expr := trimBlanks s } = r at h2 h3
  obtain ⟨o, c'⟩ := r
  rw [analyzeCron_of_get hg]
  cases o with
  | some it => simp [(h2 it rfl).1] at hbad
  | none =>
    simp only at h3 ⊢
    rw [CronOwned.new_eq]; simp [hbad, (h3 trivial).1]

/-- A parser accepting one expression. -/
def exampleParser : CronParser := fun s => if s = "0 * * * * * *" then some 1 else none

/-- A hit: the second build of the same expression (with other blanks) is based at its own time,
in its own zone, and the cache holds one entry. -/
example :
    let hist : List CronCall := [{ now := 100, zone := .utc, expr := "0 * * * * * *" }]
    (cacheAfter exampleParser hist).length = 1 ∧
    (analyzeCron exampleParser 250 (cacheAfter exampleParser hist) .utc "  0 * * * * * * ").1
      = some { zone := .utc, spec := 1, base := 250 } ∧
    (analyzeCron exampleParser 250 (cacheAfter exampleParser hist) .utc "  0 * * * * * * ").2.length
      = 1 ∧
    (analyzeCron exampleParser 250 (cacheAfter exampleParser hist) (.fixedOffset 3600)
      "0 * * * * * *").2.length = 2 := by
  decide

/-- A failure meeting the hypothesis of `C36_failed_parse`. -/
example : exampleParser (trimBlanks " bad ") = none := by decide

end DelayTimer
