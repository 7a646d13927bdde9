import Verif.Model.Free

/-! # C43: memory safety of `TaskBuilder::free` -/

namespace DelayTimer

namespace Spec

/-- Only leaked boxes are released, none twice, and none is read after it was released. -/
def MemSafe (m : Mem) : Prop :=
  m.freed.Nodup ∧ (∀ r ∈ m.freed, ∃ n, r = .leaked n) ∧ m.dangling = []

/-- What a caller has to remember about a builder variable: it never saw a candy (`plain`); its
schedule is not a cron string (`idle`) or one of the caller's (`foreign`), but it did see a candy; it
owns a candy string (`own`); it has a candy string that another variable owns or that was released
(`lost`). -/
inductive Own where
  | plain | idle | foreign | own | lost
deriving DecidableEq, Repr

def setO (p : Nat → Own) (b : Nat) (v : Own) : Nat → Own := fun x => if x = b then v else p x

/-- The ownership discipline. Copying an owner leaves the string to one of the two, `free` wants an
owner wherever it does something, and `spawn` must not be called on a builder that lost its string. -/
inductive Owned : (Nat → Own) → List FreeOp → Prop
  | nil (p) : Owned p []
  | candy (p b) {ops} (h : Owned (setO p b .own) ops) : Owned p (.candy b :: ops)
  | cronPlain (p b s) {ops} (hb : p b = .plain) (h : Owned p ops) : Owned p (.cronStr b s :: ops)
  | cron (p b s) {ops} (hb : p b ≠ .plain) (h : Owned (setO p b .foreign) ops) :
      Owned p (.cronStr b s :: ops)
  | secondsPlain (p b) {ops} (hb : p b = .plain) (h : Owned p ops) : Owned p (.seconds b :: ops)
  | seconds (p b) {ops} (hb : p b ≠ .plain) (h : Owned (setO p b .idle) ops) :
      Owned p (.seconds b :: ops)
  | copySelf (p b) {ops} (h : Owned p ops) : Owned p (.copy b b :: ops)
  | copy (p d s) {ops} (hs : p s ≠ .own) (h : Owned (setO p d (p s)) ops) : Owned p (.copy d s :: ops)
  | move (p d s) {ops} (hd : d ≠ s) (hs : p s = .own) (h : Owned (setO (setO p s .lost) d .own) ops) :
      Owned p (.copy d s :: ops)
  | lend (p d s) {ops} (hd : d ≠ s) (hs : p s = .own) (h : Owned (setO p d .lost) ops) :
      Owned p (.copy d s :: ops)
  | freeNothing (p b) {ops} (hb : p b = .plain ∨ p b = .idle) (h : Owned p ops) : Owned p (.free b :: ops)
  | free (p b) {ops} (hb : p b = .own) (h : Owned (setO p b .lost) ops) : Owned p (.free b :: ops)
  | spawn (p b) {ops} (hb : p b ≠ .lost) (h : Owned p ops) : Owned p (.spawn b :: ops)

end Spec

open Spec

/-! ## Soundness -/

/-- What the builders hold, going by the caller's notes. -/
structure Notes (p : Nat → Own) (m : Mem) : Prop where
  safe : MemSafe m
  old : ∀ n, .leaked n ∈ m.freed → n < m.next
  plain : ∀ b, p b = .plain → (m.builders b).candy = false ∧ ∀ n, (m.builders b).str ≠ some (.leaked n)
  idle : ∀ b, p b = .idle → (m.builders b).str = none
  foreign : ∀ b, p b = .foreign → ∃ s, (m.builders b).str = some (.foreign s)
  own : ∀ b, p b = .own → ∃ n, m.builders b = ⟨some (.leaked n), true⟩ ∧ n < m.next ∧ .leaked n ∉ m.freed
  apart : ∀ b c, p b = .own → p c = .own → (m.builders b).str = (m.builders c).str → b = c

theorem Notes.candy {p : Nat → Own} {m : Mem} (h : Notes p m) (b : Nat) :
    Notes (setO p b .own) (m.op (.candy b)) where
  safe := h.safe
  old := fun n hn => Nat.lt_succ_of_lt (h.old n hn)
  plain := by
    intro c hc; simp only [setO, Mem.op, Mem.setB] at hc ⊢
    split at hc
    · cases hc
    · rename_i hcb; rw [if_neg hcb]; exact h.plain c hc
  idle := by
    intro c hc; simp only [setO, Mem.op, Mem.setB] at hc ⊢
    split at hc
    · cases hc
    · rename_i hcb; rw [if_neg hcb]; exact h.idle c hc
  foreign := by
    intro c hc; simp only [setO, Mem.op, Mem.setB] at hc ⊢
    split at hc
    · cases hc
    · rename_i hcb; rw [if_neg hcb]; exact h.foreign c hc
  own := by
    intro c hc; simp only [setO, Mem.op, Mem.setB] at hc ⊢
    split at hc
    · rename_i hcb; rw [if_pos hcb]
      exact ⟨m.next, rfl, Nat.lt_succ_self _, fun hn => absurd (h.old _ hn) (Nat.lt_irrefl _)⟩
    · rename_i hcb; rw [if_neg hcb]
      obtain ⟨n, h1, h2, h3⟩ := h.own c hc
      exact ⟨n, h1, Nat.lt_succ_of_lt h2, h3⟩
  apart := by
    intro c d hc hd he; simp only [setO, Mem.op, Mem.setB] at hc hd he
    have old : ∀ x, p x = .own → (m.builders x).str ≠ some (.leaked m.next) := by
      intro x hx hn
      obtain ⟨n, h1, h2, _⟩ := h.own x hx
      rw [h1] at hn; cases hn; exact Nat.lt_irrefl _ h2
    by_cases h1 : c = b <;> by_cases h2 : d = b
    · rw [h1, h2]
    · rw [if_pos h1, if_neg h2] at he; rw [if_neg h2] at hd; exact absurd he.symm (old d hd)
    · rw [if_neg h1, if_pos h2] at he; rw [if_neg h1] at hc; exact absurd he (old c hc)
    · rw [if_neg h1, if_neg h2] at he; rw [if_neg h1] at hc; rw [if_neg h2] at hd
      exact h.apart c d hc hd he

/-- Any change of one builder that is not to an owner. -/
theorem Notes.set {p : Nat → Own} {m : Mem} (h : Notes p m) (b : Nat) (v : FreeBuilder) (o : Own)
    (hp : o = .plain → v.candy = false ∧ ∀ n, v.str ≠ some (.leaked n)) (hi : o = .idle → v.str = none)
    (hf : o = .foreign → ∃ s, v.str = some (.foreign s)) (ho : o ≠ .own) :
    Notes (setO p b o) { m with builders := m.setB b v } where
  safe := h.safe
  old := h.old
  plain := by
    intro c hc; simp only [setO, Mem.setB] at hc ⊢
    split at hc
    · rename_i hcb; rw [if_pos hcb]; exact hp hc
    · rename_i hcb; rw [if_neg hcb]; exact h.plain c hc
  idle := by
    intro c hc; simp only [setO, Mem.setB] at hc ⊢
    split at hc
    · rename_i hcb; rw [if_pos hcb]; exact hi hc
    · rename_i hcb; rw [if_neg hcb]; exact h.idle c hc
  foreign := by
    intro c hc; simp only [setO, Mem.setB] at hc ⊢
    split at hc
    · rename_i hcb; rw [if_pos hcb]; exact hf hc
    · rename_i hcb; rw [if_neg hcb]; exact h.foreign c hc
  own := by
    intro c hc; simp only [setO, Mem.setB] at hc ⊢
    split at hc
    · exact absurd hc ho
    · rename_i hcb; rw [if_neg hcb]; exact h.own c hc
  apart := by
    intro c d hc hd he; simp only [setO, Mem.setB] at hc hd he
    by_cases h1 : c = b
    · rw [if_pos h1] at hc; exact absurd hc ho
    by_cases h2 : d = b
    · rw [if_pos h2] at hd; exact absurd hd ho
    rw [if_neg h1, if_neg h2] at he; rw [if_neg h1] at hc; rw [if_neg h2] at hd
    exact h.apart c d hc hd he

theorem Notes.move {p : Nat → Own} {m : Mem} (h : Notes p m) {d s : Nat} (hs : p s = .own) :
    Notes (setO (setO p s .lost) d .own) (m.op (.copy d s)) where
  safe := h.safe
  old := h.old
  plain := by
    intro c hc; simp only [setO, Mem.op, Mem.setB] at hc ⊢
    split at hc
    · cases hc
    · rename_i hcb; rw [if_neg hcb]
      split at hc
      · cases hc
      · exact h.plain c hc
  idle := by
    intro c hc; simp only [setO, Mem.op, Mem.setB] at hc ⊢
    split at hc
    · cases hc
    · rename_i hcb; rw [if_neg hcb]
      split at hc
      · cases hc
      · exact h.idle c hc
  foreign := by
    intro c hc; simp only [setO, Mem.op, Mem.setB] at hc ⊢
    split at hc
    · cases hc
    · rename_i hcb; rw [if_neg hcb]
      split at hc
      · cases hc
      · exact h.foreign c hc
  own := by
    intro c hc; simp only [setO, Mem.op, Mem.setB] at hc ⊢
    split at hc
    · rename_i hcb; rw [if_pos hcb]; exact h.own s hs
    · rename_i hcb; rw [if_neg hcb]
      split at hc
      · cases hc
      · exact h.own c hc
  apart := by
    have key : ∀ c, c ≠ d → (if c = s then Own.lost else p c) = .own → p c = .own ∧ c ≠ s := by
      intro c _ hc
      split at hc
      · cases hc
      · rename_i hcs; exact ⟨hc, hcs⟩
    intro c e hc he hq; simp only [setO, Mem.op, Mem.setB] at hc he hq
    by_cases h1 : c = d <;> by_cases h2 : e = d
    · rw [h1, h2]
    · rw [if_pos h1, if_neg h2] at hq; rw [if_neg h2] at he
      obtain ⟨k1, k2⟩ := key e h2 he
      exact absurd (h.apart s e hs k1 hq).symm k2
    · rw [if_neg h1, if_pos h2] at hq; rw [if_neg h1] at hc
      obtain ⟨k1, k2⟩ := key c h1 hc
      exact absurd (h.apart c s k1 hs hq) k2
    · rw [if_neg h1, if_neg h2] at hq; rw [if_neg h1] at hc; rw [if_neg h2] at he
      exact h.apart c e (key c h1 hc).1 (key e h2 he).1 hq

theorem Notes.free {p : Nat → Own} {m : Mem} (h : Notes p m) {b : Nat} (hb : p b = .own) :
    Notes (setO p b .lost) (m.op (.free b)) := by
  obtain ⟨n, h1, h2, h3⟩ := h.own b hb
  have e : m.op (.free b) = { m with freed := .leaked n :: m.freed } := by simp [Mem.op, h1]
  rw [e]
  have old : ∀ (o : Own) c, o ≠ .lost → setO p b .lost c = o → p c = o ∧ c ≠ b := by
    intro o c ho hc
    simp only [setO] at hc
    split at hc
    · exact absurd hc.symm ho
    · rename_i hcb; exact ⟨hc, hcb⟩
  refine ⟨⟨List.nodup_cons.2 ⟨h3, h.safe.1⟩, ?_, h.safe.2.2⟩, ?_, ?_, ?_, ?_, ?_, ?_⟩
  · intro r hr
    rcases List.mem_cons.1 hr with hr | hr
    · exact ⟨n, hr⟩
    · exact h.safe.2.1 r hr
  · intro x hx
    rcases List.mem_cons.1 hx with hx | hx
    · cases hx; exact h2
    · exact h.old x hx
  · intro c hc; exact h.plain c (old .plain c (by simp) hc).1
  · intro c hc; exact h.idle c (old .idle c (by simp) hc).1
  · intro c hc; exact h.foreign c (old .foreign c (by simp) hc).1
  · intro c hc
    obtain ⟨k1, k2⟩ := old .own c (by simp) hc
    obtain ⟨x, x1, x2, x3⟩ := h.own c k1
    refine ⟨x, x1, x2, fun hx => ?_⟩
    rcases List.mem_cons.1 hx with hx | hx
    · exact k2 (h.apart c b k1 hb (by rw [x1, h1, hx]))
    · exact x3 hx
  · intro c d hc hd he
    exact h.apart c d (old .own c (by simp) hc).1 (old .own d (by simp) hd).1 he

theorem Notes.quiet {p : Nat → Own} {m : Mem} (h : Notes p m) {b : Nat} (hb : p b = .plain ∨ p b = .idle) :
    m.op (.free b) = m := by
  rcases hb with hb | hb
  · simp [Mem.op, (h.plain b hb).1]
  · simp [Mem.op, h.idle b hb]

theorem Notes.read {p : Nat → Own} {m : Mem} (h : Notes p m) {b : Nat} (hb : p b ≠ .lost) :
    m.op (.spawn b) = m := by
  have key : ∀ r, (m.builders b).str = some r → r ∉ m.freed := by
    intro r hr hf
    obtain ⟨n, hn⟩ := h.safe.2.1 r hf
    subst hn
    cases hp : p b with
    | plain => exact (h.plain b hp).2 n hr
    | idle => rw [h.idle b hp] at hr; cases hr
    | foreign => obtain ⟨s, hs⟩ := h.foreign b hp; rw [hs] at hr; cases hr
    | own =>
      obtain ⟨x, h1, _, h3⟩ := h.own b hp
      rw [h1] at hr; cases hr; exact h3 hf
    | lost => exact hb hp
  cases hr : (m.builders b).str with
  | none => simp [Mem.op, hr]
  | some r => simp [Mem.op, hr, key r hr]

theorem owned_run {ops : List FreeOp} {p : Nat → Own} (ho : Owned p ops) :
    ∀ {m : Mem}, Notes p m → MemSafe (m.run ops) := by
  induction ho with
  | nil p => intro m h; exact h.safe
  | candy p b _ ih => intro m h; exact ih (h.candy b)
  | cronPlain p b s hb _ ih =>
    intro m h
    have h' := h.set b { m.builders b with str := some (.foreign s) } .plain
      (fun _ => ⟨(h.plain b hb).1, by simp⟩) (by simp) (by simp) (by simp)
    rw [show setO p b .plain = p from funext fun x => by simp only [setO]; split <;> simp_all] at h'
    exact ih h'
  | cron p b s hb _ ih =>
    intro m h
    exact ih (h.set b { m.builders b with str := some (.foreign s) } .foreign (by simp) (by simp)
      (fun _ => ⟨s, rfl⟩) (by simp))
  | secondsPlain p b hb _ ih =>
    intro m h
    have h' := h.set b { m.builders b with str := none } .plain
      (fun _ => ⟨(h.plain b hb).1, by simp⟩) (by simp) (by simp) (by simp)
    rw [show setO p b .plain = p from funext fun x => by simp only [setO]; split <;> simp_all] at h'
    exact ih h'
  | seconds p b hb _ ih =>
    intro m h
    exact ih (h.set b { m.builders b with str := none } .idle (by simp) (fun _ => rfl) (by simp) (by simp))
  | copySelf p b _ ih =>
    intro m h
    have : m.op (.copy b b) = m := by
      simp only [Mem.op]
      rw [show m.setB b (m.builders b) = m.builders from funext fun x => by
        simp only [Mem.setB]; split <;> simp_all]
    rw [Mem.run, List.foldl_cons, this]; exact ih h
  | copy p d s hs _ ih =>
    intro m h
    exact ih (h.set d (m.builders s) (p s) (h.plain s) (h.idle s) (h.foreign s) hs)
  | move p d s hd hs _ ih => intro m h; exact ih (h.move hs)
  | lend p d s hd hs _ ih =>
    intro m h
    exact ih (h.set d (m.builders s) .lost (by simp) (by simp) (by simp) (by simp))
  | freeNothing p b hb _ ih => intro m h; rw [Mem.run, List.foldl_cons, h.quiet hb]; exact ih h
  | free p b hb _ ih => intro m h; exact ih (h.free hb)
  | spawn p b hb _ ih => intro m h; rw [Mem.run, List.foldl_cons, h.read hb]; exact ih h

theorem notes_init : Notes (fun _ => .plain) Mem.init where
  safe := ⟨by simp [Mem.init], by simp [Mem.init], rfl⟩
  old := by simp [Mem.init]
  plain := by simp [Mem.init]
  idle := by simp
  foreign := by simp
  own := by simp
  apart := by simp

/-! ## Completeness -/

/-- `ops` frees the string that builder `b` has now, through `b` or a copy of it. -/
def frees : List FreeOp → Nat → Prop
  | [], _ => False
  | .candy c :: ops, b => b ≠ c ∧ frees ops b
  | .cronStr c _ :: ops, b => b ≠ c ∧ frees ops b
  | .seconds c :: ops, b => b ≠ c ∧ frees ops b
  | .copy d s :: ops, b => (b ≠ d ∧ frees ops b) ∨ (b = s ∧ frees ops d)
  | .free c :: ops, b => b = c ∨ frees ops b
  | .spawn _ :: ops, b => frees ops b

theorem op_freed (m : Mem) (o : FreeOp) : ∃ l, (m.op o).freed = l ++ m.freed := by
  cases o with
  | candy b => exact ⟨[], rfl⟩
  | cronStr b s => exact ⟨[], rfl⟩
  | seconds b => exact ⟨[], rfl⟩
  | copy d s => exact ⟨[], rfl⟩
  | spawn b => refine ⟨[], ?_⟩; simp only [Mem.op]; split <;> (try split) <;> rfl
  | free b =>
    simp only [Mem.op]
    split
    · split
      · rename_i r _; exact ⟨[r], rfl⟩
      · exact ⟨[], rfl⟩
    · exact ⟨[], rfl⟩

theorem run_freed (ops : List FreeOp) : ∀ m : Mem, ∃ l, (m.run ops).freed = l ++ m.freed := by
  induction ops with
  | nil => intro m; exact ⟨[], rfl⟩
  | cons o ops ih =>
    intro m
    obtain ⟨l, hl⟩ := ih (m.op o)
    obtain ⟨l', hl'⟩ := op_freed m o
    exact ⟨l ++ l', by rw [Mem.run, List.foldl_cons]; rw [Mem.run] at hl; rw [hl, hl', List.append_assoc]⟩

theorem run_free {m : Mem} {b : Nat} {r : StrRef} (h : m.builders b = ⟨some r, true⟩) :
    m.op (.free b) = { m with freed := r :: m.freed } := by simp [Mem.op, h]

theorem builders_free (m : Mem) (b : Nat) : (m.op (.free b)).builders = m.builders := by
  simp only [Mem.op]; split
  · split <;> rfl
  · rfl

theorem builders_spawn (m : Mem) (b : Nat) : (m.op (.spawn b)).builders = m.builders := by
  simp only [Mem.op]; split
  · split <;> rfl
  · rfl

/-- Where the string of `b` goes in one operation, if it is freed later. -/
theorem frees_cons {o : FreeOp} {ops : List FreeOp} {b : Nat} {m : Mem} (h : frees (o :: ops) b)
    (hb : o ≠ .free b) : ∃ c, frees ops c ∧ (m.op o).builders c = m.builders b ∧
      ((c = b ∧ ∀ s, o ≠ .copy b s) ∨ o = .copy c b) := by
  cases o with
  | candy c => obtain ⟨h1, h2⟩ := h; exact ⟨b, h2, by simp [Mem.op, Mem.setB, h1], .inl ⟨rfl, by simp⟩⟩
  | cronStr c s => obtain ⟨h1, h2⟩ := h; exact ⟨b, h2, by simp [Mem.op, Mem.setB, h1], .inl ⟨rfl, by simp⟩⟩
  | seconds c => obtain ⟨h1, h2⟩ := h; exact ⟨b, h2, by simp [Mem.op, Mem.setB, h1], .inl ⟨rfl, by simp⟩⟩
  | copy d s =>
    rcases h with ⟨h1, h2⟩ | ⟨h1, h2⟩
    · exact ⟨b, h2, by simp [Mem.op, Mem.setB, h1],
        .inl ⟨rfl, fun s h => h1 (by injection h with h; exact h.symm)⟩⟩
    · exact ⟨d, h2, by simp [Mem.op, Mem.setB, h1], .inr (by rw [h1])⟩
  | free c =>
    rcases h with h | h
    · exact absurd (by rw [h]) hb
    · exact ⟨b, h, by rw [builders_free], .inl ⟨rfl, by simp⟩⟩
  | spawn c => exact ⟨b, h, by rw [builders_spawn], .inl ⟨rfl, by simp⟩⟩

theorem frees_mem {ops : List FreeOp} : ∀ {m : Mem} {b : Nat} {r : StrRef}, frees ops b →
    m.builders b = ⟨some r, true⟩ → ∃ l, (m.run ops).freed = l ++ m.freed ∧ r ∈ l := by
  induction ops with
  | nil => intro m b r h _; exact h.elim
  | cons o ops ih =>
    intro m b r h hb
    by_cases ho : o = .free b
    · subst ho
      obtain ⟨l, hl⟩ := run_freed ops (m.op (.free b))
      refine ⟨l ++ [r], ?_, by simp⟩
      rw [Mem.run, List.foldl_cons, ← Mem.run, hl, run_free hb]; simp
    · obtain ⟨c, h1, h2, _⟩ := frees_cons (m := m) h ho
      obtain ⟨l, hl, hr⟩ := ih h1 (h2.trans hb)
      obtain ⟨l', hl'⟩ := op_freed m o
      refine ⟨l ++ l', ?_, by simp [hr]⟩
      rw [Mem.run, List.foldl_cons, ← Mem.run, hl, hl', List.append_assoc]

/-- Two different variables with the same string cannot both have it freed. -/
theorem frees_one {ops : List FreeOp} : ∀ {m : Mem} {b c : Nat} {r : StrRef}, b ≠ c → frees ops b →
    frees ops c → m.builders b = ⟨some r, true⟩ → m.builders c = ⟨some r, true⟩ →
    ¬ (m.run ops).freed.Nodup := by
  induction ops with
  | nil => intro m b c r _ h; exact h.elim
  | cons o ops ih =>
    have key : ∀ {m : Mem} {b c : Nat} {r : StrRef}, b ≠ c → o = .free b → frees (o :: ops) c →
        m.builders b = ⟨some r, true⟩ → m.builders c = ⟨some r, true⟩ →
        ¬ (m.run (o :: ops)).freed.Nodup := by
      intro m b c r hbc ho hc h1 h2 hn
      subst ho
      obtain ⟨d, d1, d2, _⟩ := frees_cons (m := m) hc (fun h => hbc (by injection h))
      obtain ⟨l, hl, hr⟩ := frees_mem d1 (d2.trans h2)
      rw [Mem.run, List.foldl_cons, ← Mem.run, hl, run_free h1, List.nodup_append] at hn
      exact hn.2.2 r hr r (by simp) rfl
    intro m b c r hbc hb hc h1 h2
    by_cases e1 : o = .free b
    · exact key hbc e1 hc h1 h2
    by_cases e2 : o = .free c
    · exact key hbc.symm e2 hb h2 h1
    obtain ⟨b', b1, b2, b3⟩ := frees_cons (m := m) hb e1
    obtain ⟨c', c1, c2, c3⟩ := frees_cons (m := m) hc e2
    by_cases hbc' : b' = c'
    · exfalso
      subst hbc'
      rcases b3 with b3 | b3 <;> rcases c3 with c3 | c3
      · exact hbc (b3.1.symm.trans c3.1)
      · rw [b3.1] at c3; exact b3.2 _ c3
      · rw [c3.1] at b3; exact c3.2 _ b3
      · rw [b3] at c3; injection c3 with _ h; exact hbc h
    · exact ih hbc' b1 c1 (b2.trans h1) (c2.trans h2)

theorem run_safe {ops : List FreeOp} {m : Mem} {o : FreeOp} (h : MemSafe (m.run (o :: ops))) :
    MemSafe ((m.op o).run ops) := h

/-- A caller who has followed the discipline so far can follow it to the end of a safe sequence, by
leaving every string to the variable through which it will be freed. -/
theorem owned_of_safe {ops : List FreeOp} : ∀ {m : Mem} {p : Nat → Own}, (∀ b, .spawn b ∉ ops) →
    MemSafe (m.run ops) → Notes p m → (∀ b, p b ≠ .plain → (m.builders b).candy = true) →
    (∀ b, p b = .lost → ¬ frees ops b) → Owned p ops := by
  induction ops with
  | nil => intro m p _ _ _ _ _; exact .nil p
  | cons o ops ih =>
    intro m p hns hs hn hf hl
    have hns' : ∀ b, .spawn b ∉ ops := fun b hb => hns b (List.mem_cons_of_mem _ hb)
    -- a change of builder `b` to one that can be freed or that nobody frees
    have change : ∀ b v o', Notes (setO p b o') (m.op o) → (m.op o).builders = m.setB b v →
        (o' ≠ .plain → v.candy = true) → (o' = .lost → ¬ frees ops b) →
        (∀ c, c ≠ b → frees ops c → frees (o :: ops) c) → Owned (setO p b o') ops := by
      intro b v o' h1 h2 h3 h4 h5
      refine ih hns' (run_safe hs) h1 (fun c hc => ?_) (fun c hc hfr => ?_)
      · rw [h2]; simp only [setO, Mem.setB] at hc ⊢
        split
        · rename_i h; rw [if_pos h] at hc; exact h3 hc
        · rename_i h; rw [if_neg h] at hc; exact hf c hc
      · simp only [setO] at hc
        split at hc
        · rename_i h; exact h4 hc (h ▸ hfr)
        · rename_i h; exact hl c hc (h5 c h hfr)
    have same : ∀ b o', p b = o' → setO p b o' = p := fun b o' h => funext fun y => by
      simp only [setO]; split <;> simp_all
    cases o with
    | candy b =>
      exact .candy p b (change b _ .own (hn.candy b) rfl (fun _ => rfl) (by simp) (fun c h hfr => ⟨h, hfr⟩))
    | cronStr b x =>
      by_cases hb : p b = .plain
      · refine .cronPlain p b x hb ?_
        rw [← same b .plain hb]
        exact change b _ .plain (hn.set b { m.builders b with str := some (.foreign x) } .plain
          (fun _ => ⟨(hn.plain b hb).1, by simp⟩) (by simp) (by simp) (by simp)) rfl (by simp) (by simp)
          (fun c h hfr => ⟨h, hfr⟩)
      · exact .cron p b x hb (change b _ .foreign
          (hn.set b { m.builders b with str := some (.foreign x) } .foreign (by simp) (by simp)
            (fun _ => ⟨x, rfl⟩) (by simp)) rfl (fun _ => hf b hb) (by simp) (fun c h hfr => ⟨h, hfr⟩))
    | seconds b =>
      by_cases hb : p b = .plain
      · refine .secondsPlain p b hb ?_
        rw [← same b .plain hb]
        exact change b _ .plain (hn.set b { m.builders b with str := none } .plain
          (fun _ => ⟨(hn.plain b hb).1, by simp⟩) (by simp) (by simp) (by simp)) rfl (by simp) (by simp)
          (fun c h hfr => ⟨h, hfr⟩)
      · exact .seconds p b hb (change b _ .idle
          (hn.set b { m.builders b with str := none } .idle (by simp) (fun _ => rfl) (by simp) (by simp))
          rfl (fun _ => hf b hb) (by simp) (fun c h hfr => ⟨h, hfr⟩))
    | copy d x =>
      by_cases hd : d = x
      · subst hd
        have e : m.op (.copy d d) = m := by
          simp only [Mem.op]
          rw [show m.setB d (m.builders d) = m.builders from funext fun x => by
            simp only [Mem.setB]; split <;> simp_all]
        refine .copySelf p d (ih hns' (m := m) (by have := run_safe hs; rwa [e] at this) hn hf
          (fun c hc hfr => hl c hc ?_))
        by_cases h : c = d
        · exact .inr ⟨h, h ▸ hfr⟩
        · exact .inl ⟨h, hfr⟩
      by_cases hx : p x = .own
      · have hxc : (m.builders x).candy = true := hf x (by rw [hx]; simp)
        by_cases hfd : frees ops d
        · refine .move p d x hd hx (ih hns' (run_safe hs) (hn.move hx) (fun c hc => ?_)
            (fun c hc hfr => ?_))
          · simp only [setO, Mem.op, Mem.setB] at hc ⊢
            split
            · exact hxc
            · rename_i h; rw [if_neg h] at hc
              split at hc
              · rename_i h; rw [h]; exact hxc
              · exact hf c hc
          · simp only [setO] at hc
            split at hc
            · cases hc
            · rename_i h1
              split at hc
              · rename_i h2
                subst h2
                obtain ⟨n, h3, _⟩ := hn.own c hx
                exact frees_one (m := m.op (.copy d c)) (r := .leaked n) (Ne.symm h1) hfd hfr
                  (by simp [Mem.op, Mem.setB, h3]) (by simp [Mem.op, Mem.setB, h1, h3]) (run_safe hs).1
              · exact hl c hc (.inl ⟨h1, hfr⟩)
        · exact .lend p d x hd hx (change d _ .lost
            (hn.set d (m.builders x) .lost (by simp) (by simp) (by simp) (by simp)) rfl (fun _ => hxc)
            (fun _ => hfd) (fun c h hfr => .inl ⟨h, hfr⟩))
      · exact .copy p d x hx (change d _ (p x)
          (hn.set d (m.builders x) (p x) (hn.plain x) (hn.idle x) (hn.foreign x) hx) rfl (hf x)
          (fun h hfr => hl x h (.inr ⟨rfl, hfr⟩)) (fun c h hfr => .inl ⟨h, hfr⟩))
    | free b =>
      have nothing : p b = .plain ∨ p b = .idle → Owned p (.free b :: ops) := by
        intro hb
        refine .freeNothing p b hb (ih hns' (m := m) (by have := run_safe hs; rwa [hn.quiet hb] at this) hn hf
          (fun c hc hfr => hl c hc (.inr hfr)))
      cases hb : p b with
      | plain => exact nothing (.inl hb)
      | idle => exact nothing (.inr hb)
      | foreign =>
        exfalso
        obtain ⟨x, hx⟩ := hn.foreign b hb
        have hc := hf b (by rw [hb]; simp)
        obtain ⟨l, h1, h2⟩ := frees_mem (m := m) (b := b) (r := .foreign x) (ops := .free b :: ops) (.inl rfl)
          (by rw [← hx, ← hc])
        obtain ⟨n, h3⟩ := hs.2.1 (.foreign x) (by rw [h1]; simp [h2])
        cases h3
      | own =>
        obtain ⟨n, h1, _⟩ := hn.own b hb
        refine .free p b hb (ih hns' (run_safe hs) (hn.free hb) (fun c hc => ?_) (fun c hc hfr => ?_))
        · rw [builders_free]
          simp only [setO] at hc
          split at hc
          · rename_i h; rw [h, h1]
          · exact hf c hc
        · simp only [setO] at hc
          split at hc
          · rename_i h
            subst h
            obtain ⟨l, e, hr⟩ := frees_mem (m := m.op (.free c)) hfr (by rw [builders_free]; exact h1)
            have := (run_safe hs).1
            rw [e, List.nodup_append] at this
            exact this.2.2 _ hr (.leaked n) (by rw [run_free h1]; simp) rfl
          · exact hl c hc (.inr hfr)
      | lost => exact absurd (.inl rfl) (hl b hb)
    | spawn b => exact absurd (List.mem_cons_self ..) (hns b)

/-! ## C43 -/

/-- C43 as far as it holds: every sequence of calls on any number of builders that follows the ownership
discipline is memory safe, whatever is copied, spawned and freed. The full claim (every sequence of
builder calls) is false, see the theorems below. -/
theorem C43_free_partial (ops : List FreeOp) (h : Owned (fun _ => .plain) ops) :
    MemSafe (Mem.init.run ops) := owned_run h notes_init

/-- C43, exactly: without a `spawn`, the discipline is the least there is. A sequence of calls is memory
safe if and only if it follows it. -/
theorem C43_exact (ops : List FreeOp) (hns : ∀ b, .spawn b ∉ ops) :
    MemSafe (Mem.init.run ops) ↔ Owned (fun _ => .plain) ops :=
  ⟨fun h => owned_of_safe hns h notes_init (by simp) (by simp), C43_free_partial ops⟩

/-- Freeing twice releases the same string twice. -/
theorem C43_double_free : ¬ MemSafe (Mem.init.run [.candy 0, .free 0, .free 0]) := by
  intro h; exact absurd h.1 (by decide)

/-- Freeing two copies releases the same string twice. -/
theorem C43_copy_double_free : ¬ MemSafe (Mem.init.run [.candy 0, .copy 1 0, .free 0, .free 1]) := by
  intro h; exact absurd h.1 (by decide)

/-- Setting a cron string after a candy makes `free` release the caller's string. -/
theorem C43_foreign_free : ¬ MemSafe (Mem.init.run [.candy 0, .cronStr 0 5, .free 0]) := by
  intro h
  obtain ⟨n, hn⟩ := h.2.1 (.foreign 5) (by decide)
  cases hn

/-- A builder from which another task is spawned after `free` reads the released string. -/
theorem C43_dangling : ¬ MemSafe (Mem.init.run [.candy 0, .spawn 0, .free 0, .spawn 0]) := by
  intro h; exact absurd h.2.2 (by decide)

/-- A disciplined sequence that frees two strings, one of them through a copy. -/
example : Owned (fun _ => .plain) [.cronStr 0 5, .candy 0, .copy 1 0, .spawn 1, .free 1, .candy 0, .copy 2 0,
      .free 0, .cronStr 0 7, .spawn 0, .seconds 0, .free 0] ∧
    (Mem.init.run [.cronStr 0 5, .candy 0, .copy 1 0, .spawn 1, .free 1, .candy 0, .copy 2 0,
      .free 0, .cronStr 0 7, .spawn 0, .seconds 0, .free 0]).freed = [.leaked 1, .leaked 0] :=
  ⟨.cronPlain _ _ _ rfl (.candy _ _ (.move _ _ _ (by decide) rfl (.spawn _ _ (by decide) (.free _ _ rfl
    (.candy _ _ (.lend _ _ _ (by decide) rfl (.free _ _ rfl (.cron _ _ _ (by decide) (.spawn _ _ (by decide)
    (.seconds _ _ (by decide) (.freeNothing _ _ (.inr rfl) (.nil _)))))))))))), by decide⟩

end DelayTimer
