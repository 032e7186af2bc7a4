import Verif.Cow.Lemmas
/-
Every step preserves the invariant.
-/
namespace Verif.Cow
open Spec (put)

variable {V : Type} {v0 : V} {s : St V} {σ : Spec.Vars V}

theorem isIdle_iff {p : PC V} : p.isIdle = true ↔ p = .idle := by cases p <;> simp [PC.isIdle]

theorem Inv.alH (I : Inv v0 s σ) : ∀ h p, s.handle h = some (some p) → s.heap p ≠ none := fun h p hp => I.alive (.handle h) p hp
theorem Inv.alT (I : Inv v0 s σ) : ∀ t h q v st, s.pc t = .reset h q v st → s.heap q ≠ none := fun t h q v st hp => I.alive (.thread t) q ⟨h, v, st, hp⟩
theorem Inv.alD (I : Inv v0 s σ) : ∀ p, s.dflt = some p → s.exited = false → s.heap p ≠ none := fun p h1 h2 => I.alive .dflt p ⟨h1, h2⟩

/-- a block with count 1 has one reference -/
theorem Inv.one (I : Inv v0 s σ) {b : Nat} {blk : Block V} (hb : s.heap b = some blk) (h1 : blk.count = 1) {x y : Holder} (hx : Holds s x b)
    (hy : Holds s y b) : x = y := (h1 ▸ I.cnt b blk hb).one hx hy

theorem Inv.oneHH (I : Inv v0 s σ) : ∀ h h' b blk, s.handle h = some (some b) → s.handle h' = some (some b) → s.heap b = some blk → blk.count = 1 →
    h = h' := by
  intro h h' b blk h1 h2 h3 h4
  have := I.one h3 h4 (x := .handle h) (y := .handle h') h1 h2
  simpa using this
theorem Inv.oneHT (I : Inv v0 s σ) : ∀ h t h' b v st blk, s.handle h = some (some b) → s.pc t = .reset h' b v st → s.heap b = some blk →
    blk.count ≠ 1 := by
  intro h t h' b v st blk h1 h2 h3 h4
  have := I.one h3 h4 (x := .handle h) (y := .thread t) h1 ⟨_, _, _, h2⟩
  simp at this
theorem Inv.oneHD (I : Inv v0 s σ) : ∀ h b blk, s.handle h = some (some b) → s.dflt = some b → s.exited = false → s.heap b = some blk →
    blk.count ≠ 1 := by
  intro h b blk h1 h2 h5 h3 h4
  have := I.one h3 h4 (x := .handle h) (y := .dflt) h1 ⟨h2, h5⟩
  simp at this
theorem Inv.posH (I : Inv v0 s σ) : ∀ h b blk, s.handle h = some (some b) → s.heap b = some blk → 0 < blk.count := by
  intro h b blk h1 h2
  exact (I.cnt b blk h2).pos (a := .handle h) h1
theorem Inv.posD (I : Inv v0 s σ) : ∀ b blk, s.dflt = some b → s.exited = false → s.heap b = some blk → 0 < blk.count := by
  intro b blk h1 h1' h2
  exact (I.cnt b blk h2).pos (a := .dflt) ⟨h1, h1'⟩

theorem Inv.ownW (I : Inv v0 s σ) : ∀ t h, (s.pc t).will = some h → s.owner h = t ∧ ∃ p, s.handle h = some (some p) := by
  intro t h hw
  apply I.own t h
  revert hw
  cases s.pc t <;> simp [PC.will, PC.on]
theorem Inv.ownR (I : Inv v0 s σ) : ∀ t h q v st, s.pc t = .reset h q v st → s.owner h = t ∧ ∃ p, s.handle h = some (some p) := by
  intro t h q v st hp
  apply I.own t h
  rw [hp]; rfl
theorem Inv.oneTD (I : Inv v0 s σ) : ∀ t h' b v st blk, s.pc t = .reset h' b v st → s.dflt = some b → s.exited = false → s.heap b = some blk →
    blk.count ≠ 1 := by
  intro t h' b v st blk h1 h2 h5 h3 h4
  have := I.one h3 h4 (x := .thread t) (y := .dflt) ⟨_, _, _, h1⟩ ⟨h2, h5⟩
  simp at this
theorem Inv.freeH (I : Inv v0 s σ) : ∀ t b k, s.pc t = .free b k → ∀ x, ¬ Holds s x b := by
  intro t b k hp x hx
  obtain ⟨blk, hb⟩ := Option.ne_none_iff_exists'.1 (I.freeing t b k hp)
  have := (I.cnt b blk hb).pos hx
  rw [I.free0 t b k blk hp hb] at this
  omega

theorem put_free {t b : Nat} {x : PC V} (hnf : ∀ k, s.pc t ≠ .free b k) (h : ∃ t' k, s.pc t' = .free b k) :
    ∃ t' k, put s.pc t x t' = .free b k := by
  obtain ⟨t', k, hk⟩ := h
  refine ⟨t', k, ?_⟩
  rw [put_ne _ _ (by rintro rfl; exact hnf k hk)]
  exact hk

/-- all that is known about the references to a block -/
theorem Inv.facts (I : Inv v0 s σ) :
    (∀ h p, s.handle h = some (some p) → s.heap p ≠ none) ∧
    (∀ t h q v st, s.pc t = .reset h q v st → s.heap q ≠ none) ∧
    (∀ p, s.dflt = some p → s.exited = false → s.heap p ≠ none) ∧
    (∀ h h' b blk, s.handle h = some (some b) → s.handle h' = some (some b) → s.heap b = some blk → blk.count = 1 → h = h') ∧
    (∀ h t h' b v st blk, s.handle h = some (some b) → s.pc t = .reset h' b v st → s.heap b = some blk → blk.count ≠ 1) ∧
    (∀ h b blk, s.handle h = some (some b) → s.dflt = some b → s.exited = false → s.heap b = some blk → blk.count ≠ 1) ∧
    (∀ t h' b v st blk, s.pc t = .reset h' b v st → s.dflt = some b → s.exited = false → s.heap b = some blk → blk.count ≠ 1) ∧
    (∀ t h, (s.pc t).will = some h → s.owner h = t ∧ ∃ p, s.handle h = some (some p)) ∧
    (∀ t h q v st, s.pc t = .reset h q v st → s.owner h = t ∧ ∃ p, s.handle h = some (some p)) :=
  ⟨I.alH, I.alT, I.alD, I.oneHH, I.oneHT, I.oneHD, I.oneTD, I.ownW, I.ownR⟩

theorem Inv.construct (I : Inv v0 s σ) {t h : Nat} {v : V} {q : Nat} (ht : s.pc t = .idle) (hh : s.handle h = none) (hq : s.heap q = none) :
    Inv v0 { s with heap := put s.heap q (some ⟨1, v⟩), handle := put s.handle h (some (some q)), owner := put s.owner h t }
      (put σ h (some (some v))) := by
  obtain ⟨a1, a2, a3, o1, o2, o3, o4, w1, w2⟩ := I.facts
  have hno : ∀ x, ¬ Holds s x q := fun x hx => I.alive x q hx hq
  constructor
  case cnt =>
    intro c blk hc
    by_cases e : c = q
    · subst e
      simp only [put_same, Option.some.injEq] at hc
      subst hc
      apply Counted.single (a := Holder.handle h)
      intro x
      have := hno x
      cases x <;> grind [Holds, put]
    · have := I.cnt c blk (by simpa [put, e] using hc)
      refine this.congr fun x => ?_
      cases x <;> grind [Holds, put]
  case alive =>
    intro x c hc
    have := I.alive x c
    cases x <;> grind [Holds, put]
  case zero => have := I.zero; grind [put, PC.will, PC.on, Block.inc, Block.dec]
  case freeing => have := I.freeing; grind [put, PC.will, PC.on, Block.inc, Block.dec]
  case free0 => have := I.free0; have := I.freeing; grind [put, PC.will, PC.on, Block.inc, Block.dec]
  case uniq => have := I.uniq; grind [put, PC.will, PC.on, Block.inc, Block.dec]
  case own => have := I.own; grind [put, PC.will, PC.on, Block.inc, Block.dec]
  case will => have := I.will; grind [put, PC.will, PC.on, Block.inc, Block.dec]
  case reset1 => have := I.reset1; grind [put, PC.will, PC.on, Block.inc, Block.dec]
  case reset2 => have := I.reset2; have := I.reset1; grind [put, PC.will, PC.on, Block.inc, Block.dec]
  case gone => have := I.gone; grind [put, PC.will, PC.on, Block.inc, Block.dec]
  case null => have := I.null; grind [put, PC.will, PC.on, Block.inc, Block.dec]
  case val => have := I.val; grind [put, PC.will, PC.on, Block.inc, Block.dec]
  case dflt => have := I.dflt; grind [put, PC.will, PC.on, Block.inc, Block.dec]
  case exited => have := I.exited; grind [put, PC.will, PC.on, Block.inc, Block.dec]

theorem Inv.initDefault (I : Inv v0 s σ) {q : Nat} (hd : s.dflt = none) (he : s.exited = false) (hq : s.heap q = none) :
    Inv v0 { s with heap := put s.heap q (some ⟨1, v0⟩), dflt := some q } σ := by
  obtain ⟨a1, a2, a3, o1, o2, o3, o4, w1, w2⟩ := I.facts
  have hno : ∀ x, ¬ Holds s x q := fun x hx => I.alive x q hx hq
  constructor
  case cnt =>
    intro c blk hc
    by_cases e : c = q
    · subst e
      simp only [put_same, Option.some.injEq] at hc
      subst hc
      apply Counted.single (a := Holder.dflt)
      intro x
      have := hno x
      cases x <;> grind [Holds, put]
    · have := I.cnt c blk (by simpa [put, e] using hc)
      refine this.congr fun x => ?_
      cases x <;> grind [Holds, put]
  case alive =>
    intro x c hc
    have := I.alive x c
    cases x <;> grind [Holds, put]
  case zero => have := I.zero; grind [put, PC.will, PC.on, Block.inc, Block.dec]
  case freeing => have := I.freeing; grind [put, PC.will, PC.on, Block.inc, Block.dec]
  case free0 => have := I.free0; have := I.freeing; grind [put, PC.will, PC.on, Block.inc, Block.dec]
  case uniq => have := I.uniq; grind [put, PC.will, PC.on, Block.inc, Block.dec]
  case own => have := I.own; grind [put, PC.will, PC.on, Block.inc, Block.dec]
  case will => have := I.will; grind [put, PC.will, PC.on, Block.inc, Block.dec]
  case reset1 => have := I.reset1; grind [put, PC.will, PC.on, Block.inc, Block.dec]
  case reset2 => have := I.reset2; have := I.reset1; grind [put, PC.will, PC.on, Block.inc, Block.dec]
  case gone => have := I.gone; grind [put, PC.will, PC.on, Block.inc, Block.dec]
  case null => have := I.null; grind [put, PC.will, PC.on, Block.inc, Block.dec]
  case val => have := I.val; grind [put, PC.will, PC.on, Block.inc, Block.dec]
  case dflt => have := I.dflt; grind [put, PC.will, PC.on, Block.inc, Block.dec]
  case exited => have := I.exited; grind [put, PC.will, PC.on, Block.inc, Block.dec]

/-- a new handle refers to a block that another reference keeps alive -/
theorem Inv.share (I : Inv v0 s σ) {t h p : Nat} {b : Block V} (ht : s.pc t = .idle) (hh : s.handle h = none) (hb : s.heap p = some b)
    (hx : (∃ h', s.handle h' = some (some p) ∧ s.owner h' = t) ∨ (s.dflt = some p ∧ s.exited = false)) :
    Inv v0 { s with heap := put s.heap p (some b.inc), handle := put s.handle h (some (some p)), owner := put s.owner h t }
      (put σ h (some (some b.value))) := by
  have hpos : 0 < b.count := by
    rcases hx with ⟨h', h1, h2⟩ | ⟨h1, h2⟩
    · exact I.posH h' p b h1 hb
    · exact I.posD p b h1 h2 hb
  obtain ⟨a1, a2, a3, o1, o2, o3, o4, w1, w2⟩ := I.facts
  constructor
  case cnt =>
    intro c blk hc
    by_cases e : c = p
    · subst e
      simp only [put_same, Option.some.injEq] at hc
      subst hc
      apply (I.cnt c b hb).add (a := Holder.handle h)
      · grind [Holds]
      · intro x
        cases x <;> grind [Holds, put]
    · have := I.cnt c blk (by simpa [put, e] using hc)
      refine this.congr fun x => ?_
      cases x <;> grind [Holds, put]
  case alive =>
    intro x c hc
    have := I.alive x c
    cases x <;> grind [Holds, put]
  case zero => have := I.zero; grind [put, PC.will, PC.on, Block.inc, Block.dec]
  case freeing => have := I.freeing; grind [put, PC.will, PC.on, Block.inc, Block.dec]
  case free0 => have := I.free0; have := I.freeing; grind [put, PC.will, PC.on, Block.inc, Block.dec]
  case uniq => have := I.uniq; grind [put, PC.will, PC.on, Block.inc, Block.dec]
  case own => have := I.own; grind [put, PC.will, PC.on, Block.inc, Block.dec]
  case will => have := I.will; grind [put, PC.will, PC.on, Block.inc, Block.dec]
  case reset1 => have := I.reset1; grind [put, PC.will, PC.on, Block.inc, Block.dec]
  case reset2 => have := I.reset2; have := I.reset1; grind [put, PC.will, PC.on, Block.inc, Block.dec]
  case gone => have := I.gone; grind [put, PC.will, PC.on, Block.inc, Block.dec]
  case null => have := I.null; grind [put, PC.will, PC.on, Block.inc, Block.dec]
  case val => have := I.val; grind [put, PC.will, PC.on, Block.inc, Block.dec]
  case dflt => have := I.dflt; grind [put, PC.will, PC.on, Block.inc, Block.dec]
  case exited => have := I.exited; grind [put, PC.will, PC.on, Block.inc, Block.dec]

theorem Inv.copyNull (I : Inv v0 s σ) {t d : Nat} (hd : s.handle d = none) :
    Inv v0 { s with handle := put s.handle d (some none), owner := put s.owner d t } (put σ d (some none)) := by
  obtain ⟨a1, a2, a3, o1, o2, o3, o4, w1, w2⟩ := I.facts
  constructor
  case cnt =>
    intro c blk hc
    refine (I.cnt c blk hc).congr fun x => ?_
    cases x <;> grind [Holds, put]
  case alive =>
    intro x c hc
    have := I.alive x c
    cases x <;> grind [Holds, put]
  case zero => have := I.zero; grind [put, PC.will, PC.on, Block.inc, Block.dec]
  case freeing => have := I.freeing; grind [put, PC.will, PC.on, Block.inc, Block.dec]
  case free0 => have := I.free0; have := I.freeing; grind [put, PC.will, PC.on, Block.inc, Block.dec]
  case uniq => have := I.uniq; grind [put, PC.will, PC.on, Block.inc, Block.dec]
  case own => have := I.own; grind [put, PC.will, PC.on, Block.inc, Block.dec]
  case will => have := I.will; grind [put, PC.will, PC.on, Block.inc, Block.dec]
  case reset1 => have := I.reset1; grind [put, PC.will, PC.on, Block.inc, Block.dec]
  case reset2 => have := I.reset2; have := I.reset1; grind [put, PC.will, PC.on, Block.inc, Block.dec]
  case gone => have := I.gone; grind [put, PC.will, PC.on, Block.inc, Block.dec]
  case null => have := I.null; grind [put, PC.will, PC.on, Block.inc, Block.dec]
  case val => have := I.val; grind [put, PC.will, PC.on, Block.inc, Block.dec]
  case dflt => have := I.dflt; grind [put, PC.will, PC.on, Block.inc, Block.dec]
  case exited => have := I.exited; grind [put, PC.will, PC.on, Block.inc, Block.dec]

theorem Inv.move (I : Inv v0 s σ) {t d src : Nat} {r : Option Nat} {x : Option V} (ht : s.pc t = .idle) (hd : s.handle d = none)
    (ho : s.owner src = t) (hr : s.handle src = some r) (hx : σ src = some x) :
    Inv v0 { s with handle := put (put s.handle src (some none)) d (some r), owner := put s.owner d t } (put (put σ src (some none)) d (some x)) := by
  have hds : d ≠ src := by rintro rfl; rw [hd] at hr; cases hr
  obtain ⟨a1, a2, a3, o1, o2, o3, o4, w1, w2⟩ := I.facts
  constructor
  case cnt =>
    intro c blk hc
    by_cases e : r = some c
    · subst e
      apply (I.cnt c blk hc).exchange (a := Holder.handle src) (b := Holder.handle d)
      · exact hr
      · intro h; simp only [Holds] at h; rw [hd] at h; cases h
      · intro x
        cases x <;> grind [Holds, put]
    · refine (I.cnt c blk hc).congr fun x => ?_
      cases x <;> grind [Holds, put]
  case alive =>
    intro x c hc
    have := I.alive x c
    cases x <;> grind [Holds, put]
  case zero => have := I.zero; grind [put, PC.will, PC.on, Block.inc, Block.dec]
  case freeing => have := I.freeing; grind [put, PC.will, PC.on, Block.inc, Block.dec]
  case free0 => have := I.free0; have := I.freeing; grind [put, PC.will, PC.on, Block.inc, Block.dec]
  case uniq => have := I.uniq; grind [put, PC.will, PC.on, Block.inc, Block.dec]
  case own => have := I.own; grind [put, PC.will, PC.on, Block.inc, Block.dec]
  case will => have := I.will; grind [put, PC.will, PC.on, Block.inc, Block.dec]
  case reset1 => have := I.reset1; grind [put, PC.will, PC.on, Block.inc, Block.dec]
  case reset2 => have := I.reset2; have := I.reset1; grind [put, PC.will, PC.on, Block.inc, Block.dec]
  case gone => have := I.gone; grind [put, PC.will, PC.on, Block.inc, Block.dec]
  case null => have := I.null; grind [put, PC.will, PC.on, Block.inc, Block.dec]
  case val => have := I.val; grind [put, PC.will, PC.on, Block.inc, Block.dec]
  case dflt => have := I.dflt; grind [put, PC.will, PC.on, Block.inc, Block.dec]
  case exited => have := I.exited; grind [put, PC.will, PC.on, Block.inc, Block.dec]

theorem Inv.swap (I : Inv v0 s σ) {t a b : Nat} {r r' : Option Nat} {x y : Option V} (ht : s.pc t = .idle) (ha : s.owner a = t) (hb : s.owner b = t)
    (hr : s.handle a = some r) (hr' : s.handle b = some r') (hx : σ a = some x) (hy : σ b = some y) :
    Inv v0 { s with handle := put (put s.handle a (some r')) b (some r) } (put (put σ a (some y)) b (some x)) := by
  obtain ⟨a1, a2, a3, o1, o2, o3, o4, w1, w2⟩ := I.facts
  constructor
  case cnt =>
    intro c blk hc
    by_cases e : r = r'
    · refine (I.cnt c blk hc).congr fun x => ?_
      cases x <;> grind [Holds, put]
    · have hab : a ≠ b := by rintro rfl; rw [hr] at hr'; exact e (Option.some.inj hr')
      by_cases e1 : r = some c
      · apply (I.cnt c blk hc).exchange (a := Holder.handle a) (b := Holder.handle b)
        · grind [Holds]
        · grind [Holds]
        · intro x
          cases x <;> grind [Holds, put]
      · by_cases e2 : r' = some c
        · apply (I.cnt c blk hc).exchange (a := Holder.handle b) (b := Holder.handle a)
          · grind [Holds]
          · grind [Holds]
          · intro x
            cases x <;> grind [Holds, put]
        · refine (I.cnt c blk hc).congr fun x => ?_
          cases x <;> grind [Holds, put]
  case alive =>
    intro x c hc
    have := I.alive x c
    cases x <;> grind [Holds, put]
  case zero => have := I.zero; grind [put, PC.will, PC.on, Block.inc, Block.dec]
  case freeing => have := I.freeing; grind [put, PC.will, PC.on, Block.inc, Block.dec]
  case free0 => have := I.free0; have := I.freeing; grind [put, PC.will, PC.on, Block.inc, Block.dec]
  case uniq => have := I.uniq; grind [put, PC.will, PC.on, Block.inc, Block.dec]
  case own => have := I.own; grind [put, PC.will, PC.on, Block.inc, Block.dec]
  case will => have := I.will; grind [put, PC.will, PC.on, Block.inc, Block.dec]
  case reset1 => have := I.reset1; grind [put, PC.will, PC.on, Block.inc, Block.dec]
  case reset2 => have := I.reset2; have := I.reset1; grind [put, PC.will, PC.on, Block.inc, Block.dec]
  case gone => have := I.gone; grind [put, PC.will, PC.on, Block.inc, Block.dec]
  case null => have := I.null; grind [put, PC.will, PC.on, Block.inc, Block.dec]
  case val => have := I.val; grind [put, PC.will, PC.on, Block.inc, Block.dec]
  case dflt => have := I.dflt; grind [put, PC.will, PC.on, Block.inc, Block.dec]
  case exited => have := I.exited; grind [put, PC.will, PC.on, Block.inc, Block.dec]

theorem Inv.dropNull (I : Inv v0 s σ) {h : Nat} (hd : s.handle h = some none) : Inv v0 { s with handle := put s.handle h none } (put σ h none) := by
  obtain ⟨a1, a2, a3, o1, o2, o3, o4, w1, w2⟩ := I.facts
  constructor
  case cnt =>
    intro c blk hc
    refine (I.cnt c blk hc).congr fun x => ?_
    cases x <;> grind [Holds, put]
  case alive =>
    intro x c hc
    have := I.alive x c
    cases x <;> grind [Holds, put]
  case zero => have := I.zero; grind [put, PC.will, PC.on, Block.inc, Block.dec]
  case freeing => have := I.freeing; grind [put, PC.will, PC.on, Block.inc, Block.dec]
  case free0 => have := I.free0; have := I.freeing; grind [put, PC.will, PC.on, Block.inc, Block.dec]
  case uniq => have := I.uniq; grind [put, PC.will, PC.on, Block.inc, Block.dec]
  case own => have := I.own; grind [put, PC.will, PC.on, Block.inc, Block.dec]
  case will => have := I.will; grind [put, PC.will, PC.on, Block.inc, Block.dec]
  case reset1 => have := I.reset1; grind [put, PC.will, PC.on, Block.inc, Block.dec]
  case reset2 => have := I.reset2; have := I.reset1; grind [put, PC.will, PC.on, Block.inc, Block.dec]
  case gone => have := I.gone; grind [put, PC.will, PC.on, Block.inc, Block.dec]
  case null => have := I.null; grind [put, PC.will, PC.on, Block.inc, Block.dec]
  case val => have := I.val; grind [put, PC.will, PC.on, Block.inc, Block.dec]
  case dflt => have := I.dflt; grind [put, PC.will, PC.on, Block.inc, Block.dec]
  case exited => have := I.exited; grind [put, PC.will, PC.on, Block.inc, Block.dec]

theorem Inv.drop (I : Inv v0 s σ) {t h p : Nat} {b : Block V} (ht : s.pc t = .idle) (ho : s.owner h = t) (hr : s.handle h = some (some p))
    (hb : s.heap p = some b) (hl : b.dec.2 = false) :
    Inv v0 { s with heap := put s.heap p (some b.dec.1), handle := put s.handle h none } (put σ h none) := by
  have hl' : b.count - 1 ≠ 0 := by simpa [Block.dec] using hl
  have hpos := I.posH h p b hr hb
  have hf := fun t' k h' => I.freeH t' p k h' (.handle h) hr
  obtain ⟨a1, a2, a3, o1, o2, o3, o4, w1, w2⟩ := I.facts
  constructor
  case cnt =>
    intro c blk hc
    by_cases e : c = p
    · subst e
      simp only [put_same, Option.some.injEq] at hc
      subst hc
      apply (I.cnt c b hb).remove (a := Holder.handle h)
      · grind [Holds]
      · intro x
        cases x <;> grind [Holds, put]
    · have := I.cnt c blk (by simpa [put, e] using hc)
      refine this.congr fun x => ?_
      cases x <;> grind [Holds, put]
  case alive =>
    intro x c hc
    have := I.alive x c
    cases x <;> grind [Holds, put]
  case zero => have := I.zero; grind [put, PC.will, PC.on, Block.inc, Block.dec]
  case freeing => have := I.freeing; grind [put, PC.will, PC.on, Block.inc, Block.dec]
  case free0 => have := I.free0; have := I.freeing; grind [put, PC.will, PC.on, Block.inc, Block.dec]
  case uniq => have := I.uniq; grind [put, PC.will, PC.on, Block.inc, Block.dec]
  case own => have := I.own; grind [put, PC.will, PC.on, Block.inc, Block.dec]
  case will => have := I.will; grind [put, PC.will, PC.on, Block.inc, Block.dec]
  case reset1 => have := I.reset1; grind [put, PC.will, PC.on, Block.inc, Block.dec]
  case reset2 => have := I.reset2; have := I.reset1; grind [put, PC.will, PC.on, Block.inc, Block.dec]
  case gone => have := I.gone; grind [put, PC.will, PC.on, Block.inc, Block.dec]
  case null => have := I.null; grind [put, PC.will, PC.on, Block.inc, Block.dec]
  case val => have := I.val; grind [put, PC.will, PC.on, Block.inc, Block.dec]
  case dflt => have := I.dflt; grind [put, PC.will, PC.on, Block.inc, Block.dec]
  case exited => have := I.exited; grind [put, PC.will, PC.on, Block.inc, Block.dec]

theorem Inv.dropLast (I : Inv v0 s σ) {t h p : Nat} {b : Block V} (ht : s.pc t = .idle) (ho : s.owner h = t) (hr : s.handle h = some (some p))
    (hb : s.heap p = some b) (hl : b.dec.2 = true) :
    Inv v0 { s with heap := put s.heap p (some b.dec.1), handle := put s.handle h none, pc := put s.pc t (.free p none) } (put σ h none) := by
  have hl' : b.count - 1 = 0 := by simpa [Block.dec] using hl
  have h1 : b.count = 1 := by have := I.posH h p b hr hb; omega
  have hpos := I.posH h p b hr hb
  have hf := fun t' k h' => I.freeH t' p k h' (.handle h) hr
  obtain ⟨a1, a2, a3, o1, o2, o3, o4, w1, w2⟩ := I.facts
  constructor
  case cnt =>
    intro c blk hc
    by_cases e : c = p
    · subst e
      simp only [put_same, Option.some.injEq] at hc
      subst hc
      apply (I.cnt c b hb).remove (a := Holder.handle h)
      · grind [Holds]
      · intro x
        cases x <;> grind [Holds, put]
    · have := I.cnt c blk (by simpa [put, e] using hc)
      refine this.congr fun x => ?_
      cases x <;> grind [Holds, put]
  case alive =>
    intro x c hc
    have := I.alive x c
    cases x <;> grind [Holds, put]
  case zero =>
    intro c blk hc h0
    by_cases e : c = p
    · subst e; exact ⟨t, _, put_same _ _ _⟩
    · exact put_free (by rw [ht]; simp) (I.zero c blk (by simpa [put, e] using hc) h0)
  case freeing => have := I.freeing; grind [put, PC.will, PC.on, Block.inc, Block.dec]
  case free0 => have := I.free0; have := I.freeing; grind [put, PC.will, PC.on, Block.inc, Block.dec]
  case uniq => have := I.uniq; grind [put, PC.will, PC.on, Block.inc, Block.dec]
  case own => have := I.own; grind [put, PC.will, PC.on, Block.inc, Block.dec]
  case will => have := I.will; grind [put, PC.will, PC.on, Block.inc, Block.dec]
  case reset1 => have := I.reset1; grind [put, PC.will, PC.on, Block.inc, Block.dec]
  case reset2 => have := I.reset2; have := I.reset1; grind [put, PC.will, PC.on, Block.inc, Block.dec]
  case gone => have := I.gone; grind [put, PC.will, PC.on, Block.inc, Block.dec]
  case null => have := I.null; grind [put, PC.will, PC.on, Block.inc, Block.dec]
  case val => have := I.val; grind [put, PC.will, PC.on, Block.inc, Block.dec]
  case dflt => have := I.dflt; grind [put, PC.will, PC.on, Block.inc, Block.dec]
  case exited => have := I.exited; grind [put, PC.will, PC.on, Block.inc, Block.dec]

theorem Inv.exit (I : Inv v0 s σ) {t p : Nat} {b : Block V} (ht : s.pc t = .idle) (hd : s.dflt = some p) (he : s.exited = false)
    (hb : s.heap p = some b) (hl : b.dec.2 = false) : Inv v0 { s with heap := put s.heap p (some b.dec.1), exited := true } σ := by
  have hl' : b.count - 1 ≠ 0 := by simpa [Block.dec] using hl
  have hpos := I.posD p b hd he hb
  have hf := fun t' k h' => I.freeH t' p k h' .dflt ⟨hd, he⟩
  obtain ⟨a1, a2, a3, o1, o2, o3, o4, w1, w2⟩ := I.facts
  constructor
  case cnt =>
    intro c blk hc
    by_cases e : c = p
    · subst e
      simp only [put_same, Option.some.injEq] at hc
      subst hc
      apply (I.cnt c b hb).remove (a := Holder.dflt)
      · grind [Holds]
      · intro x
        cases x <;> grind [Holds, put]
    · have := I.cnt c blk (by simpa [put, e] using hc)
      refine this.congr fun x => ?_
      cases x <;> grind [Holds, put]
  case alive =>
    intro x c hc
    have := I.alive x c
    cases x <;> grind [Holds, put]
  case zero => have := I.zero; grind [put, PC.will, PC.on, Block.inc, Block.dec]
  case freeing => have := I.freeing; grind [put, PC.will, PC.on, Block.inc, Block.dec]
  case free0 => have := I.free0; have := I.freeing; grind [put, PC.will, PC.on, Block.inc, Block.dec]
  case uniq => have := I.uniq; grind [put, PC.will, PC.on, Block.inc, Block.dec]
  case own => have := I.own; grind [put, PC.will, PC.on, Block.inc, Block.dec]
  case will => have := I.will; grind [put, PC.will, PC.on, Block.inc, Block.dec]
  case reset1 => have := I.reset1; grind [put, PC.will, PC.on, Block.inc, Block.dec]
  case reset2 => have := I.reset2; have := I.reset1; grind [put, PC.will, PC.on, Block.inc, Block.dec]
  case gone => have := I.gone; grind [put, PC.will, PC.on, Block.inc, Block.dec]
  case null => have := I.null; grind [put, PC.will, PC.on, Block.inc, Block.dec]
  case val => have := I.val; grind [put, PC.will, PC.on, Block.inc, Block.dec]
  case dflt => have := I.dflt; grind [put, PC.will, PC.on, Block.inc, Block.dec]
  case exited => have := I.exited; grind [put, PC.will, PC.on, Block.inc, Block.dec]

theorem Inv.exitLast (I : Inv v0 s σ) {t p : Nat} {b : Block V} (ht : s.pc t = .idle) (hd : s.dflt = some p) (he : s.exited = false)
    (hb : s.heap p = some b) (hl : b.dec.2 = true) :
    Inv v0 { s with heap := put s.heap p (some b.dec.1), exited := true, pc := put s.pc t (.free p none) } σ := by
  have hl' : b.count - 1 = 0 := by simpa [Block.dec] using hl
  have hpos := I.posD p b hd he hb
  have h1 : b.count = 1 := by omega
  have hone : ∀ x, Holds s x p → x = .dflt := fun x hx => I.one hb h1 hx (show Holds s .dflt p from ⟨hd, he⟩)
  have hnh : ∀ h, s.handle h ≠ some (some p) := fun h hh => by have := hone (.handle h) hh; cases this
  have hnt : ∀ t h v st, s.pc t ≠ .reset h p v st := fun t h v st hh => by have := hone (.thread t) ⟨h, v, st, hh⟩; cases this
  have hf := fun t' k h' => I.freeH t' p k h' .dflt ⟨hd, he⟩
  obtain ⟨a1, a2, a3, o1, o2, o3, o4, w1, w2⟩ := I.facts
  constructor
  case cnt =>
    intro c blk hc
    by_cases e : c = p
    · subst e
      simp only [put_same, Option.some.injEq] at hc
      subst hc
      apply (I.cnt c b hb).remove (a := Holder.dflt)
      · grind [Holds]
      · intro x
        cases x <;> grind [Holds, put]
    · have := I.cnt c blk (by simpa [put, e] using hc)
      refine this.congr fun x => ?_
      cases x <;> grind [Holds, put]
  case alive =>
    intro x c hc
    have := I.alive x c
    cases x <;> grind [Holds, put]
  case zero =>
    intro c blk hc h0
    by_cases e : c = p
    · subst e; exact ⟨t, _, put_same _ _ _⟩
    · exact put_free (by rw [ht]; simp) (I.zero c blk (by simpa [put, e] using hc) h0)
  case freeing => have := I.freeing; grind [put, PC.will, PC.on, Block.inc, Block.dec]
  case free0 => have := I.free0; have := I.freeing; grind [put, PC.will, PC.on, Block.inc, Block.dec]
  case uniq => have := I.uniq; grind [put, PC.will, PC.on, Block.inc, Block.dec]
  case own => have := I.own; grind [put, PC.will, PC.on, Block.inc, Block.dec]
  case will => have := I.will; grind [put, PC.will, PC.on, Block.inc, Block.dec]
  case reset1 => have := I.reset1; grind [put, PC.will, PC.on, Block.inc, Block.dec]
  case reset2 => have := I.reset2; have := I.reset1; grind [put, PC.will, PC.on, Block.inc, Block.dec]
  case gone => have := I.gone; grind [put, PC.will, PC.on, Block.inc, Block.dec]
  case null => have := I.null; grind [put, PC.will, PC.on, Block.inc, Block.dec]
  case val => have := I.val; grind [put, PC.will, PC.on, Block.inc, Block.dec]
  case dflt => have := I.dflt; grind [put, PC.will, PC.on, Block.inc, Block.dec]
  case exited => have := I.exited; grind [put, PC.will, PC.on, Block.inc, Block.dec]

/-- an operation on a handle begins -/
theorem Inv.begin (I : Inv v0 s σ) {t h : Nat} {pc : PC V} (ht : s.pc t = .idle) (ho : s.owner h = t) {p : Nat} (hr : s.handle h = some (some p))
    {b : Block V} (hb : s.heap p = some b) (hon : pc.on = some h) (hw : pc.will = none ∨ (pc.will = some h ∧ b.count = 1))
    (hnr : ∀ h q v st, pc ≠ .reset h q v st) (hnf : ∀ p k, pc ≠ .free p k) : Inv v0 { s with pc := put s.pc t pc } σ := by
  obtain ⟨a1, a2, a3, o1, o2, o3, o4, w1, w2⟩ := I.facts
  constructor
  case cnt =>
    intro c blk hc
    refine (I.cnt c blk hc).congr fun x => ?_
    cases x <;> grind [Holds, put]
  case alive =>
    intro x c hc
    have := I.alive x c
    cases x <;> grind [Holds, put]
  case zero =>
    intro c blk hc h0
    exact put_free (by rw [ht]; simp) (I.zero c blk hc h0)
  case freeing => have := I.freeing; grind [put, PC.will, PC.on, Block.inc, Block.dec]
  case free0 => have := I.free0; have := I.freeing; grind [put, PC.will, PC.on, Block.inc, Block.dec]
  case uniq => have := I.uniq; grind [put, PC.will, PC.on, Block.inc, Block.dec]
  case own => have := I.own; grind [put, PC.will, PC.on, Block.inc, Block.dec]
  case will => have := I.will; grind [put, PC.will, PC.on, Block.inc, Block.dec]
  case reset1 => have := I.reset1; grind [put, PC.will, PC.on, Block.inc, Block.dec]
  case reset2 => have := I.reset2; have := I.reset1; grind [put, PC.will, PC.on, Block.inc, Block.dec]
  case gone => have := I.gone; grind [put, PC.will, PC.on, Block.inc, Block.dec]
  case null => have := I.null; grind [put, PC.will, PC.on, Block.inc, Block.dec]
  case val => have := I.val; grind [put, PC.will, PC.on, Block.inc, Block.dec]
  case dflt => have := I.dflt; grind [put, PC.will, PC.on, Block.inc, Block.dec]
  case exited => have := I.exited; grind [put, PC.will, PC.on, Block.inc, Block.dec]

/-- an operation is abandoned -/
theorem Inv.abandon (I : Inv v0 s σ) {t : Nat} (hnr : ∀ h q v st, s.pc t ≠ .reset h q v st) (hnf : ∀ p k, s.pc t ≠ .free p k) :
    Inv v0 { s with pc := put s.pc t .idle } σ := by
  obtain ⟨a1, a2, a3, o1, o2, o3, o4, w1, w2⟩ := I.facts
  constructor
  case cnt =>
    intro c blk hc
    refine (I.cnt c blk hc).congr fun x => ?_
    cases x <;> grind [Holds, put]
  case alive =>
    intro x c hc
    have := I.alive x c
    cases x <;> grind [Holds, put]
  case zero =>
    intro c blk hc h0
    exact put_free (hnf c) (I.zero c blk hc h0)
  case freeing => have := I.freeing; grind [put, PC.will, PC.on, Block.inc, Block.dec]
  case free0 => have := I.free0; have := I.freeing; grind [put, PC.will, PC.on, Block.inc, Block.dec]
  case uniq => have := I.uniq; grind [put, PC.will, PC.on, Block.inc, Block.dec]
  case own => have := I.own; grind [put, PC.will, PC.on, Block.inc, Block.dec]
  case will => have := I.will; grind [put, PC.will, PC.on, Block.inc, Block.dec]
  case reset1 => have := I.reset1; grind [put, PC.will, PC.on, Block.inc, Block.dec]
  case reset2 => have := I.reset2; have := I.reset1; grind [put, PC.will, PC.on, Block.inc, Block.dec]
  case gone => have := I.gone; grind [put, PC.will, PC.on, Block.inc, Block.dec]
  case null => have := I.null; grind [put, PC.will, PC.on, Block.inc, Block.dec]
  case val => have := I.val; grind [put, PC.will, PC.on, Block.inc, Block.dec]
  case dflt => have := I.dflt; grind [put, PC.will, PC.on, Block.inc, Block.dec]
  case exited => have := I.exited; grind [put, PC.will, PC.on, Block.inc, Block.dec]

theorem Inv.fill (I : Inv v0 s σ) {t h : Nat} {v : V} {q : Nat} (ht : s.pc t = .idle) (ho : s.owner h = t) (hh : s.handle h = some none)
    (hq : s.heap q = none) :
    Inv v0 { s with heap := put s.heap q (some ⟨1, v⟩), handle := put s.handle h (some (some q)) } (put σ h (some (some v))) := by
  obtain ⟨a1, a2, a3, o1, o2, o3, o4, w1, w2⟩ := I.facts
  have hno : ∀ x, ¬ Holds s x q := fun x hx => I.alive x q hx hq
  constructor
  case cnt =>
    intro c blk hc
    by_cases e : c = q
    · subst e
      simp only [put_same, Option.some.injEq] at hc
      subst hc
      apply Counted.single (a := Holder.handle h)
      intro x
      have := hno x
      cases x <;> grind [Holds, put]
    · have := I.cnt c blk (by simpa [put, e] using hc)
      refine this.congr fun x => ?_
      cases x <;> grind [Holds, put]
  case alive =>
    intro x c hc
    have := I.alive x c
    cases x <;> grind [Holds, put]
  case zero => have := I.zero; grind [put, PC.will, PC.on, Block.inc, Block.dec]
  case freeing => have := I.freeing; grind [put, PC.will, PC.on, Block.inc, Block.dec]
  case free0 => have := I.free0; have := I.freeing; grind [put, PC.will, PC.on, Block.inc, Block.dec]
  case uniq => have := I.uniq; grind [put, PC.will, PC.on, Block.inc, Block.dec]
  case own => have := I.own; grind [put, PC.will, PC.on, Block.inc, Block.dec]
  case will => have := I.will; grind [put, PC.will, PC.on, Block.inc, Block.dec]
  case reset1 => have := I.reset1; grind [put, PC.will, PC.on, Block.inc, Block.dec]
  case reset2 => have := I.reset2; have := I.reset1; grind [put, PC.will, PC.on, Block.inc, Block.dec]
  case gone => have := I.gone; grind [put, PC.will, PC.on, Block.inc, Block.dec]
  case null => have := I.null; grind [put, PC.will, PC.on, Block.inc, Block.dec]
  case val => have := I.val; grind [put, PC.will, PC.on, Block.inc, Block.dec]
  case dflt => have := I.dflt; grind [put, PC.will, PC.on, Block.inc, Block.dec]
  case exited => have := I.exited; grind [put, PC.will, PC.on, Block.inc, Block.dec]

theorem Inv.allocate (I : Inv v0 s σ) {t h p : Nat} {pc : PC V} {b : Block V} {v : V} {st : Bool} {q : Nat} (ht : s.pc t = pc) (hon : pc.on = some h)
    (hnr : ∀ h q v st, pc ≠ .reset h q v st) (hnf : ∀ p k, pc ≠ .free p k) (hr : s.handle h = some (some p)) (hb : s.heap p = some b)
    (hq : s.heap q = none) :
    Inv v0 { s with heap := put s.heap q (some ⟨1, if st then b.value else v⟩), pc := put s.pc t (.reset h q v st) } σ := by
  have hpq : p ≠ q := by rintro rfl; rw [hq] at hb; cases hb
  obtain ⟨a1, a2, a3, o1, o2, o3, o4, w1, w2⟩ := I.facts
  have hno : ∀ x, ¬ Holds s x q := fun x hx => I.alive x q hx hq
  constructor
  case cnt =>
    intro c blk hc
    by_cases e : c = q
    · subst e
      simp only [put_same, Option.some.injEq] at hc
      subst hc
      apply Counted.single (a := Holder.thread t)
      intro x
      have := hno x
      cases x <;> grind [Holds, put]
    · have := I.cnt c blk (by simpa [put, e] using hc)
      refine this.congr fun x => ?_
      cases x <;> grind [Holds, put]
  case alive =>
    intro x c hc
    have := I.alive x c
    cases x <;> grind [Holds, put]
  case zero =>
    intro c blk hc h0
    by_cases e : c = q
    · subst e
      simp only [put_same, Option.some.injEq] at hc
      subst hc
      simp at h0
    · exact put_free (by rw [ht]; exact hnf c) (I.zero c blk (by simpa [put, e] using hc) h0)
  case freeing => have := I.freeing; grind [put, PC.will, PC.on, Block.inc, Block.dec]
  case free0 => have := I.free0; have := I.freeing; grind [put, PC.will, PC.on, Block.inc, Block.dec]
  case uniq => have := I.uniq; grind [put, PC.will, PC.on, Block.inc, Block.dec]
  case own => have := I.own; grind [put, PC.will, PC.on, Block.inc, Block.dec]
  case will => have := I.will; grind [put, PC.will, PC.on, Block.inc, Block.dec]
  case reset1 => have := I.reset1; grind [put, PC.will, PC.on, Block.inc, Block.dec]
  case reset2 => have := I.reset2; have := I.reset1; grind [put, PC.will, PC.on, Block.inc, Block.dec]
  case gone => have := I.gone; grind [put, PC.will, PC.on, Block.inc, Block.dec]
  case null => have := I.null; grind [put, PC.will, PC.on, Block.inc, Block.dec]
  case val => have := I.val; grind [put, PC.will, PC.on, Block.inc, Block.dec]
  case dflt => have := I.dflt; grind [put, PC.will, PC.on, Block.inc, Block.dec]
  case exited => have := I.exited; grind [put, PC.will, PC.on, Block.inc, Block.dec]

/-- `reset`, the old block has other references -/
theorem Inv.reset (I : Inv v0 s σ) {t h p q : Nat} {b : Block V} {v : V} {st : Bool} (ht : s.pc t = .reset h q v st) (hr : s.handle h = some (some p))
    (hb : s.heap p = some b) (hl : b.dec.2 = false) {σ' : Spec.Vars V} (hσ : σ' = if st then σ else put σ h (some (some v))) :
    Inv v0 { s with heap := put s.heap p (some b.dec.1), handle := put s.handle h (some (some q)),
                    pc := put s.pc t (if st then .store h v else .idle) } σ' := by
  have hl' : b.count - 1 ≠ 0 := by simpa [Block.dec] using hl
  have ⟨ho, _⟩ := I.ownR t h q v st ht
  have hpos := I.posH h p b hr hb
  have hf := fun t' k h' => I.freeH t' p k h' (.handle h) hr
  have hfq := fun t' k h' => I.freeH t' q k h' (.thread t) ⟨h, v, st, ht⟩
  obtain ⟨bq, hbq⟩ := Option.ne_none_iff_exists'.1 (I.alT t h q v st ht)
  have hq1 := I.reset1 t h q v st bq ht hbq
  have hqv := I.reset2 t h q v st bq p b ht hbq hr hb
  have hoq : ∀ x, Holds s x q → x = .thread t := fun x hx => I.one hbq hq1 hx (show Holds s (.thread t) q from ⟨h, v, st, ht⟩)
  have hnh : ∀ h, s.handle h ≠ some (some q) := fun h hh => by have := hoq (.handle h) hh; cases this
  have hnt : ∀ t' h v st, s.pc t' = .reset h q v st → t' = t := fun t h v st hh => by have := hoq (.thread t) ⟨h, v, st, hh⟩; cases this; rfl
  have hnd : s.dflt = some q → s.exited = false → False := fun h1 h2 => by have := hoq .dflt ⟨h1, h2⟩; cases this
  have hpq : p ≠ q := by rintro rfl; exact hnh h hr
  obtain ⟨a1, a2, a3, o1, o2, o3, o4, w1, w2⟩ := I.facts
  constructor
  case cnt =>
    intro c blk hc
    by_cases e : c = p
    · subst e
      simp only [put_same, Option.some.injEq] at hc
      subst hc
      apply (I.cnt c b hb).remove (a := Holder.handle h)
      · grind [Holds]
      · intro x
        cases x <;> grind [Holds, put]
    · have hc' : s.heap c = some blk := by simpa [put, e] using hc
      by_cases e' : c = q
      · subst e'
        apply (I.cnt c blk hc').exchange (a := Holder.thread t) (b := Holder.handle h)
        · exact ⟨h, v, st, ht⟩
        · exact hnh h
        · intro x
          have := hoq x
          cases x <;> grind [Holds, put]
      · refine (I.cnt c blk hc').congr fun x => ?_
        cases x <;> grind [Holds, put]
  case alive =>
    intro x c hc
    have := I.alive x c
    cases x <;> grind [Holds, put]
  case zero =>
    intro c blk hc h0
    by_cases e : c = p
    · subst e
      simp only [put_same, Option.some.injEq] at hc
      subst hc
      exact absurd h0 hl'
    · exact put_free (by rw [ht]; simp) (I.zero c blk (by simpa [put, e] using hc) h0)
  case freeing => have := I.freeing; grind [put, PC.will, PC.on, Block.inc, Block.dec]
  case free0 => have := I.free0; have := I.freeing; grind [put, PC.will, PC.on, Block.inc, Block.dec]
  case uniq => have := I.uniq; grind [put, PC.will, PC.on, Block.inc, Block.dec]
  case own => have := I.own; grind [put, PC.will, PC.on, Block.inc, Block.dec]
  case will =>
    intro t' h' p' blk hw hh hbk
    simp only at hw hh hbk
    by_cases et : t' = t
    · subst et
      rw [put_same] at hw
      have : h' = h := by cases st <;> simp [PC.will] at hw <;> exact hw.symm
      subst this
      rw [put_same] at hh
      cases hh
      rw [put_ne _ _ hpq.symm, hbq] at hbk
      cases hbk
      exact hq1
    · rw [put_ne _ _ et] at hw
      have e1 := (w1 t' h' hw).1
      have e2 : h' ≠ h := by rintro rfl; exact et (e1.symm.trans ho)
      rw [put_ne _ _ e2] at hh
      by_cases ep : p' = p
      · subst ep
        have := I.will t' h' p' b hw hh hb
        exact absurd (o1 h' h p' b hh hr hb this) e2
      · rw [put_ne _ _ ep] at hbk
        exact I.will t' h' p' blk hw hh hbk
  case reset1 => have := I.reset1; grind [put, PC.will, PC.on, Block.inc, Block.dec]
  case reset2 => have := I.reset2; have := I.reset1; grind [put, PC.will, PC.on, Block.inc, Block.dec]
  case gone =>
    have := I.gone; subst hσ; cases st <;> grind [put, PC.will, PC.on, Block.inc, Block.dec]
  case null =>
    have := I.null; subst hσ; cases st <;> grind [put, PC.will, PC.on, Block.inc, Block.dec]
  case val =>
    have := I.val; subst hσ; cases st <;> grind [put, PC.will, PC.on, Block.inc, Block.dec]
  case dflt => have := I.dflt; grind [put, PC.will, PC.on, Block.inc, Block.dec]
  case exited => have := I.exited; grind [put, PC.will, PC.on, Block.inc, Block.dec]

/-- `reset`, the old block must be freed -/
theorem Inv.resetLast (I : Inv v0 s σ) {t h p q : Nat} {b : Block V} {v : V} {st : Bool} (ht : s.pc t = .reset h q v st)
    (hr : s.handle h = some (some p)) (hb : s.heap p = some b) (hl : b.dec.2 = true) {σ' : Spec.Vars V}
    (hσ : σ' = if st then σ else put σ h (some (some v))) :
    Inv v0 { s with heap := put s.heap p (some b.dec.1), handle := put s.handle h (some (some q)),
                    pc := put s.pc t (.free p (if st then some (h, v) else none)) } σ' := by
  have hl' : b.count - 1 = 0 := by simpa [Block.dec] using hl
  have h1 : b.count = 1 := by have := I.posH h p b hr hb; omega
  have ⟨ho, _⟩ := I.ownR t h q v st ht
  have hpos := I.posH h p b hr hb
  have hf := fun t' k h' => I.freeH t' p k h' (.handle h) hr
  have hfq := fun t' k h' => I.freeH t' q k h' (.thread t) ⟨h, v, st, ht⟩
  obtain ⟨bq, hbq⟩ := Option.ne_none_iff_exists'.1 (I.alT t h q v st ht)
  have hq1 := I.reset1 t h q v st bq ht hbq
  have hqv := I.reset2 t h q v st bq p b ht hbq hr hb
  have hoq : ∀ x, Holds s x q → x = .thread t := fun x hx => I.one hbq hq1 hx (show Holds s (.thread t) q from ⟨h, v, st, ht⟩)
  have hnh : ∀ h, s.handle h ≠ some (some q) := fun h hh => by have := hoq (.handle h) hh; cases this
  have hnt : ∀ t' h v st, s.pc t' = .reset h q v st → t' = t := fun t h v st hh => by have := hoq (.thread t) ⟨h, v, st, hh⟩; cases this; rfl
  have hnd : s.dflt = some q → s.exited = false → False := fun h1 h2 => by have := hoq .dflt ⟨h1, h2⟩; cases this
  have hpq : p ≠ q := by rintro rfl; exact hnh h hr
  obtain ⟨a1, a2, a3, o1, o2, o3, o4, w1, w2⟩ := I.facts
  constructor
  case cnt =>
    intro c blk hc
    by_cases e : c = p
    · subst e
      simp only [put_same, Option.some.injEq] at hc
      subst hc
      apply (I.cnt c b hb).remove (a := Holder.handle h)
      · grind [Holds]
      · intro x
        cases x <;> grind [Holds, put]
    · have hc' : s.heap c = some blk := by simpa [put, e] using hc
      by_cases e' : c = q
      · subst e'
        apply (I.cnt c blk hc').exchange (a := Holder.thread t) (b := Holder.handle h)
        · exact ⟨h, v, st, ht⟩
        · exact hnh h
        · intro x
          have := hoq x
          cases x <;> grind [Holds, put]
      · refine (I.cnt c blk hc').congr fun x => ?_
        cases x <;> grind [Holds, put]
  case alive =>
    intro x c hc
    have := I.alive x c
    cases x <;> grind [Holds, put]
  case zero =>
    intro c blk hc h0
    by_cases e : c = p
    · subst e; exact ⟨t, _, put_same _ _ _⟩
    · exact put_free (by rw [ht]; simp) (I.zero c blk (by simpa [put, e] using hc) h0)
  case freeing => have := I.freeing; grind [put, PC.will, PC.on, Block.inc, Block.dec]
  case free0 => have := I.free0; have := I.freeing; grind [put, PC.will, PC.on, Block.inc, Block.dec]
  case uniq => have := I.uniq; grind [put, PC.will, PC.on, Block.inc, Block.dec]
  case own => have := I.own; grind [put, PC.will, PC.on, Block.inc, Block.dec]
  case will =>
    intro t' h' p' blk hw hh hbk
    simp only at hw hh hbk
    by_cases et : t' = t
    · subst et
      rw [put_same] at hw
      have : h' = h := by cases st <;> simp [PC.will] at hw <;> exact hw.symm
      subst this
      rw [put_same] at hh
      cases hh
      rw [put_ne _ _ hpq.symm, hbq] at hbk
      cases hbk
      exact hq1
    · rw [put_ne _ _ et] at hw
      have e1 := (w1 t' h' hw).1
      have e2 : h' ≠ h := by rintro rfl; exact et (e1.symm.trans ho)
      rw [put_ne _ _ e2] at hh
      by_cases ep : p' = p
      · subst ep
        have := I.will t' h' p' b hw hh hb
        exact absurd (o1 h' h p' b hh hr hb this) e2
      · rw [put_ne _ _ ep] at hbk
        exact I.will t' h' p' blk hw hh hbk
  case reset1 => have := I.reset1; grind [put, PC.will, PC.on, Block.inc, Block.dec]
  case reset2 => have := I.reset2; have := I.reset1; grind [put, PC.will, PC.on, Block.inc, Block.dec]
  case gone =>
    have := I.gone; subst hσ; cases st <;> grind [put, PC.will, PC.on, Block.inc, Block.dec]
  case null =>
    have := I.null; subst hσ; cases st <;> grind [put, PC.will, PC.on, Block.inc, Block.dec]
  case val =>
    have := I.val; subst hσ; cases st <;> grind [put, PC.will, PC.on, Block.inc, Block.dec]
  case dflt => have := I.dflt; grind [put, PC.will, PC.on, Block.inc, Block.dec]
  case exited => have := I.exited; grind [put, PC.will, PC.on, Block.inc, Block.dec]

theorem Inv.free (I : Inv v0 s σ) {t p : Nat} {k : Option (Nat × V)} (ht : s.pc t = .free p k) :
    Inv v0 { s with heap := put s.heap p none, pc := put s.pc t (match k with
      | some (h, v) => .store h v
      | none => .idle) } σ := by
  have hn := I.freeH t p k ht
  have hnh : ∀ h, s.handle h ≠ some (some p) := fun h => hn (.handle h)
  have hnt : ∀ t' h v st, s.pc t' ≠ .reset h p v st := fun t' h v st hh => hn (.thread t') ⟨h, v, st, hh⟩
  have hnd : s.dflt = some p → s.exited = false → False := fun h1 h2 => hn .dflt ⟨h1, h2⟩
  obtain ⟨a1, a2, a3, o1, o2, o3, o4, w1, w2⟩ := I.facts
  constructor
  case cnt =>
    intro c blk hc
    have e : c ≠ p := by rintro rfl; simp at hc
    have := I.cnt c blk (by simpa [put, e] using hc)
    refine this.congr fun x => ?_
    cases x <;> grind [Holds, put]
  case alive =>
    intro x c hc
    have := I.alive x c
    cases x <;> grind [Holds, put]
  case zero =>
    intro c blk hc h0
    have e : c ≠ p := by rintro rfl; simp at hc
    exact put_free (by rw [ht]; simpa using fun h => absurd h.symm e) (I.zero c blk (by simpa [put, e] using hc) h0)
  case freeing =>
    have := I.freeing
    have := I.uniq
    intro t' c k' h'
    by_cases e : t' = t
    · subst e
      simp only [put_same] at h'
      cases k <;> simp at h'
    · have h'' : s.pc t' = .free c k' := by simpa only [put_ne _ _ e] using h'
      have e' : c ≠ p := by rintro rfl; exact e (I.uniq _ _ _ _ _ h'' ht)
      simp only [put_ne _ _ e']
      exact I.freeing t' c k' h''
  case free0 => have := I.free0; have := I.freeing; grind [put, PC.will, PC.on, Block.inc, Block.dec]
  case uniq => have := I.uniq; grind [put, PC.will, PC.on, Block.inc, Block.dec]
  case own => have := I.own; grind [put, PC.will, PC.on, Block.inc, Block.dec]
  case will => have := I.will; grind [put, PC.will, PC.on, Block.inc, Block.dec]
  case reset1 => have := I.reset1; grind [put, PC.will, PC.on, Block.inc, Block.dec]
  case reset2 => have := I.reset2; have := I.reset1; grind [put, PC.will, PC.on, Block.inc, Block.dec]
  case gone => have := I.gone; grind [put, PC.will, PC.on, Block.inc, Block.dec]
  case null => have := I.null; grind [put, PC.will, PC.on, Block.inc, Block.dec]
  case val => have := I.val; grind [put, PC.will, PC.on, Block.inc, Block.dec]
  case dflt => have := I.dflt; grind [put, PC.will, PC.on, Block.inc, Block.dec]
  case exited => have := I.exited; grind [put, PC.will, PC.on, Block.inc, Block.dec]

theorem Inv.store (I : Inv v0 s σ) {t h p : Nat} {v : V} {b : Block V} (ht : s.pc t = .store h v) (hr : s.handle h = some (some p))
    (hb : s.heap p = some b) :
    Inv v0 { s with heap := put s.heap p (some { b with value := v }), pc := put s.pc t .idle } (put σ h (some (some v))) := by
  have h1 := I.will t h p b (by rw [ht]; rfl) hr hb
  have hf := fun t' k h' => I.freeH t' p k h' (.handle h) hr
  obtain ⟨a1, a2, a3, o1, o2, o3, o4, w1, w2⟩ := I.facts
  constructor
  case cnt =>
    intro c blk hc
    have : ∃ blk', s.heap c = some blk' ∧ blk'.count = blk.count := by
      by_cases e : c = p
      · subst e
        simp only [put_same, Option.some.injEq] at hc
        exact ⟨b, hb, by rw [← hc]⟩
      · exact ⟨blk, by simpa [put, e] using hc, rfl⟩
    obtain ⟨blk', h1, h2⟩ := this
    rw [← h2]
    refine (I.cnt c blk' h1).congr fun x => ?_
    cases x <;> grind [Holds, put]
  case alive =>
    intro x c hc
    have := I.alive x c
    cases x <;> grind [Holds, put]
  case zero =>
    intro c blk hc h0
    by_cases e : c = p
    · subst e
      simp only [put_same, Option.some.injEq] at hc
      subst hc
      simp only at h0
      omega
    · exact put_free (by rw [ht]; simp) (I.zero c blk (by simpa [put, e] using hc) h0)
  case freeing => have := I.freeing; grind [put, PC.will, PC.on, Block.inc, Block.dec]
  case free0 => have := I.free0; have := I.freeing; grind [put, PC.will, PC.on, Block.inc, Block.dec]
  case uniq => have := I.uniq; grind [put, PC.will, PC.on, Block.inc, Block.dec]
  case own => have := I.own; grind [put, PC.will, PC.on, Block.inc, Block.dec]
  case will => have := I.will; grind [put, PC.will, PC.on, Block.inc, Block.dec]
  case reset1 => have := I.reset1; grind [put, PC.will, PC.on, Block.inc, Block.dec]
  case reset2 => have := I.reset2; have := I.reset1; grind [put, PC.will, PC.on, Block.inc, Block.dec]
  case gone => have := I.gone; grind [put, PC.will, PC.on, Block.inc, Block.dec]
  case null => have := I.null; grind [put, PC.will, PC.on, Block.inc, Block.dec]
  case val => have := I.val; grind [put, PC.will, PC.on, Block.inc, Block.dec]
  case dflt => have := I.dflt; grind [put, PC.will, PC.on, Block.inc, Block.dec]
  case exited => have := I.exited; grind [put, PC.will, PC.on, Block.inc, Block.dec]

theorem Inv.give (I : Inv v0 s σ) {t h t' : Nat} (ht : s.pc t = .idle) (ho : s.owner h = t) : Inv v0 { s with owner := put s.owner h t' } σ := by
  obtain ⟨a1, a2, a3, o1, o2, o3, o4, w1, w2⟩ := I.facts
  constructor
  case cnt =>
    intro c blk hc
    refine (I.cnt c blk hc).congr fun x => ?_
    cases x <;> grind [Holds, put]
  case alive =>
    intro x c hc
    have := I.alive x c
    cases x <;> grind [Holds, put]
  case zero => have := I.zero; grind [put, PC.will, PC.on, Block.inc, Block.dec]
  case freeing => have := I.freeing; grind [put, PC.will, PC.on, Block.inc, Block.dec]
  case free0 => have := I.free0; have := I.freeing; grind [put, PC.will, PC.on, Block.inc, Block.dec]
  case uniq => have := I.uniq; grind [put, PC.will, PC.on, Block.inc, Block.dec]
  case own => have := I.own; grind [put, PC.will, PC.on, Block.inc, Block.dec]
  case will => have := I.will; grind [put, PC.will, PC.on, Block.inc, Block.dec]
  case reset1 => have := I.reset1; grind [put, PC.will, PC.on, Block.inc, Block.dec]
  case reset2 => have := I.reset2; have := I.reset1; grind [put, PC.will, PC.on, Block.inc, Block.dec]
  case gone => have := I.gone; grind [put, PC.will, PC.on, Block.inc, Block.dec]
  case null => have := I.null; grind [put, PC.will, PC.on, Block.inc, Block.dec]
  case val => have := I.val; grind [put, PC.will, PC.on, Block.inc, Block.dec]
  case dflt => have := I.dflt; grind [put, PC.will, PC.on, Block.inc, Block.dec]
  case exited => have := I.exited; grind [put, PC.will, PC.on, Block.inc, Block.dec]

end Verif.Cow
