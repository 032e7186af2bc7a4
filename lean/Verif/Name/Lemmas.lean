import Verif.Name.Model
import Mathlib.Data.List.Basic
import Mathlib.Tactic.Common
/-
The string pool keeps every string where it is, forever.
-/
namespace Verif.Name
open Spec (Str holds first)

theorem holds_unique {mem : Nat → BitVec 8} {a : Str} : ∀ {b : Str} {p : Nat}, holds mem p a → holds mem p b → a = b := by
  induction a with
  | nil =>
    intro b p h1 h2
    cases b with
    | nil => rfl
    | cons c cs => exact absurd (h2.1.symm.trans h1) h2.2.1
  | cons c cs ih =>
    intro b p h1 h2
    cases b with
    | nil => exact absurd (h1.1.symm.trans h2) h1.2.1
    | cons d ds => rw [h1.1.symm.trans h2.1, ih h1.2.2 h2.2.2]

theorem holds_congr {mem mem' : Nat → BitVec 8} {a : Str} : ∀ {p : Nat}, (∀ x, p ≤ x → x ≤ p + a.length → mem' x = mem x) → holds mem p a → holds mem' p a := by
  induction a with
  | nil => intro p h h1; exact (h p (Nat.le_refl _) (by simp)).trans h1
  | cons c cs ih =>
    intro p h h1
    refine ⟨(h p (Nat.le_refl _) (by omega)).trans h1.1, h1.2.1, ih ?_ h1.2.2⟩
    intro x hx hx'
    exact h x (by omega) (by simp only [List.length_cons]; omega)

theorem sameAt_iff {mem : Nat → BitVec 8} {a : Str} : ∀ {p : Nat}, (∀ c ∈ a, c ≠ 0) → (sameAt mem p a = true ↔ holds mem p a) := by
  induction a with
  | nil => intro p _; simp [sameAt, holds]
  | cons c cs ih =>
    intro p h
    have := ih (p := p + 1) (fun c hc => h c (by simp [hc]))
    have hc : c ≠ 0 := h c (by simp)
    simp only [sameAt, holds, Bool.and_eq_true, beq_iff_eq, this]
    exact ⟨fun h => ⟨h.1, hc, h.2⟩, fun h => ⟨h.1, h.2.2⟩⟩

theorem copyN_out {a : Str} : ∀ {mem : Nat → BitVec 8} {p x : Nat}, x < p ∨ p + a.length ≤ x → copyN mem p a x = mem x := by
  induction a with
  | nil => intros; rfl
  | cons c cs ih =>
    intro mem p x h
    simp only [List.length_cons] at h
    rw [copyN, ih (by omega)]
    simp [write]; omega

theorem copyN_holds {a : Str} : ∀ {mem : Nat → BitVec 8} {p : Nat}, (∀ c ∈ a, c ≠ 0) → mem (p + a.length) = 0 → holds (copyN mem p a) p a := by
  induction a with
  | nil => intro mem p _ h; exact h
  | cons c cs ih =>
    intro mem p h h0
    refine ⟨?_, h c (by simp), ?_⟩
    · rw [copyN, copyN_out (by omega)]; simp [write]
    · rw [copyN]
      apply ih (fun c hc => h c (by simp [hc]))
      simp only [List.length_cons] at h0
      rw [show p + 1 + cs.length = p + (cs.length + 1) by omega]
      simp [write, h0]

/-- the address belongs to a chunk -/
def InCh (chunks : List (Nat × Nat)) (x : Nat) : Prop := ∃ c ∈ chunks, c.1 ≤ x ∧ x < c.1 + c.2

structure Pool (s : St) : Prop where
  zero : s.mem 0 = 0
  free : ∀ x, s.next ≤ x → x < s.end → InCh s.chunks x
  pos : ∀ x, InCh s.chunks x → 0 < x
  store : ∀ p ∈ s.store, ∃ str, str ≠ [] ∧ holds s.mem p str ∧ ∀ x, p ≤ x → x ≤ p + str.length → InCh s.chunks x ∧ (x < s.next ∨ s.end ≤ x)
  uniq : ∀ p ∈ s.store, ∀ q ∈ s.store, ∀ str, holds s.mem p str → holds s.mem q str → p = q

theorem Pool.init : Pool St.init := by
  constructor <;> intros <;> simp_all [St.init, InCh]

/-- a pointer that names have -/
def IsPtr (s : St) (p : Nat) : Prop := p = 0 ∨ p ∈ s.store

theorem Pool.ptr_holds {s : St} (I : Pool s) {p : Nat} (hp : IsPtr s p) : ∃ str, holds s.mem p str := by
  rcases hp with rfl | hp
  · exact ⟨[], I.zero⟩
  · obtain ⟨str, _, h, _⟩ := I.store p hp; exact ⟨str, h⟩

theorem Pool.ptr_eq {s : St} (I : Pool s) {p q : Nat} {a b : Str} (hp : IsPtr s p) (hq : IsPtr s q) (ha : holds s.mem p a) (hb : holds s.mem q b) :
    p = q ↔ a = b := by
  constructor
  · rintro rfl; exact holds_unique ha hb
  · rintro rfl
    rcases hp with rfl | hp <;> rcases hq with rfl | hq
    · rfl
    · obtain ⟨str, h1, h2, _⟩ := I.store q hq
      have := holds_unique ha (b := []) I.zero
      exact absurd (holds_unique h2 (this ▸ hb)) h1
    · obtain ⟨str, h1, h2, _⟩ := I.store p hp
      have := holds_unique hb (b := []) I.zero
      exact absurd (holds_unique h2 (this ▸ ha)) h1
    · exact I.uniq p hp q hq a ha hb

theorem Pool.ptr_region {s : St} (I : Pool s) {p : Nat} {a : Str} (hp : IsPtr s p) (ha : holds s.mem p a) :
    ∀ x, p ≤ x → x ≤ p + a.length → ¬ (s.next ≤ x ∧ x < s.end) := by
  rintro x h1 h2 ⟨h3, h4⟩
  rcases hp with rfl | hp
  · have := holds_unique ha (b := []) I.zero
    subst this
    have := I.pos x (I.free x h3 h4)
    simp at h2; omega
  · obtain ⟨str, _, h6, h7⟩ := I.store p hp
    have := holds_unique ha h6
    subst this
    have := (h7 x h1 h2).2
    omega

/-- what `grown` in `allocate` gives: the same pool with room -/
theorem Pool.grow {s : St} (I : Pool s) {base size : Nat} (hf : fresh s.chunks base size) :
    Pool { s with chunks := s.chunks ++ [(base, size)], next := base, «end» := base + size } := by
  have hnew : ∀ x, InCh s.chunks x → ¬ (base ≤ x ∧ x < base + size) := by
    rintro x ⟨c, hc, h1, h2⟩ ⟨h3, h4⟩
    have := hf.2 c hc
    omega
  have hmono : ∀ x, InCh s.chunks x → InCh (s.chunks ++ [(base, size)]) x := by
    rintro x ⟨c, hc, h⟩
    exact ⟨c, by simp [hc], h⟩
  constructor
  · exact I.zero
  · intro x h1 h2; exact ⟨(base, size), by simp, h1, h2⟩
  · rintro x ⟨c, hc, h1, h2⟩
    simp only [List.mem_append, List.mem_singleton] at hc
    rcases hc with hc | rfl
    · exact I.pos x ⟨c, hc, h1, h2⟩
    · exact Nat.lt_of_lt_of_le hf.1 h1
  · intro p hp
    obtain ⟨str, h1, h2, h3⟩ := I.store p hp
    refine ⟨str, h1, h2, fun x hx hx' => ⟨hmono x (h3 x hx hx').1, ?_⟩⟩
    have := hnew x (h3 x hx hx').1
    simp only
    omega
  · exact I.uniq

/-- a string is stored in the free part -/
theorem Pool.place {s : St} (I : Pool s) {str : Str} (hne : str ≠ []) (hz : ∀ c ∈ str, c ≠ 0) (hroom : str.length + 1 ≤ s.end - s.next)
    (hnew : ∀ p ∈ s.store, ¬ holds s.mem p str) {s' : St}
    (hs : s' = { s with mem := copyN (write s.mem (s.next + str.length) 0) s.next str, next := s.next + str.length + 1, store := s.next :: s.store }) :
    Pool s' ∧ holds s'.mem s.next str ∧ ∀ p a, IsPtr s p → holds s.mem p a → holds s'.mem p a := by
  have hframe : ∀ x, ¬ (s.next ≤ x ∧ x < s.end) → s'.mem x = s.mem x := by
    intro x hx
    subst hs
    show copyN _ _ _ x = _
    rw [copyN_out (by omega)]
    simp only [write]
    rw [if_neg (by omega)]
  have hkeep : ∀ p a, IsPtr s p → holds s.mem p a → holds s'.mem p a := by
    intro p a hp ha
    exact holds_congr (fun x h1 h2 => hframe x (I.ptr_region hp ha x h1 h2)) ha
  have hback : ∀ p, p ∈ s.store → ∀ a, holds s'.mem p a → holds s.mem p a := by
    intro p hp a ha
    obtain ⟨b, hb⟩ := I.ptr_holds (Or.inr hp)
    have := holds_unique ha (hkeep p b (Or.inr hp) hb)
    rw [this]; exact hb
  have hit : holds s'.mem s.next str := by
    subst hs
    apply copyN_holds hz
    simp [write]
  have hst : s'.store = s.next :: s.store := by rw [hs]
  have hch : s'.chunks = s.chunks := by rw [hs]
  have hnx : s'.next = s.next + str.length + 1 := by rw [hs]
  have hen : s'.end = s.end := by rw [hs]
  refine ⟨⟨?_, ?_, ?_, ?_, ?_⟩, hit, hkeep⟩
  · rw [hframe 0 ?_]; exact I.zero
    rintro ⟨h1, h2⟩
    exact absurd (I.pos 0 (I.free 0 h1 h2)) (by omega)
  · intro x h1 h2; rw [hch]; exact I.free x (by omega) (by omega)
  · rw [hch]; exact I.pos
  · intro p hp
    rw [hst, List.mem_cons] at hp
    rw [hch, hnx, hen]
    rcases hp with rfl | hp
    · refine ⟨str, hne, hit, fun x h1 h2 => ⟨I.free x h1 (by omega), by omega⟩⟩
    · obtain ⟨a, h1, h2, h3⟩ := I.store p hp
      refine ⟨a, h1, hkeep p a (Or.inr hp) h2, fun x hx hx' => ⟨(h3 x hx hx').1, ?_⟩⟩
      have := (h3 x hx hx').2
      omega
  · intro p hp q hq a ha hb
    rw [hst, List.mem_cons] at hp hq
    rcases hp with rfl | hp <;> rcases hq with rfl | hq
    · rfl
    · have := holds_unique hit ha
      subst this
      exact absurd (hback q hq _ hb) (hnew q hq)
    · have := holds_unique hit hb
      subst this
      exact absurd (hback p hp _ ha) (hnew p hp)
    · exact I.uniq p hp q hq a (hback p hp a ha) (hback q hq a hb)

/-- adding a string to the unique pool -/
theorem Pool.add {s s' : St} {base p : Nat} {str : Str} (I : Pool s) (hz : ∀ c ∈ str, c ≠ 0) (h : Name.add s base str = some (s', p)) :
    Pool s' ∧ IsPtr s' p ∧ holds s'.mem p str ∧ s'.map = s.map ∧ ∀ q a, IsPtr s q → holds s.mem q a → IsPtr s' q ∧ holds s'.mem q a := by
  unfold Name.add at h
  split at h
  · next he =>
    cases h
    subst he
    exact ⟨I, Or.inl rfl, I.zero, rfl, fun q a h1 h2 => ⟨h1, h2⟩⟩
  · next hne =>
    split at h
    · next q hq =>
      cases h
      have h1 := List.find?_some hq
      have h2 := List.mem_of_find?_eq_some hq
      exact ⟨I, Or.inr h2, (sameAt_iff hz).1 h1, rfl, fun q a h1 h2 => ⟨h1, h2⟩⟩
    · next hnone =>
      rw [List.find?_eq_none] at hnone
      have hnew : ∀ q ∈ s.store, ¬ holds s.mem q str := fun q hq hh => hnone q hq ((sameAt_iff hz).2 hh)
      unfold poolAdd allocate at h
      simp only at h
      by_cases hroom : str.length + 1 > s.end - s.next
      · simp only [hroom, if_true] at h
        by_cases hf : fresh s.chunks base (max poolSize (str.length + 1))
        · simp only [hf, if_true, Option.some.injEq, Prod.mk.injEq] at h
          obtain ⟨h1, h2⟩ := h
          have := (I.grow hf).place (s' := s') hne hz (by simp only; omega) hnew h1.symm
          refine ⟨this.1, Or.inr (by rw [← h1, ← h2]; simp), h2 ▸ this.2.1, by rw [← h1], ?_⟩
          intro q a hq ha
          refine ⟨hq.imp_right (fun h => by rw [← h1]; simp [h]), this.2.2 q a hq ha⟩
        · simp [hf] at h
      · simp only [hroom, if_false, Option.some.injEq, Prod.mk.injEq] at h
        obtain ⟨h1, h2⟩ := h
        have := I.place (s' := s') hne hz (by omega) hnew h1.symm
        refine ⟨this.1, Or.inr (by rw [← h1, ← h2]; simp), h2 ▸ this.2.1, by rw [← h1], ?_⟩
        intro q a hq ha
        refine ⟨hq.imp_right (fun h => by rw [← h1]; simp [h]), this.2.2 q a hq ha⟩

/-- the state after the requests `R` -/
structure Inv (R : List (Nat × Str)) (s : St) : Prop where
  pool : Pool s
  no : ∀ h, first R h = none → s.map.lookup h = none
  so : ∀ h str, first R h = some str → ∃ p, s.map.lookup h = some p ∧ IsPtr s p ∧ holds s.mem p str

theorem Inv.init : Inv [] St.init := ⟨Pool.init, fun _ _ => rfl, fun h str hs => by simp [first] at hs⟩

theorem first_append (R : List (Nat × Str)) (r : Nat × Str) (h : Nat) :
    first (R ++ [r]) h = (first R h).or (if r.1 = h then some r.2 else none) := by
  unfold first
  rw [List.find?_append]
  cases R.find? (fun r => decide (r.1 = h)) with
  | some x => simp
  | none => by_cases e : r.1 = h <;> simp [e, List.find?]

theorem Inv.step {R : List (Nat × Str)} {s s' : St} {base p hash : Nat} {str : Str} (I : Inv R s) (hz : ∀ c ∈ str, c ≠ 0)
    (h : mapString s base str hash = some (s', p)) :
    Inv (R ++ [(hash, str)]) s' ∧ s'.map.lookup hash = some p ∧ (∀ h q, s.map.lookup h = some q → s'.map.lookup h = some q) ∧
      ∀ q a, IsPtr s q → holds s.mem q a → IsPtr s' q ∧ holds s'.mem q a := by
  unfold mapString at h
  split at h
  · next q hq =>
    cases h
    have hsome : first R hash ≠ none := by
      intro hn; rw [I.no hash hn] at hq; cases hq
    obtain ⟨str0, hs0⟩ := Option.ne_none_iff_exists'.1 hsome
    have e : ∀ h, first (R ++ [(hash, str)]) h = first R h := by
      intro h
      rw [first_append]
      by_cases e : hash = h
      · subst e; rw [hs0]; rfl
      · simp [e]
    exact ⟨⟨I.pool, fun h hn => I.no h (by rwa [e] at hn), fun h a ha => I.so h a (by rwa [e] at ha)⟩, hq, fun _ _ h => h, fun q a h1 h2 => ⟨h1, h2⟩⟩
  · next hnone =>
    split at h
    · cases h
    · next s1 q hadd =>
      simp only [Option.some.injEq, Prod.mk.injEq] at h
      obtain ⟨h1, h2⟩ := h
      subst h1; subst h2
      obtain ⟨P, hp, hh, hm, hk⟩ := I.pool.add hz hadd
      have hR : first R hash = none := by
        by_contra hn
        obtain ⟨str0, hs0⟩ := Option.ne_none_iff_exists'.1 hn
        obtain ⟨p, h1, _⟩ := I.so hash str0 hs0
        rw [hnone] at h1; cases h1
      have hl : ∀ h, List.lookup h ((hash, q) :: s1.map) = if h = hash then some q else s.map.lookup h := by
        intro h
        rw [List.lookup_cons, hm]
        by_cases e : h = hash
        · simp [e]
        · rw [if_neg e, beq_false_of_ne e]
      refine ⟨⟨⟨P.zero, P.free, P.pos, P.store, P.uniq⟩, ?_, ?_⟩, ?_, ?_, ?_⟩
      · intro h hn
        rw [first_append] at hn
        show List.lookup h ((hash, q) :: s1.map) = _
        rw [hl]
        by_cases e : h = hash
        · subst e; simp [hR] at hn
        · rw [if_neg e]
          apply I.no
          simpa [Ne.symm e, eq_comm] using hn
      · intro h a ha
        rw [first_append] at ha
        show ∃ p, List.lookup h ((hash, q) :: s1.map) = _ ∧ _
        rw [hl]
        by_cases e : h = hash
        · subst e
          simp only [hR, Option.none_or, if_true, Option.some.injEq] at ha
          subst ha
          exact ⟨q, by simp, hp, hh⟩
        · rw [if_neg e]
          obtain ⟨p, h1, h2, h3⟩ := I.so h a (by simpa [Ne.symm e] using ha)
          exact ⟨p, h1, hk p a h2 h3⟩
      · show List.lookup hash ((hash, q) :: s1.map) = _
        rw [hl]; simp
      · intro h q' hq'
        show List.lookup h ((hash, q) :: s1.map) = _
        rw [hl]
        rw [if_neg]
        · exact hq'
        · rintro rfl; rw [hnone] at hq'; cases hq'
      · exact hk

end Verif.Name
