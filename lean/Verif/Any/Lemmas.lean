import Verif.Any.Spec
import Mathlib.Tactic.ByContra
/-!
The invariant of `any_regular_t` objects: objects in variables and in temporaries.
-/
namespace Verif.Any
open Spec

variable {Ty V : Type} {c : Conf Ty V}

/-- The memory that an object owns. -/
def Obj.ptr : Obj Ty V → Option Nat
  | .loc _ => none
  | .rem _ p => p

structure Holds (c : Conf Ty V) (h : Heap V) (o : Obj Ty V) (w : Val Ty V) : Prop where
  type : o.type c = w.type c
  loc : ∀ v, o = .loc v → c.loc (c.ty v) = true
  rem : ∀ t p, o = .rem t p → c.loc t = false
  ptr : ∀ t p, o = .rem t (some p) → ∃ v, h p = some v ∧ c.ty v = t
  val : ∀ v, w = .val v → o.get h = some v

/-- Objects, in variables (`inl`) and temporaries (`inr`), with what they stand for. -/
abbrev Objs (Ty V : Type) := Nat ⊕ Nat → Option (Obj Ty V × Val Ty V)

def upd' {α} (f : Nat ⊕ Nat → Option α) (i : Nat ⊕ Nat) (x : Option α) : Nat ⊕ Nat → Option α := fun a => if a = i then x else f a

structure Good (c : Conf Ty V) (h : Heap V) (g : Objs Ty V) : Prop where
  holds : ∀ i o w, g i = some (o, w) → Holds c h o w
  uniq : ∀ i j o w o' w' p, g i = some (o, w) → g j = some (o', w') → o.ptr = some p → o'.ptr = some p → i = j
  leak : ∀ p, h p ≠ none → ∃ i o w, g i = some (o, w) ∧ o.ptr = some p

theorem holds_other {h : Heap V} {o : Obj Ty V} {w : Val Ty V} (H : Holds c h o w) {p : Nat} (hp : o.ptr ≠ some p) (x : Option V) :
    Holds c (upd h p x) o w := by
  refine ⟨H.type, H.loc, H.rem, ?_, ?_⟩
  · rintro t q rfl
    obtain ⟨v, h1, h2⟩ := H.ptr t q rfl
    refine ⟨v, ?_, h2⟩
    unfold upd; rw [if_neg]
    · exact h1
    · rintro rfl; exact hp rfl
  · intro v hv
    have := H.val v hv
    cases o with
    | loc _ => exact this
    | rem t q =>
      cases q with
      | none => exact this
      | some q =>
        simp only [Obj.get] at this ⊢
        unfold upd; rw [if_neg]
        · exact this
        · rintro rfl; exact hp rfl

theorem good_construct {h : Heap V} {g : Objs Ty V} (G : Good c h g) (i : Nat ⊕ Nat) (hi : g i = none) (v : V) (e : Env)
    (he : ∀ p, e.alloc = some p → h p = none) (hm : e.moveThrows = false) :
    (∃ o h', construct c h v e = .ok o h' ∧ Good c h' (upd' g i (some (o, .val v)))) ∨
    (c.loc (c.ty v) = false ∧ e.alloc = none ∧ construct c h v e = .throw h) := by
  unfold construct
  by_cases hl : c.loc (c.ty v) = true
  · left
    rw [if_pos hl]
    refine ⟨_, _, rfl, ?_, ?_, ?_⟩
    · intro j o w hj
      unfold upd' at hj
      split at hj
      · cases hj
        refine ⟨rfl, ?_, ?_, ?_, ?_⟩
        · rintro u hu; cases hu; exact hl
        · rintro t p ht; cases ht
        · rintro t p ht; cases ht
        · rintro u hu; cases hu; rfl
      · exact G.holds j o w hj
    · intro j k o w o' w' p hj hk ho ho'
      unfold upd' at hj hk
      split at hj
      · cases hj; cases ho
      · split at hk
        · cases hk; cases ho'
        · exact G.uniq j k o w o' w' p hj hk ho ho'
    · intro p hp
      obtain ⟨j, o, w, hj, ho⟩ := G.leak p hp
      refine ⟨j, o, w, ?_, ho⟩
      unfold upd'
      rw [if_neg]
      · exact hj
      · rintro rfl; rw [hi] at hj; cases hj
  · have hl' : c.loc (c.ty v) = false := by simpa using hl
    rw [if_neg hl]
    unfold newMove
    cases ha : e.alloc with
    | none => exact .inr ⟨hl', rfl, rfl⟩
    | some p =>
      left
      have hp := he p ha
      simp only [hm]
      have hno : ∀ j o w, g j = some (o, w) → o.ptr ≠ some p := by
        intro j o w hj ho
        cases o with
        | loc u => cases ho
        | rem t q =>
          simp only [Obj.ptr] at ho; subst ho
          obtain ⟨v, h1, _⟩ := (G.holds j _ _ hj).ptr t p rfl
          rw [hp] at h1; cases h1
      refine ⟨_, _, rfl, ?_, ?_, ?_⟩
      · intro j o w hj
        unfold upd' at hj
        split at hj
        · cases hj
          refine ⟨rfl, ?_, ?_, ?_, ?_⟩
          · rintro u hu; cases hu
          · rintro t p ht; cases ht; exact hl'
          · rintro t q ht; cases ht
            exact ⟨v, by simp [upd], rfl⟩
          · rintro u hu; cases hu; simp [Obj.get, upd]
        · exact holds_other (G.holds j o w hj) (hno j o w hj) _
      · intro j k o w o' w' q hj hk ho ho'
        unfold upd' at hj hk
        split at hj
        · rename_i hji
          split at hk
          · rename_i hki; rw [hji, hki]
          · cases hj; cases ho
            exact absurd ho' (hno k o' w' hk)
        · split at hk
          · cases hk; cases ho'
            exact absurd ho (hno j o w hj)
          · exact G.uniq j k o w o' w' q hj hk ho ho'
      · intro q hq
        by_cases hqp : q = p
        · subst hqp
          exact ⟨i, .rem (c.ty v) (some q), .val v, by simp [upd'], rfl⟩
        · unfold upd at hq; rw [if_neg hqp] at hq
          obtain ⟨j, o, w, hj, ho⟩ := G.leak q hq
          refine ⟨j, o, w, ?_, ho⟩
          unfold upd'
          rw [if_neg]
          · exact hj
          · rintro rfl; rw [hi] at hj; cases hj

theorem good_move {h : Heap V} {g : Objs Ty V} (G : Good c h g) {i j : Nat ⊕ Nat} (hij : i ≠ j) (hi : g i = none) {o w}
    (hj : g j = some (o, w)) :
    Good c h (upd' (upd' g j (some ((moveClone c o).2, .some (w.type c)))) i (some ((moveClone c o).1, w))) := by
  have H := G.holds j o w hj
  have e1 : (moveClone c o).1 = o := by cases o <;> rfl
  have e2 : ((moveClone c o).2 : Obj Ty V).ptr = none := by cases o <;> rfl
  rw [e1]
  refine ⟨?_, ?_, ?_⟩
  · intro k o' w' hk
    unfold upd' at hk
    split at hk
    · cases hk; exact H
    · split at hk
      · cases hk
        cases o with
        | loc v =>
          refine ⟨?_, ?_, ?_, ?_, ?_⟩
          · exact (c.gone_ty v).trans H.type
          · rintro u hu; cases hu; rw [c.gone_ty]; exact H.loc v rfl
          · rintro t p ht; cases ht
          · rintro t p ht; cases ht
          · rintro u hu; cases hu
        | rem t p =>
          refine ⟨H.type, ?_, ?_, ?_, ?_⟩
          · rintro u hu; cases hu
          · rintro t p ht; cases ht; exact H.rem _ _ rfl
          · rintro t p ht; cases ht
          · rintro u hu; cases hu
      · exact G.holds k o' w' hk
  · intro k l o1 w1 o2 w2 p hk hl h1 h2
    unfold upd' at hk hl
    split at hk
    · rename_i hki
      cases hk
      split at hl
      · rename_i hli; rw [hki, hli]
      · split at hl
        · cases hl; rw [e2] at h2; cases h2
        · rename_i hlj
          exact absurd (G.uniq j l _ _ _ _ p hj hl h1 h2).symm hlj
    · split at hk
      · cases hk; rw [e2] at h1; cases h1
      · rename_i hkj
        split at hl
        · cases hl
          exact absurd (G.uniq j k _ _ _ _ p hj hk h2 h1).symm hkj
        · split at hl
          · cases hl; rw [e2] at h2; cases h2
          · exact G.uniq k l _ _ _ _ p hk hl h1 h2
  · intro p hp
    obtain ⟨k, o', w', hk, ho⟩ := G.leak p hp
    by_cases hkj : k = j
    · subst hkj
      rw [hj] at hk; cases hk
      exact ⟨i, o, w, by simp [upd'], ho⟩
    · refine ⟨k, o', w', ?_, ho⟩
      unfold upd'
      rw [if_neg, if_neg hkj]
      · exact hk
      · rintro rfl; rw [hi] at hk; cases hk

theorem good_destruct {h : Heap V} {g : Objs Ty V} (G : Good c h g) {i : Nat ⊕ Nat} {o w} (hi : g i = some (o, w)) :
    ∃ h', destruct h o = some h' ∧ Good c h' (upd' g i none) ∧ ∀ p, h p = none ∨ o.ptr = some p → h' p = none := by
  have H := G.holds i o w hi
  -- nothing to be freed
  have triv : o.ptr = none → Good c h (upd' g i none) := by
    intro ho
    refine ⟨?_, ?_, ?_⟩
    · intro j o' w' hj
      unfold upd' at hj
      split at hj
      · cases hj
      · exact G.holds j o' w' hj
    · intro j k o1 w1 o2 w2 p hj hk h1 h2
      unfold upd' at hj hk
      split at hj
      · cases hj
      · split at hk
        · cases hk
        · exact G.uniq j k _ _ _ _ p hj hk h1 h2
    · intro p hp
      obtain ⟨j, o', w', hj, ho'⟩ := G.leak p hp
      refine ⟨j, o', w', ?_, ho'⟩
      unfold upd'
      rw [if_neg]
      · exact hj
      · rintro rfl; rw [hi] at hj; cases hj; rw [ho] at ho'; cases ho'
  cases o with
  | loc v => exact ⟨h, rfl, triv rfl, fun p hp => hp.elim id fun hh => by cases hh⟩
  | rem t p =>
    cases p with
    | none => exact ⟨h, rfl, triv rfl, fun p hp => hp.elim id fun hh => by cases hh⟩
    | some p =>
      obtain ⟨v, hv, _⟩ := H.ptr t p rfl
      refine ⟨upd h p none, by simp only [destruct, hv], ⟨?_, ?_, ?_⟩, ?_⟩
      · intro j o' w' hj
        unfold upd' at hj
        split at hj
        · cases hj
        · rename_i hji
          refine holds_other (G.holds j o' w' hj) (fun hp => hji ?_) _
          exact G.uniq j i _ _ _ _ p hj hi hp rfl
      · intro j k o1 w1 o2 w2 q hj hk h1 h2
        unfold upd' at hj hk
        split at hj
        · cases hj
        · split at hk
          · cases hk
          · exact G.uniq j k _ _ _ _ q hj hk h1 h2
      · intro q hq
        unfold upd at hq
        split at hq
        · exact absurd rfl hq
        · rename_i hqp
          obtain ⟨j, o', w', hj, ho'⟩ := G.leak q hq
          refine ⟨j, o', w', ?_, ho'⟩
          unfold upd'
          rw [if_neg]
          · exact hj
          · rintro rfl; rw [hi] at hj; cases hj; cases ho'; exact hqp rfl
      · intro q hq
        unfold upd
        split
        · rfl
        · rename_i hqp
          rcases hq with hq | hq
          · exact hq
          · cases hq; exact absurd rfl hqp

/-- Two objects of the same type change places. -/
theorem good_swap {h : Heap V} {g : Objs Ty V} (G : Good c h g) (i j : Nat ⊕ Nat) {o w o' w'} (hi : g i = some (o, w))
    (hj : g j = some (o', w')) : Good c h (upd' (upd' g i (some (o', w'))) j (some (o, w))) := by
  let σ : Nat ⊕ Nat → Nat ⊕ Nat := fun k => if k = j then i else if k = i then j else k
  have key : (upd' (upd' g i (some (o', w'))) j (some (o, w))) = fun k => g (σ k) := by
    funext k
    simp only [upd', σ]
    by_cases hkj : k = j
    · rw [if_pos hkj, if_pos hkj, hi]
    · rw [if_neg hkj, if_neg hkj]
      by_cases hki : k = i
      · rw [if_pos hki, if_pos hki, hj]
      · rw [if_neg hki, if_neg hki]
  have invol : ∀ k, σ (σ k) = k := by
    intro k
    simp only [σ]
    by_cases hkj : k = j
    · subst hkj
      simp only [if_true]
      by_cases hij : i = k
      · simp [hij]
      · simp [hij]
    · rw [if_neg hkj]
      by_cases hki : k = i
      · subst hki; simp
      · simp [hki, hkj]
  rw [key]
  refine ⟨fun k o w hk => G.holds _ o w hk, ?_, ?_⟩
  · intro k l o1 w1 o2 w2 p hk hl h1 h2
    have := G.uniq _ _ _ _ _ _ p hk hl h1 h2
    rw [← invol k, ← invol l, this]
  · intro p hp
    obtain ⟨k, o, w, hk, ho⟩ := G.leak p hp
    exact ⟨σ k, o, w, by simp only [invol]; exact hk, ho⟩

end Verif.Any
