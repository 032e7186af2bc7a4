import Verif.Cow.Model
/-
The invariant: counts are the numbers of references, values are those of the plain variables.
-/
namespace Verif.Cow
open Spec (put)

variable {V : Type}

@[simp] theorem put_same {β : Type} (f : Nat → β) (a : Nat) (b : β) : put f a b a = b := by simp [put]
theorem put_ne {β : Type} (f : Nat → β) {a x : Nat} (b : β) (h : x ≠ a) : put f a b x = f x := by simp [put, h]

/-! ### counting -/

def Counted {α : Type} (n : Nat) (P : α → Prop) : Prop := ∃ L : List α, L.Nodup ∧ (∀ x, x ∈ L ↔ P x) ∧ L.length = n

section
variable {α : Type} {n : Nat} {P Q : α → Prop}

theorem Counted.congr (h : Counted n P) (hPQ : ∀ x, P x ↔ Q x) : Counted n Q := by
  obtain ⟨L, h1, h2, h3⟩ := h
  exact ⟨L, h1, fun x => (h2 x).trans (hPQ x), h3⟩

theorem Counted.add (h : Counted n P) {a : α} (ha : ¬ P a) (hQ : ∀ x, Q x ↔ x = a ∨ P x) : Counted (n + 1) Q := by
  obtain ⟨L, h1, h2, h3⟩ := h
  refine ⟨a :: L, ?_, ?_, by simp [h3]⟩
  · exact List.nodup_cons.2 ⟨fun hm => ha ((h2 a).1 hm), h1⟩
  · intro x; rw [List.mem_cons, h2, hQ]

theorem Counted.remove [DecidableEq α] (h : Counted n P) {a : α} (ha : P a) (hQ : ∀ x, Q x ↔ x ≠ a ∧ P x) : Counted (n - 1) Q := by
  obtain ⟨L, h1, h2, h3⟩ := h
  refine ⟨L.erase a, h1.erase a, ?_, ?_⟩
  · intro x; rw [h1.mem_erase_iff, h2, hQ]
  · rw [List.length_erase_of_mem ((h2 a).2 ha), h3]

theorem Counted.exchange [DecidableEq α] (h : Counted n P) {a b : α} (ha : P a) (hb : ¬ P b) (hQ : ∀ x, Q x ↔ x = b ∨ (x ≠ a ∧ P x)) : Counted n Q := by
  have h1 : Counted (n - 1) (fun x => x ≠ a ∧ P x) := h.remove ha (fun _ => Iff.rfl)
  have h2 := h1.add (a := b) (Q := Q) (fun h => hb h.2) hQ
  have : 0 < n := by
    obtain ⟨L, _, hm, hl⟩ := h
    have := (hm a).2 ha
    rw [← hl]; exact List.length_pos_of_mem this
  rwa [Nat.sub_add_cancel this] at h2

theorem Counted.pos (h : Counted n P) {a : α} (ha : P a) : 0 < n := by
  obtain ⟨L, _, hm, hl⟩ := h
  rw [← hl]; exact List.length_pos_of_mem ((hm a).2 ha)

theorem Counted.one (h : Counted 1 P) {a b : α} (ha : P a) (hb : P b) : a = b := by
  obtain ⟨L, _, hm, hl⟩ := h
  obtain ⟨x, rfl⟩ := List.length_eq_one_iff.1 hl
  have h1 := (hm a).2 ha
  have h2 := (hm b).2 hb
  simp at h1 h2
  rw [h1, h2]

theorem Counted.exists_of_pos (h : Counted n P) (hn : 0 < n) : ∃ a, P a := by
  obtain ⟨L, _, hm, hl⟩ := h
  cases L with
  | nil => simp at hl; omega
  | cons a L => exact ⟨a, (hm a).1 (by simp)⟩

theorem Counted.zero (h : ∀ a, ¬ P a) : Counted 0 P := ⟨[], by simp, fun x => by simpa using h x, rfl⟩

theorem Counted.single {a : α} (h : ∀ x, P x ↔ x = a) : Counted 1 P := ⟨[a], by simp, fun x => by rw [List.mem_singleton, h], rfl⟩

end

/-! ### references -/

inductive Holder where
  | handle (h : Nat)
  | thread (t : Nat)
  | dflt
  deriving DecidableEq

/-- who refers to block `b` -/
def Holds (s : St V) (x : Holder) (b : Nat) : Prop :=
  match x with
  | .handle h => s.handle h = some (some b)
  | .thread t => ∃ h v st, s.pc t = .reset h b v st
  | .dflt => s.dflt = some b ∧ s.exited = false

/-- the handle an operation works on -/
def PC.on : PC V → Option Nat
  | .idle => none
  | .clone h _ => some h
  | .fresh h _ => some h
  | .reset h _ _ _ => some h
  | .free _ k => k.map Prod.fst
  | .store h _ => some h

/-- the operation will store into its handle without looking at the count again -/
def PC.will : PC V → Option Nat
  | .free _ k => k.map Prod.fst
  | .store h _ => some h
  | _ => none

/-- the state `s` implements the plain variables `σ` -/
structure Inv (v0 : V) (s : St V) (σ : Spec.Vars V) : Prop where
  cnt : ∀ b blk, s.heap b = some blk → Counted blk.count (fun x => Holds s x b)
  alive : ∀ x b, Holds s x b → s.heap b ≠ none
  zero : ∀ b blk, s.heap b = some blk → blk.count = 0 → ∃ t k, s.pc t = .free b k
  freeing : ∀ t b k, s.pc t = .free b k → s.heap b ≠ none
  free0 : ∀ t b k blk, s.pc t = .free b k → s.heap b = some blk → blk.count = 0
  uniq : ∀ t t' b k k', s.pc t = .free b k → s.pc t' = .free b k' → t = t'
  own : ∀ t h, (s.pc t).on = some h → s.owner h = t ∧ ∃ p, s.handle h = some (some p)
  will : ∀ t h p blk, (s.pc t).will = some h → s.handle h = some (some p) → s.heap p = some blk → blk.count = 1
  reset1 : ∀ t h q v st bq, s.pc t = .reset h q v st → s.heap q = some bq → bq.count = 1
  reset2 : ∀ t h q v st bq p blk, s.pc t = .reset h q v st → s.heap q = some bq → s.handle h = some (some p) → s.heap p = some blk →
    bq.value = if st then blk.value else v
  gone : ∀ h, s.handle h = none → σ h = none
  null : ∀ h, s.handle h = some none → σ h = some none
  val : ∀ h p blk, s.handle h = some (some p) → s.heap p = some blk → σ h = some (some blk.value)
  dflt : ∀ p blk, s.dflt = some p → s.exited = false → s.heap p = some blk → blk.value = v0
  exited : s.dflt = none → s.exited = false

theorem Inv.init (v0 : V) : Inv v0 (St.init : St V) (fun _ => none) := by
  constructor <;> intros <;> simp_all [St.init, Holds, PC.on, PC.will]
  rename_i x b h
  cases x <;> simp_all

end Verif.Cow
