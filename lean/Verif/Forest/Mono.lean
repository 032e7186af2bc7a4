import Verif.Forest.Model
/- More rounds do not change the result of a loop that has ended. -/
namespace Verif.Forest
open Verif.Ring

variable {α : Type}

theorem eraseLoop_mono {junk : Pos → Nat} {t : Nat} {last : Pos} : ∀ (f g : Nat) (q : St α) (pos : Pos) (d : Nat) (q' : St α), f ≤ g →
    St.eraseLoop junk t last f q pos d = some q' → St.eraseLoop junk t last g q pos d = some q' := by
  intro f
  induction f with
  | zero =>
    intro g q pos d q' _ he
    simp only [St.eraseLoop] at he
    split at he
    · rename_i hpl
      cases g with
      | zero => simpa [St.eraseLoop, hpl] using he
      | succ g => simpa [St.eraseLoop, hpl] using he
    · cases he
  | succ f ih =>
    intro g q pos d q' hfg he
    obtain ⟨g, rfl⟩ : ∃ g', g = g' + 1 := ⟨g - 1, by omega⟩
    simp only [St.eraseLoop] at he ⊢
    split at he
    · rename_i hpl; rw [if_pos hpl]; exact he
    · rename_i hpl; rw [if_neg hpl]
      split at he
      · rename_i hp; rw [if_pos hp]; exact ih g _ _ _ _ (by omega) he
      · rename_i hp; rw [if_neg hp]
        split at he
        · rename_i hd; rw [if_pos hd]
          split at he
          · cases he
          · exact ih g _ _ _ _ (by omega) he
        · rename_i hd; rw [if_neg hd]; exact ih g _ _ _ _ (by omega) he

theorem insertCopy_mono {t : Nat} {last : Pos} : ∀ (f g : Nat) (s : St α) (pos first : Pos) (l : List Nat) (x : St α × Pos), f ≤ g →
    St.insertCopy t last f s pos first l = some x → St.insertCopy t last g s pos first l = some x := by
  intro f
  induction f with
  | zero =>
    intro g s pos first l x _ he
    simp only [St.insertCopy] at he
    split at he
    · rename_i hpl
      cases g with
      | zero => simpa [St.insertCopy, hpl] using he
      | succ g => simpa [St.insertCopy, hpl] using he
    · cases he
  | succ f ih =>
    intro g s pos first l x hfg he
    obtain ⟨g, rfl⟩ : ∃ g', g = g' + 1 := ⟨g - 1, by omega⟩
    unfold St.insertCopy at he ⊢
    split at he
    · rename_i hpl; rw [if_pos hpl]; exact he
    · rename_i hpl; rw [if_neg hpl]
      split at he
      · rename_i hp; rw [if_pos hp]
        split at he
        · exact ih g _ _ _ _ _ (by omega) he
        · cases he
      · rename_i hp; rw [if_neg hp]; exact ih g _ _ _ _ _ (by omega) he

theorem findEdge_mono {h : Heap α} {e : Bool} : ∀ (f g : Nat) (p q : Pos), f ≤ g → h.findEdge e f p = some q → h.findEdge e g p = some q := by
  intro f
  induction f with
  | zero =>
    intro g p q _ he
    simp only [Heap.findEdge] at he
    split at he
    · rename_i hp
      cases g <;> simpa [Heap.findEdge, hp] using he
    · cases he
  | succ f ih =>
    intro g p q hfg he
    obtain ⟨g, rfl⟩ : ∃ g', g = g' + 1 := ⟨g - 1, by omega⟩
    simp only [Heap.findEdge] at he ⊢
    split at he
    · rename_i hp; rw [if_pos hp]; exact he
    · rename_i hp; rw [if_neg hp]; exact ih g _ _ (by omega) he

theorem edgeWalk_mono {h : Heap α} {e : Bool} {l : Pos} {f g : Nat} (hfg : f ≤ g) : ∀ (m m' : Nat) (p : Pos) (x : List Pos), m ≤ m' →
    h.edgeWalk e f l m p = some x → h.edgeWalk e g l m' p = some x := by
  intro m
  induction m with
  | zero =>
    intro m' p x _ he
    simp only [Heap.edgeWalk] at he
    split at he
    · rename_i hp
      cases m' <;> simpa [Heap.edgeWalk, hp] using he
    · cases he
  | succ m ih =>
    intro m' p x hm he
    obtain ⟨m', rfl⟩ : ∃ g', m' = g' + 1 := ⟨m' - 1, by omega⟩
    simp only [Heap.edgeWalk] at he ⊢
    split at he
    · rename_i hp; rw [if_pos hp]; exact he
    · rename_i hp; rw [if_neg hp]
      split at he
      · cases he
      · rename_i e1
        have := findEdge_mono f g _ _ hfg e1
        unfold Heap.edgeInc
        rw [this]
        simp only [Option.map_eq_some_iff] at he ⊢
        obtain ⟨a, ha, hx⟩ := he
        exact ⟨a, ih m' _ _ (by omega) ha, hx⟩

theorem getSize_mono {f g : Nat} (hfg : f ≤ g) {s : St α} {t : Nat} {x : St α × Nat} (he : s.getSize f t = some x) : s.getSize g t = some x := by
  unfold St.getSize at he ⊢
  split at he
  · rename_i hp; rw [if_pos hp]; exact he
  · rename_i hp; rw [if_neg hp]
    split at he
    · cases he
    · rename_i ps e1
      have : s.heap.edgeRange true g t = some ps := by
        unfold Heap.edgeRange at e1 ⊢
        split at e1
        · rename_i a b ha hb
          rw [findEdge_mono f g _ _ hfg ha, findEdge_mono f g _ _ hfg hb]
          exact edgeWalk_mono hfg _ _ _ _ hfg e1
        · cases e1
      rw [this]; exact he

theorem eraseRange_mono {junk : Pos → Nat} {f g : Nat} (hfg : f ≤ g) {s : St α} {t : Nat} {a b : Pos} {x : St α × Pos}
    (he : s.eraseRange junk f t a b = some x) : s.eraseRange junk g t a b = some x := by
  simp only [St.eraseRange, Option.map_eq_some_iff] at he ⊢
  obtain ⟨q, hq, e⟩ := he
  exact ⟨q, eraseLoop_mono f g _ _ _ _ hfg hq, e⟩

theorem clear_mono {junk : Pos → Nat} {f g : Nat} (hfg : f ≤ g) {s : St α} {t : Nat} {x : St α}
    (he : s.clear junk f t = some x) : s.clear junk g t = some x := by
  simp only [St.clear, Option.map_eq_some_iff] at he ⊢
  obtain ⟨q, hq, e⟩ := he
  exact ⟨q, eraseRange_mono hfg hq, e⟩

theorem destroy_mono {junk : Pos → Nat} {f g : Nat} (hfg : f ≤ g) {s : St α} {t : Nat} {x : St α}
    (he : s.destroy junk f t = some x) : s.destroy junk g t = some x := by
  simp only [St.destroy, Option.map_eq_some_iff] at he ⊢
  obtain ⟨q, hq, e⟩ := he
  exact ⟨q, clear_mono hfg hq, e⟩

theorem moveAssign_mono {junk : Pos → Nat} {f g : Nat} (hfg : f ≤ g) {s : St α} {t u : Nat} {x : St α}
    (he : s.moveAssign junk f t u = some x) : s.moveAssign junk g t u = some x := by
  simp only [St.moveAssign, Option.map_eq_some_iff] at he ⊢
  obtain ⟨q, hq, e⟩ := he
  exact ⟨q, clear_mono hfg hq, e⟩

theorem copy_mono {f g : Nat} (hfg : f ≤ g) {s : St α} {t u : Nat} {l : List Nat} {x : St α}
    (he : s.copy f t u l = some x) : s.copy g t u l = some x := by
  simp only [St.copy, Option.map_eq_some_iff] at he ⊢
  obtain ⟨q, hq, e⟩ := he
  exact ⟨q, insertCopy_mono f g _ _ _ _ _ hfg hq, e⟩

theorem copyAssign_mono {junk : Pos → Nat} {f g : Nat} (hfg : f ≤ g) {s : St α} {t u v : Nat} {l : List Nat} {x : St α}
    (he : s.copyAssign junk f t u v l = some x) : s.copyAssign junk g t u v l = some x := by
  unfold St.copyAssign at he ⊢
  split at he
  · cases he
  · rename_i e1
    rw [copy_mono hfg e1]
    simp only
    split at he
    · cases he
    · rename_i e2
      rw [moveAssign_mono hfg e2]
      exact destroy_mono hfg he

theorem swap_mono {junk : Pos → Nat} {f g : Nat} (hfg : f ≤ g) {s : St α} {t u v : Nat} {x : St α}
    (he : s.swap junk f t u v = some x) : s.swap junk g t u v = some x := by
  unfold St.swap at he ⊢
  simp only at he ⊢
  split at he
  · cases he
  · rename_i e1
    rw [moveAssign_mono hfg e1]
    simp only
    split at he
    · cases he
    · rename_i e2
      rw [moveAssign_mono hfg e2]
      exact destroy_mono hfg he

theorem reverseAppend_mono {last : Pos} : ∀ (f g : Nat) (h : Heap α) (a b : Pos) (x : Heap α × Pos), f ≤ g →
    Heap.reverseAppend last f h a b = some x → Heap.reverseAppend last g h a b = some x := by
  intro f
  induction f with
  | zero =>
    intro g h a b x _ he
    simp only [Heap.reverseAppend] at he
    split at he
    · rename_i hp
      cases g <;> simpa [Heap.reverseAppend, hp] using he
    · cases he
  | succ f ih =>
    intro g h a b x hfg he
    obtain ⟨g, rfl⟩ : ∃ g', g = g' + 1 := ⟨g - 1, by omega⟩
    simp only [Heap.reverseAppend] at he ⊢
    split at he
    · rename_i hp; rw [if_pos hp]; exact he
    · rename_i hp; rw [if_neg hp]; exact ih g _ _ _ _ (by omega) he

theorem reverse_mono {f g : Nat} (hfg : f ≤ g) {s : St α} {a b : Pos} {x : St α}
    (he : s.reverse f a b = some x) : s.reverse g a b = some x := by
  unfold St.reverse at he ⊢
  simp only at he ⊢
  split at he
  · cases he
  · rename_i e1
    rw [reverseAppend_mono f g _ _ _ _ hfg e1]
    exact he

theorem exec_mono {junk : Pos → Nat} {f g : Nat} (hfg : f ≤ g) {s : St α} {op : Op α} {x : St α × Out}
    (he : s.exec junk f op = some x) : s.exec junk g op = some x := by
  cases op <;> simp only [St.exec, Option.map_eq_some_iff] at he ⊢ <;> (try exact he)
  · obtain ⟨q, hq, e⟩ := he; exact ⟨q, eraseRange_mono hfg hq, e⟩
  · obtain ⟨q, hq, e⟩ := he; exact ⟨q, clear_mono hfg hq, e⟩
  · obtain ⟨q, hq, e⟩ := he; exact ⟨q, insertCopy_mono f g _ _ _ _ _ hfg hq, e⟩
  · obtain ⟨q, hq, e⟩ := he; exact ⟨q, copy_mono hfg hq, e⟩
  · obtain ⟨q, hq, e⟩ := he; exact ⟨q, moveAssign_mono hfg hq, e⟩
  · obtain ⟨q, hq, e⟩ := he; exact ⟨q, copyAssign_mono hfg hq, e⟩
  · obtain ⟨q, hq, e⟩ := he; exact ⟨q, swap_mono hfg hq, e⟩
  · obtain ⟨q, hq, e⟩ := he; exact ⟨q, destroy_mono hfg hq, e⟩
  · obtain ⟨q, hq, e⟩ := he; exact ⟨q, getSize_mono hfg hq, e⟩
  · obtain ⟨q, hq, e⟩ := he; exact ⟨q, reverse_mono hfg hq, e⟩

theorem call_unique {junk : Pos → Nat} {s s1 s2 : St α} {op : Op α} {o1 o2 : Out} (h1 : s.Call junk op s1 o1) (h2 : s.Call junk op s2 o2) :
    s1 = s2 ∧ o1 = o2 := by
  obtain ⟨f, h1⟩ := h1
  obtain ⟨g, h2⟩ := h2
  have a := exec_mono (Nat.le_max_left f g) h1
  have b := exec_mono (Nat.le_max_right f g) h2
  rw [a] at b
  simpa using b

end Verif.Forest
