import Verif.ClosedHash.Model
import Verif.ClosedHash.Spec

namespace Verif.ClosedHash
open Verif.Ring

variable {α K : Type}

/-! ### link structure -/

structure R (h : Hdr α) (free used : List Nat) : Prop where
  rf : Ring h.next h.prior h.F free
  ru : Ring h.next h.prior h.U used
  nd : (h.F :: h.U :: (free ++ used)).Nodup

theorem R.congr {h h' : Hdr α} {free used : List Nat} (r : R h free used) (h1 : h'.next = h.next) (h2 : h'.prior = h.prior)
    (h3 : h'.cap = h.cap) : R h' free used := by
  have eF : h'.F = h.F := h3
  have eU : h'.U = h.U := by simp [Hdr.U, h3]
  exact ⟨by rw [h1, h2, eF]; exact r.rf, by rw [h1, h2, eU]; exact r.ru, by rw [eF, eU]; exact r.nd⟩

theorem R.ndF {h : Hdr α} {free used : List Nat} (r : R h free used) : (h.F :: free).Nodup := by
  apply List.Sublist.nodup _ r.nd
  exact List.Sublist.cons_cons _ ((List.sublist_append_left _ _).trans (List.sublist_cons_self _ _))

theorem R.ndU {h : Hdr α} {free used : List Nat} (r : R h free used) : (h.U :: used).Nodup := by
  apply List.Sublist.nodup _ r.nd
  exact (List.Sublist.cons_cons _ (List.sublist_append_right _ _)).trans (List.sublist_cons_self _ _)

theorem R.disj {h : Hdr α} {free used : List Nat} (r : R h free used) (n : Nat) (h1 : n ∈ h.F :: free) (h2 : n ∈ h.U :: used) :
    False := by
  have nd := r.nd
  simp only [List.nodup_cons, List.mem_cons, List.mem_append, not_or, List.nodup_append] at nd
  simp only [List.mem_cons] at h1 h2
  obtain ⟨⟨a, b, c⟩, ⟨d, e⟩, f, g, i⟩ := nd
  rcases h1 with rfl | h1
  · rcases h2 with h2 | h2
    · exact a h2
    · exact c h2
  · rcases h2 with rfl | h2
    · exact d h1
    · exact i n h1 n h2 rfl

theorem R.skip_free {h : Hdr α} {A B used : List Nat} {x : Nat} (r : R h (A ++ x :: B) used) : R (h.skipNode x) (A ++ B) used := by
  have hm := ring_mid r.rf
  have p : h.prior x ∈ h.F :: (A ++ x :: B) := by
    rw [hm.1]; have := lastOf_mem h.F A; simp only [List.mem_cons, List.mem_append] at this ⊢
    rcases this with h | h <;> simp [h]
  have n : h.next x ∈ h.F :: (A ++ x :: B) := by
    rw [hm.2]; have := firstOf_mem B h.F; simp only [List.mem_cons, List.mem_append] at this ⊢
    rcases this with h | h <;> simp [h]
  refine ⟨ring_remove r.rf r.ndF, ring_frame r.ru _ _ (fun hh => r.disj _ p hh) (fun hh => r.disj _ n hh), ?_⟩
  apply List.Sublist.nodup _ r.nd
  refine List.Sublist.cons_cons _ (List.Sublist.cons_cons _ ?_)
  exact List.Sublist.append (List.Sublist.append (List.Sublist.refl _) (List.sublist_cons_self _ _)) (List.Sublist.refl _)

theorem R.skip_used {h : Hdr α} {A B free : List Nat} {x : Nat} (r : R h free (A ++ x :: B)) : R (h.skipNode x) free (A ++ B) := by
  have hm := ring_mid r.ru
  have p : h.prior x ∈ h.U :: (A ++ x :: B) := by
    rw [hm.1]; have := lastOf_mem h.U A; simp only [List.mem_cons, List.mem_append] at this ⊢
    rcases this with h | h <;> simp [h]
  have n : h.next x ∈ h.U :: (A ++ x :: B) := by
    rw [hm.2]; have := firstOf_mem B h.U; simp only [List.mem_cons, List.mem_append] at this ⊢
    rcases this with h | h <;> simp [h]
  refine ⟨ring_frame r.rf _ _ (fun hh => r.disj _ hh p) (fun hh => r.disj _ hh n), ring_remove r.ru r.ndU, ?_⟩
  apply List.Sublist.nodup _ r.nd
  refine List.Sublist.cons_cons _ (List.Sublist.cons_cons _ ?_)
  exact List.Sublist.append (List.Sublist.refl _) (List.Sublist.append (List.Sublist.refl _) (List.sublist_cons_self _ _))

theorem R.splice_free {h : Hdr α} {free used : List Nat} {x : Nat} (r : R h free used)
    (hx : x ∉ h.F :: h.U :: (free ++ used)) : R (h.splice h.F x x) (x :: free) used := by
  have hx1 : x ∉ h.F :: free := by simp at hx ⊢; exact ⟨hx.1, hx.2.2.1⟩
  have hx2 : x ∉ h.U :: used := by simp at hx ⊢; exact ⟨hx.2.1, hx.2.2.2⟩
  have ndx : (h.F :: ([] ++ x :: free)).Nodup := by
    have := r.ndF
    rw [List.nodup_cons] at this
    simp only [List.nil_append, List.nodup_cons, List.mem_cons, not_or]
    simp only [List.mem_cons, not_or] at hx1
    exact ⟨⟨Ne.symm hx1.1, this.1⟩, hx1.2, this.2⟩
  have hF : h.F ∉ h.U :: used := fun hh => r.disj _ (by simp) hh
  have hn : h.next h.F ∉ h.U :: used := by
    rw [(ring_ends r.rf).1]
    intro hh; exact r.disj _ (firstOf_mem free h.F) hh
  refine ⟨?_, ?_, ?_⟩
  · have := ring_insert (A := []) (B := free) (x := x) (by simpa using r.rf) ndx
    simp only [List.nil_append, lastOf_nil] at this
    exact this
  · exact ring_frame (ring_frame r.ru _ _ hF hx2) _ _ hx2 hn
  · have nd := r.nd
    have : (x :: h.F :: h.U :: (free ++ used)).Nodup := List.nodup_cons.2 ⟨hx, nd⟩
    apply (List.Perm.nodup_iff _).1 this
    have : (x :: h.F :: h.U :: (free ++ used)).Perm (h.F :: h.U :: x :: (free ++ used)) :=
      (List.Perm.swap _ _ _).trans (List.Perm.cons _ (List.Perm.swap _ _ _))
    exact this

theorem R.splice_used {h : Hdr α} {free A B : List Nat} {x : Nat} (r : R h free (A ++ B))
    (hx : x ∉ h.F :: h.U :: (free ++ (A ++ B))) : R (h.splice (lastOf h.U A) x x) free (A ++ x :: B) := by
  have hx1 : x ∉ h.F :: free := by simp at hx ⊢; exact ⟨hx.1, hx.2.2.1⟩
  have hx2 : x ∉ h.U :: (A ++ B) := by simp at hx ⊢; exact ⟨hx.2.1, hx.2.2.2⟩
  have ndx : (h.U :: (A ++ x :: B)).Nodup := by
    have hp : (x :: h.U :: (A ++ B)).Perm (h.U :: (A ++ x :: B)) := by
      rw [show h.U :: (A ++ x :: B) = (h.U :: A) ++ x :: B by simp, show h.U :: (A ++ B) = (h.U :: A) ++ B by simp]
      exact (List.perm_middle).symm
    exact hp.nodup_iff.1 (List.nodup_cons.2 ⟨hx2, r.ndU⟩)
  have hF : lastOf h.U A ∉ h.F :: free := by
    intro hh
    refine r.disj _ hh ?_
    have := lastOf_mem h.U A; simp only [List.mem_cons, List.mem_append] at this ⊢
    rcases this with h | h <;> simp [h]
  have hn : h.next (lastOf h.U A) ∉ h.F :: free := by
    rw [ring_next_last r.ru]
    intro hh
    refine r.disj _ hh ?_
    have := firstOf_mem B h.U; simp only [List.mem_cons, List.mem_append] at this ⊢
    rcases this with h | h <;> simp [h]
  refine ⟨?_, ?_, ?_⟩
  · exact ring_frame (ring_frame r.rf _ _ hF hx1) _ _ hx1 hn
  · exact ring_insert r.ru ndx
  · have : (x :: h.F :: h.U :: (free ++ (A ++ B))).Nodup := List.nodup_cons.2 ⟨hx, r.nd⟩
    apply (List.Perm.nodup_iff _).1 this
    have : (x :: h.F :: h.U :: (free ++ (A ++ B))).Perm ((h.F :: h.U :: (free ++ A)) ++ x :: B) := by
      rw [show h.F :: h.U :: (free ++ (A ++ B)) = (h.F :: h.U :: (free ++ A)) ++ B by simp]
      exact (List.perm_middle).symm
    simp only [List.cons_append, List.append_assoc] at this
    exact this

theorem R.replace_used {h : Hdr α} {free A B : List Nat} {x y : Nat} (r : R h free (A ++ x :: B))
    (hy : y ∉ h.F :: h.U :: (free ++ (A ++ x :: B))) :
    let h1 := h.setNext (h.prior x) y
    R (h1.setNext y (h1.next x)) free (A ++ y :: B) := by
  intro h1
  have hy1 : y ∉ h.F :: free := by simp at hy ⊢; exact ⟨hy.1, hy.2.2.1⟩
  have hy2 : y ∉ h.U :: (A ++ x :: B) := by simp at hy ⊢; exact ⟨hy.2.1, hy.2.2.2⟩
  have hm := ring_mid r.ru
  have p : h.prior x ∈ h.U :: (A ++ x :: B) := by
    rw [hm.1]; have := lastOf_mem h.U A; simp only [List.mem_cons, List.mem_append] at this ⊢
    rcases this with h | h <;> simp [h]
  have hne : x ≠ h.prior x := by
    rw [hm.1]
    intro e
    have nd' : (h.U :: A ++ x :: B).Nodup := by simpa using r.ndU
    rw [List.nodup_append] at nd'
    have := lastOf_mem h.U A
    rw [← e] at this
    exact nd'.2.2 x this x (by simp) rfl
  have n : h1.next x ∈ h.U :: (A ++ x :: B) := by
    rw [show h1.next x = h.next x from upd_ne _ _ _ _ hne, hm.2]
    have := firstOf_mem B h.U; simp only [List.mem_cons, List.mem_append] at this ⊢
    rcases this with h | h <;> simp [h]
  refine ⟨?_, ?_, ?_⟩
  · exact ring_frame (ring_frame r.rf _ _ (fun hh => r.disj _ hh p) hy1) _ _ hy1 (fun hh => r.disj _ hh n)
  · exact ring_replace r.ru r.ndU hy2
  · have hsub : (h.F :: h.U :: (free ++ (A ++ B))).Sublist (h.F :: h.U :: (free ++ (A ++ x :: B))) :=
      List.Sublist.cons_cons _ (List.Sublist.cons_cons _ (List.Sublist.append (List.Sublist.refl _)
        (List.Sublist.append (List.Sublist.refl _) (List.sublist_cons_self _ _))))
    have : (y :: h.F :: h.U :: (free ++ (A ++ B))).Nodup :=
      List.nodup_cons.2 ⟨fun hm => hy (hsub.subset hm), hsub.nodup r.nd⟩
    apply (List.Perm.nodup_iff _).1 this
    have : (y :: h.F :: h.U :: (free ++ (A ++ B))).Perm ((h.F :: h.U :: (free ++ A)) ++ y :: B) := by
      rw [show h.F :: h.U :: (free ++ (A ++ B)) = (h.F :: h.U :: (free ++ A)) ++ B by simp]
      exact (List.perm_middle).symm
    simp only [List.cons_append, List.append_assoc] at this
    exact this

/-! ### fresh table -/

theorem fresh_loop (n : Nat) (h0 : Hdr α) (hc : h0.cap = n) (hU : h0.next (n + 1) = n + 1 ∧ h0.prior (n + 1) = n + 1)
    (hv : ∀ i, h0.val i = none) (hs : h0.size = 0) (k : Nat) (hk : k ≤ n) :
    let r := (List.range k).foldl (fun (p : Hdr α × Nat) first => (p.1.setNextRaw p.2 first, first)) (h0, n)
    Path r.1.next r.1.prior (n :: List.range k) ∧ r.2 = lastOf n (List.range k) ∧ r.1.cap = n ∧
      r.1.next (n + 1) = n + 1 ∧ r.1.prior (n + 1) = n + 1 ∧ r.1.val = h0.val ∧ r.1.size = 0 ∧
      (∀ i, i + 1 < k → r.1.state i = 0) := by
  induction k with
  | zero => simp [Path, hc, hU, hs]
  | succ k ih =>
    obtain ⟨a, b, c, d, e, f, g, s⟩ := ih (by omega)
    rw [List.range_succ, List.foldl_append]
    generalize hr : (List.range k).foldl (fun (p : Hdr α × Nat) first => (p.1.setNextRaw p.2 first, first)) (h0, n) = r at *
    simp only [List.foldl_cons, List.foldl_nil] at a b c d e f g s ⊢
    have hlast : r.2 < n + 1 := by
      rw [b]; have := lastOf_mem n (List.range k)
      simp at this; omega
    refine ⟨?_, by simp, c, ?_, ?_, f, g, ?_⟩
    · obtain ⟨P, hP⟩ := split_last n (List.range k)
      have hP' : n :: (List.range k ++ [k]) = P ++ r.2 :: [k] := by
        rw [← List.cons_append, hP, b]; simp
      rw [hP']
      have nd : (n :: List.range k).Nodup := by
        rw [List.nodup_cons]; exact ⟨by simp; omega, List.nodup_range⟩
      rw [b] at *
      rw [hP] at a nd
      apply path_join P _ k [] a trivial
      · rw [List.nodup_append] at nd
        intro hm; exact nd.2.2 _ hm _ (by simp) rfl
      · simp
      · intro hm
        have := List.mem_of_mem_tail hm
        rw [← hP] at this
        simp at this; omega
      · simp
    · show upd _ _ _ _ = _
      rw [upd_ne _ _ _ _ (by omega)]; exact d
    · show upd _ _ _ _ = _
      rw [upd_ne _ _ _ _ (by omega)]; exact e
    · intro i hi
      show upd _ _ _ _ = _
      by_cases hik : i + 1 < k
      · unfold upd; split
        · rfl
        · exact s i hik
      · have : i = k - 1 := by omega
        have : r.2 = i := by
          rw [b]
          obtain ⟨k', rfl⟩ : ∃ k', k = k' + 1 := ⟨k - 1, by omega⟩
          rw [List.range_succ, lastOf_concat]; omega
        rw [this]; simp

theorem fresh_spec (n : Nat) (hn : 0 < n) :
    R (freshTable n : Hdr α) (List.range n) [] ∧ (freshTable n : Hdr α).cap = n ∧ (freshTable n : Hdr α).size = 0 ∧
    ∀ i < n, (freshTable n : Hdr α).state i = 0 ∧ (freshTable n : Hdr α).val i = none := by
  obtain ⟨a, b, c, d, e, f, g, s⟩ := fresh_loop (α := α) n
    { cap := n, size := 0, next := id, prior := id, state := fun i => if i < n then 3 else 0, val := fun _ => none }
    rfl ⟨rfl, rfl⟩ (fun _ => rfl) rfl n (Nat.le_refl n)
  unfold freshTable
  simp only
  generalize hr : (List.range n).foldl (fun (p : Hdr α × Nat) first => (p.1.setNextRaw p.2 first, first))
    ({ cap := n, size := 0, next := id, prior := id, state := fun i => if i < n then 3 else 0, val := fun _ => none }, n) = r at *
  simp only at a b c d e f g s
  have nd : (n :: (List.range n ++ [])).Nodup := by
    rw [List.nodup_cons]; exact ⟨by simp, by simp [List.nodup_range]⟩
  have hlast : r.2 < n := by
    rw [b]
    obtain ⟨n', rfl⟩ : ∃ k', n = k' + 1 := ⟨n - 1, by omega⟩
    rw [List.range_succ, lastOf_concat]; omega
  refine ⟨⟨?_, ?_, ?_⟩, c, g, ?_⟩
  · have := ring_join (s := n) (A := List.range n) (B := []) a trivial nd
    simp only [firstOf_nil, List.append_nil] at this
    rw [← b] at this
    simpa [Hdr.F, Hdr.setNextRaw, c] using this
  · show Path _ _ [_, _]
    simp only [Hdr.U, Hdr.setNextRaw, c, Path]
    refine ⟨?_, ?_, trivial⟩
    · rw [upd_ne _ _ _ _ (by omega)]; exact d
    · rw [upd_ne _ _ _ _ (by omega)]; exact e
  · simp only [Hdr.F, Hdr.U, Hdr.setNextRaw, c]
    simp [List.nodup_range]
  · intro i hi
    refine ⟨?_, ?_⟩
    · show upd _ _ _ _ = _
      by_cases hik : i + 1 < n
      · unfold upd; split
        · rfl
        · exact s i hik
      · have : r.2 = i := by
          rw [b]
          obtain ⟨k', rfl⟩ : ∃ k', n = k' + 1 := ⟨n - 1, by omega⟩
          rw [List.range_succ, lastOf_concat]; omega
        rw [this]; simp
    · show r.1.val i = none
      rw [f]

end Verif.ClosedHash
