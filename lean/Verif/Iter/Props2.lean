import Verif.Iter.Spec
/-
C130: `mismatch`; C131: index iterators; C132: `max_adjacent_difference`.
-/
namespace Verif.Iter
variable {α : Type}

/-- Specification: `k` is the length of the longest common prefix of two lists. -/
def CommonPrefix (x y : List α) (k : Nat) : Prop :=
  k ≤ x.length ∧ k ≤ y.length ∧ x.take k = y.take k ∧
    ∀ m, m ≤ x.length → m ≤ y.length → x.take m = y.take m → m ≤ k

theorem mismatchN_spec [DecidableEq α] (x y : List α) : ∀ n i, i + n ≤ x.length → i + n ≤ y.length →
    x.take i = y.take i → ∃ k, mismatchN x y n i i = some (k, k) ∧ i ≤ k ∧ k ≤ i + n ∧ x.take k = y.take k ∧
      (k = i + n ∨ x[k]? ≠ y[k]?) := by
  intro n
  induction n with
  | zero => intro i _ _ h; exact ⟨i, rfl, Nat.le_refl _, Nat.le_refl _, h, .inl rfl⟩
  | succ n ih =>
    intro i hx hy h
    have hx' : x[i]? = some x[i] := List.getElem?_eq_getElem (by omega)
    have hy' : y[i]? = some y[i] := List.getElem?_eq_getElem (by omega)
    unfold mismatchN
    rw [hx', hy']
    by_cases he : x[i] = y[i]
    · have ht : x.take (i + 1) = y.take (i + 1) := by
        rw [List.take_add_one, List.take_add_one, h, hx', hy', he]
      obtain ⟨k, h1, h2, h3, h4, h5⟩ := ih (i + 1) (by omega) (by omega) ht
      exact ⟨k, by simp [he, h1], by omega, by omega, h4, by rcases h5 with h5 | h5; exact .inl (by omega); exact .inr h5⟩
    · refine ⟨i, by simp [he], Nat.le_refl _, by omega, h, .inr ?_⟩
      rw [hx', hy']
      simpa using he

theorem commonPrefix_of {x y : List α} {k : Nat} (hx : k ≤ x.length) (hy : k ≤ y.length)
    (h : x.take k = y.take k) (hk : k = x.length ∨ k = y.length ∨ x[k]? ≠ y[k]?) : CommonPrefix x y k := by
  refine ⟨hx, hy, h, fun m hm hm' ht => ?_⟩
  rcases hk with rfl | rfl | hk
  · exact hm
  · exact hm'
  · apply Classical.byContradiction
    intro hlt
    apply hk
    have : (x.take m)[k]? = (y.take m)[k]? := by rw [ht]
    rwa [List.getElem?_take_of_lt (by omega), List.getElem?_take_of_lt (by omega)] at this

/-- `mismatch` of random access ranges stops in both ranges at the end of the longest common prefix, and never reads
outside the ranges. -/
theorem C130_mismatch_random [DecidableEq α] (x y : List α) :
    ∃ k, mismatchRandom x y = some (k, k) ∧ CommonPrefix x y k := by
  unfold mismatchRandom
  split
  · obtain ⟨k, h1, _, h3, h4, h5⟩ := mismatchN_spec x y x.length 0 (by omega) (by omega) rfl
    refine ⟨k, h1, commonPrefix_of (by omega) (by omega) h4 ?_⟩
    rcases h5 with h5 | h5
    · exact .inl (by omega)
    · exact .inr (.inr h5)
  · obtain ⟨k, h1, _, h3, h4, h5⟩ := mismatchN_spec x y y.length 0 (by omega) (by omega) rfl
    refine ⟨k, h1, commonPrefix_of (by omega) (by omega) h4 ?_⟩
    rcases h5 with h5 | h5
    · exact .inr (.inl (by omega))
    · exact .inr (.inr h5)

theorem mismatchGo_spec [DecidableEq α] (x y : List α) : ∀ n i, x.length - i ≤ n → i ≤ x.length → i ≤ y.length →
    x.take i = y.take i → ∃ k, mismatchGo x y x.length y.length n i i = some (k, k) ∧ k ≤ x.length ∧ k ≤ y.length ∧
      x.take k = y.take k ∧ (k = x.length ∨ k = y.length ∨ x[k]? ≠ y[k]?) := by
  intro n
  induction n with
  | zero =>
    intro i hn hx hy h
    have : i = x.length := by omega
    exact ⟨i, by rw [mismatchGo.eq_def]; simp [this], hx, hy, h, .inl this⟩
  | succ n ih =>
    intro i hn hx hy h
    rw [mismatchGo.eq_def]
    by_cases h1 : i = x.length
    · exact ⟨i, by simp [h1], hx, hy, h, .inl h1⟩
    · by_cases h2 : i = y.length
      · exact ⟨i, by simp [h2], hx, hy, h, .inr (.inl h2)⟩
      · have hx' : x[i]? = some x[i] := List.getElem?_eq_getElem (by omega)
        have hy' : y[i]? = some y[i] := List.getElem?_eq_getElem (by omega)
        have e1 : (i != x.length) = true := by simpa using h1
        have e2 : (i != y.length) = true := by simpa using h2
        simp only [e1, e2, hx', hy', if_true]
        by_cases he : x[i] = y[i]
        · have ht : x.take (i + 1) = y.take (i + 1) := by
            rw [List.take_add_one, List.take_add_one, h, hx', hy', he]
          obtain ⟨k, g⟩ := ih (i + 1) (by omega) (by omega) (by omega) ht
          exact ⟨k, by simpa [he] using g.1, g.2⟩
        · refine ⟨i, by simp [he], hx, hy, h, .inr (.inr ?_)⟩
          rw [hx', hy']
          simpa using he

/-- `mismatch` of other ranges does the same: the two implementations agree on all inputs. -/
theorem C130_mismatch_input [DecidableEq α] (x y : List α) :
    (∃ k, mismatchInput x y = some (k, k) ∧ CommonPrefix x y k) ∧ mismatchInput x y = mismatchRandom x y := by
  obtain ⟨k, h1, h2, h3, h4, h5⟩ := mismatchGo_spec x y x.length 0 (by omega) (Nat.zero_le _) (Nat.zero_le _) rfl
  have hc := commonPrefix_of h2 h3 h4 h5
  refine ⟨⟨k, h1, hc⟩, ?_⟩
  obtain ⟨m, g1, g2⟩ := C130_mismatch_random x y
  have a := hc.2.2.2 m g2.1 g2.2.1 g2.2.2.1
  have b := g2.2.2.2 k hc.1 hc.2.1 hc.2.2.1
  have : k = m := by omega
  rw [g1, ← this]
  exact h1

/-- Moving an index iterator by two distances one after the other is moving it by their sum, and moving it by `n` and
by `-n` leads back. -/
theorem C131_index_advance (i : BitVec 64) (m n : Int) :
    idxAdvance (idxAdvance i m) n = idxAdvance i (m + n) ∧ idxAdvance (idxAdvance i n) (-n) = i ∧
      (∀ k : Nat, (hk : i.toNat + k < 2 ^ 64) → (idxAdvance i k).toNat = i.toNat + k) := by
  have add : ∀ m n : Int, idxAdvance (idxAdvance i m) n = idxAdvance i (m + n) := by
    intro m n
    unfold idxAdvance
    rw [BitVec.add_assoc, ← BitVec.ofInt_add]
  refine ⟨add m n, ?_, ?_⟩
  · rw [add, Int.add_right_neg]
    unfold idxAdvance
    simp
  · intro k hk
    unfold idxAdvance
    rw [BitVec.ofInt_natCast, BitVec.toNat_add, BitVec.toNat_ofNat]
    omega

/-- Where the distance of two index iterators is defined, it is the distance to move by. -/
theorem C131_index_distance (i x : BitVec 64) (d : Int) (h : idxDistance i x = some d) : idxAdvance i d = x := by
  unfold idxDistance at h
  simp only [] at h
  split at h
  · simp only [Option.some.injEq] at h
    subst h
    unfold idxAdvance
    rw [Int.sub_eq_add_neg, BitVec.ofInt_add, BitVec.ofInt_neg, BitVec.ofInt_toInt, BitVec.ofInt_toInt,
      BitVec.add_comm x, ← BitVec.add_assoc, BitVec.add_right_neg, BitVec.zero_add]
  · cases h

/-- The distance of index iterators with indices below `2 ^ 63` is defined and is the difference of the indices.
Missing: larger indices, see `C131_index_distance_violated`. -/
theorem C131_index_distance_partial (i x : BitVec 64) (hi : i.toNat < 2 ^ 63) (hx : x.toNat < 2 ^ 63) :
    idxDistance i x = some ((x.toNat : Int) - i.toNat) := by
  have e1 : i.toInt = i.toNat := by rw [BitVec.toInt_eq_toNat_cond]; split <;> omega
  have e2 : x.toInt = x.toNat := by rw [BitVec.toInt_eq_toNat_cond]; split <;> omega
  unfold idxDistance
  simp only [e1, e2]
  rw [if_pos]
  omega

/-- The distance of two neighbours can be undefined: at the indices `2 ^ 63 - 1` and `2 ^ 63`. -/
theorem C131_index_distance_violated :
    ¬ ∀ i : BitVec 64, i.toNat + 1 < 2 ^ 64 → idxDistance i (idxAdvance i 1) = some 1 := by
  intro h
  have := h (BitVec.ofNat 64 (2 ^ 63 - 1)) (by decide)
  revert this
  decide

/-- Specification: the difference of the elements number `i + 1` and `i`. -/
def diffAt (l : List Int) (i : Nat) : Int := l.getD (i + 1) 0 - l.getD i 0

theorem madLoop_spec (l : List Int) : ∀ rest prev res, l.drop (prev + 1) = rest → prev < l.length →
    res + 1 ≤ prev → (∀ j, j + 1 ≤ prev → diffAt l j ≤ diffAt l res) →
    (∀ j, j < res → diffAt l j < diffAt l res) →
    let r := madLoop rest res (diffAt l res) prev (l.getD prev 0)
    r + 1 < l.length ∧ (∀ j, j + 1 < l.length → diffAt l j ≤ diffAt l r) ∧ ∀ j, j < r → diffAt l j < diffAt l r := by
  intro rest
  induction rest with
  | nil =>
    intro prev res hd hp hr hmax hfirst
    have : l.length ≤ prev + 1 := by simpa using hd
    simp only [madLoop]
    exact ⟨by omega, fun j hj => hmax j (by omega), hfirst⟩
  | cons w rest ih =>
    intro prev res hd hp hr hmax hfirst
    have hlen : prev + 1 < l.length := by
      apply Classical.byContradiction; intro hn
      rw [List.drop_eq_nil_of_le (by omega)] at hd; cases hd
    have hw : l.getD (prev + 1) 0 = w := by
      have := List.drop_eq_getElem_cons hlen
      rw [this] at hd
      injection hd with h1 _
      simp [hlen, h1]
    have hrest : l.drop (prev + 1 + 1) = rest := by
      have := List.drop_eq_getElem_cons hlen
      rw [this] at hd
      injection hd
    have hdiff : w - l.getD prev 0 = diffAt l prev := by unfold diffAt; rw [hw]
    simp only [madLoop, hdiff]
    split
    · rename_i hlt
      rw [← hw]
      refine ih (prev + 1) prev hrest hlen (Nat.le_refl _) ?_ ?_
      · intro j hj
        by_cases h : j = prev
        · rw [h]; exact Int.le_refl _
        · have := hmax j (by omega); omega
      · intro j hj
        have := hmax j (by omega); omega
    · rename_i hlt
      rw [← hw]
      refine ih (prev + 1) res hrest hlen (by omega) ?_ hfirst
      intro j hj
      by_cases h : j = prev
      · rw [h]; omega
      · exact hmax j (by omega)

/-- `max_adjacent_difference` of two or more elements returns the first position at which the difference of the next
element and the element is largest. -/
theorem C132_max_adjacent_difference (l : List Int) (hl : 2 ≤ l.length) :
    maxAdjacentDifference l + 1 < l.length ∧
      (∀ j, j + 1 < l.length → diffAt l j ≤ diffAt l (maxAdjacentDifference l)) ∧
      ∀ j, j < maxAdjacentDifference l → diffAt l j < diffAt l (maxAdjacentDifference l) := by
  match l, hl with
  | v :: w :: rest, _ =>
    exact madLoop_spec (v :: w :: rest) rest 1 0 rfl (by simp) (Nat.le_refl _)
      (fun j hj => by have : j = 0 := by omega
                      rw [this]; exact Int.le_refl _) (fun j hj => by omega)

/-- Of fewer than two elements it returns the beginning. -/
theorem C132_max_adjacent_difference_short (l : List Int) (hl : l.length < 2) : maxAdjacentDifference l = 0 := by
  match l, hl with
  | [], _ => rfl
  | [_], _ => rfl

end Verif.Iter
