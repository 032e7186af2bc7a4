import Verif.Permute.Model
/-
Properties C05 (rotate) and C06 (gather).
-/
namespace Verif.Permute

variable {α : Type}

theorem stdReverse_mid (P M Q : List α) :
    stdReverse (P ++ M ++ Q) P.length (P.length + M.length) = P ++ M.reverse ++ Q := by
  unfold stdReverse
  have h1 : (P ++ M ++ Q).take P.length = P := by simp [List.append_assoc]
  have h2 : (P ++ M ++ Q).drop P.length = M ++ Q := by simp [List.append_assoc]
  have h3 : (P ++ M ++ Q).drop (P.length + M.length) = Q := by
    rw [← List.length_append]; simp
  rw [h1, h2, h3]
  simp

theorem iterSwap_ends (P : List α) (u : α) (M : List α) (v : α) (Q : List α) :
    iterSwap (P ++ (u :: M ++ [v]) ++ Q) P.length (P.length + M.length + 1) =
      some (P ++ (v :: M ++ [u]) ++ Q) := by
  unfold iterSwap
  have h1 : (P ++ (u :: M ++ [v]) ++ Q)[P.length]? = some u := by
    simp [List.append_assoc]
  have h2 : (P ++ (u :: M ++ [v]) ++ Q)[P.length + M.length + 1]? = some v := by
    have e : P ++ (u :: M ++ [v]) ++ Q = (P ++ u :: M) ++ v :: Q := by simp [List.append_assoc]
    rw [e, List.getElem?_append_right (by simp; omega)]
    have : P.length + M.length + 1 - (P ++ u :: M).length = 0 := by simp; omega
    rw [this]; rfl
  rw [h1, h2]
  simp only [Option.some.injEq]
  have e : (P ++ (u :: M ++ [v]) ++ Q).set P.length v = (P ++ v :: M) ++ v :: Q := by
    simp [List.append_assoc, List.set_append]
  rw [e, List.set_append]
  have hnl : ¬ (P.length + M.length + 1 < (P ++ v :: M).length) := by simp; omega
  rw [if_neg hnl]
  have : P.length + M.length + 1 - (P ++ v :: M).length = 0 := by simp; omega
  rw [this]
  simp [List.append_assoc]

/-- `reverse_until` performs `min` swaps from the outside in; reversing the remaining middle part
    completes a full reversal. -/
theorem reverseUntil_spec : ∀ (U V P Q : List α),
    ∃ l3, reverseUntil (P ++ (U ++ V) ++ Q) P.length (P.length + U.length)
        (P.length + U.length + V.length) =
        some (l3, P.length + min U.length V.length,
          P.length + U.length + V.length - min U.length V.length) ∧
      stdReverse l3 (P.length + min U.length V.length)
        (P.length + U.length + V.length - min U.length V.length) =
        P ++ (U ++ V).reverse ++ Q := by
  intro U
  induction U with
  | nil =>
    intro V P Q
    refine ⟨P ++ ([] ++ V) ++ Q, ?_, ?_⟩
    · unfold reverseUntil; simp
    · have := stdReverse_mid P V Q
      simpa using this
  | cons u U ih =>
    intro V P Q
    rcases List.eq_nil_or_concat V with hV | ⟨V', v, hV⟩
    · subst hV
      refine ⟨P ++ ((u :: U) ++ []) ++ Q, ?_, ?_⟩
      · unfold reverseUntil; simp
      · have := stdReverse_mid P (u :: U) Q
        simpa using this
    · subst hV
      have hsw := iterSwap_ends P u (U ++ V') v Q
      have e1 : P ++ (u :: U ++ (V'.concat v)) ++ Q = P ++ (u :: (U ++ V') ++ [v]) ++ Q := by
        simp [List.append_assoc]
      have e2 : P.length + (U ++ V').length + 1 = P.length + (u :: U).length + (V'.concat v).length - 1 := by
        simp; omega
      obtain ⟨l3, h3, h4⟩ := ih V' (P ++ [v]) ([u] ++ Q)
      have hmin : min (u :: U).length (V'.concat v).length = min U.length V'.length + 1 := by
        simp
      have e3 : P ++ (v :: (U ++ V') ++ [u]) ++ Q = P ++ [v] ++ (U ++ V') ++ ([u] ++ Q) := by
        simp [List.append_assoc]
      have e4 : (P ++ [v]).length = P.length + 1 := by simp
      have e5 : P.length + 1 + U.length = P.length + (u :: U).length := by
        simp only [List.length_cons]; omega
      have e6 : P.length + (u :: U).length + V'.length = P.length + (u :: U).length + (V'.concat v).length - 1 := by
        simp
      rw [e4] at h3 h4
      rw [e5] at h3 h4
      have e7 : P.length + 1 + min U.length V'.length = P.length + (min U.length V'.length + 1) := by omega
      have e8 : P.length + (u :: U).length + V'.length - min U.length V'.length =
          P.length + (u :: U).length + (V'.concat v).length - (min U.length V'.length + 1) := by
        simp; omega
      rw [e7, e8] at h3 h4
      refine ⟨l3, ?_, ?_⟩
      · rw [hmin]
        unfold reverseUntil
        rw [dif_pos (by simp)]
        rw [e1, ← e2, hsw]
        dsimp only
        rw [e3, e2, ← e6]
        exact h3
      · rw [hmin, h4]
        simp [List.append_assoc]

/-! ### C05 -/

/-- C05: `rotate(f, m, l)` on a sequence `pre ++ A ++ B ++ post` with `f`, `m`, `l` delimiting the blocks
    `A` and `B` exchanges the two blocks, touches nothing else, never leaves the sequence, and the
    returned pair contains `m` and the new position of the old first block (recovered by `other_of`). -/
theorem C05_rotate (pre A B post : List α) :
    let f := pre.length
    let m := pre.length + A.length
    let e := pre.length + A.length + B.length
    ∃ p, rotate (pre ++ A ++ B ++ post) f m e = some (pre ++ B ++ A ++ post, p) ∧
      otherOf p m = pre.length + B.length ∧ (p.1 = m ∨ p.2 = m) := by
  intro f m e
  have h1 : stdReverse (pre ++ A ++ B ++ post) f m = pre ++ A.reverse ++ B ++ post := by
    have := stdReverse_mid pre A (B ++ post)
    simpa [List.append_assoc, f, m] using this
  have h2 : stdReverse (pre ++ A.reverse ++ B ++ post) m e = pre ++ (A.reverse ++ B.reverse) ++ post := by
    have := stdReverse_mid (pre ++ A.reverse) B post
    simpa [List.append_assoc, e, m, Nat.add_assoc] using this
  obtain ⟨l3, h3, h4⟩ := reverseUntil_spec A.reverse B.reverse pre post
  simp only [List.length_reverse] at h3 h4
  refine ⟨(pre.length + min A.length B.length,
    pre.length + A.length + B.length - min A.length B.length), ?_, ?_, ?_⟩
  · unfold rotate
    simp only [h1, h2]
    show (match reverseUntil (pre ++ (A.reverse ++ B.reverse) ++ post) pre.length
        (pre.length + A.length) (pre.length + A.length + B.length) with
      | none => none
      | some (l3, pf, pe) => some (stdReverse l3 pf pe, pf, pe)) = _
    rw [h3]
    simp only [h4]
    simp [List.append_assoc]
  · show (if pre.length + min A.length B.length = pre.length + A.length then _ else _) = _
    split <;> simp only <;> omega
  · show (pre.length + min A.length B.length = pre.length + A.length ∨
      pre.length + A.length + B.length - min A.length B.length = pre.length + A.length)
    omega

/-! ### C06 -/

theorem len_filter_split (A : List α) (pred : α → Bool) :
    A.length = (A.filter pred).length + (A.filter (fun x => !pred x)).length := by
  induction A with
  | nil => rfl
  | cons a A ih =>
    cases h : pred a <;> simp [h] <;> omega

/-- C06: `gather` keeps the prefix and suffix, moves the elements satisfying `pred` into one run around the
    pivot, keeps the relative order inside both classes, and returns exactly that run. -/
theorem C06_gather (pre A B post : List α) (pred : α → Bool) :
    gather (pre ++ A ++ B ++ post) pre.length (pre.length + A.length + B.length)
        (pre.length + A.length) pred =
      (pre ++ A.filter (fun x => !pred x) ++ (A.filter pred ++ B.filter pred) ++
          B.filter (fun x => !pred x) ++ post,
        pre.length + (A.filter (fun x => !pred x)).length,
        pre.length + A.length + (B.filter pred).length) := by
  have hs : ∀ (P M Q : List α) (q : α → Bool),
      stdStablePartition (P ++ M ++ Q) P.length (P.length + M.length) q =
        (P ++ (M.filter q ++ M.filter (fun x => !q x)) ++ Q, P.length + (M.filter q).length) := by
    intro P M Q q
    have h1 : (P ++ M ++ Q).take P.length = P := by simp [List.append_assoc]
    have h2 : (P ++ M ++ Q).drop P.length = M ++ Q := by simp [List.append_assoc]
    have h3 : (P ++ M ++ Q).drop (P.length + M.length) = Q := by
      rw [← List.length_append]; simp
    unfold stdStablePartition
    simp only [h1, h2, h3]
    simp
  have e1 := hs pre A (B ++ post) (fun x => !pred x)
  have hlen : A.length = (A.filter (fun x => !pred x)).length + (A.filter pred).length := by
    have := len_filter_split A pred
    omega
  have e2 := hs (pre ++ (A.filter (fun x => !pred x) ++ A.filter pred)) B post pred
  have hl2 : (pre ++ (A.filter (fun x => !pred x) ++ A.filter pred)).length = pre.length + A.length := by
    simp only [List.length_append]; omega
  rw [hl2] at e2
  unfold gather
  have e3 : pre ++ A ++ B ++ post = pre ++ A ++ (B ++ post) := by simp [List.append_assoc]
  rw [e3, e1]
  simp only [Bool.not_not]
  have e4 : pre ++ (A.filter (fun x => !pred x) ++ A.filter (fun x => pred x)) ++ (B ++ post) =
      pre ++ (A.filter (fun x => !pred x) ++ A.filter pred) ++ B ++ post := by
    simp [List.append_assoc]
  rw [e4, e2]
  simp [List.append_assoc]

/-- C06 (the returned run): the run delimited by the returned pair consists of exactly the satisfying
    elements of the whole range in their original order, and the result is a permutation. -/
theorem C06_gather_run (pre A B post : List α) (pred : α → Bool) :
    let res := gather (pre ++ A ++ B ++ post) pre.length (pre.length + A.length + B.length)
        (pre.length + A.length) pred
    (res.1.drop res.2.1).take (res.2.2 - res.2.1) = (A ++ B).filter pred ∧
    res.2.1 ≤ pre.length + A.length ∧ pre.length + A.length ≤ res.2.2 ∧
    res.1.Perm (pre ++ A ++ B ++ post) := by
  intro res
  have h : res = _ := C06_gather pre A B post pred
  have hlen : A.length = (A.filter (fun x => !pred x)).length + (A.filter pred).length := by
    have := len_filter_split A pred
    omega
  rw [h]
  refine ⟨?_, ?_, ?_, ?_⟩
  · simp only
    have e : pre ++ A.filter (fun x => !pred x) ++ (A.filter pred ++ B.filter pred) ++
          B.filter (fun x => !pred x) ++ post =
        (pre ++ A.filter (fun x => !pred x)) ++ ((A.filter pred ++ B.filter pred) ++
          (B.filter (fun x => !pred x) ++ post)) := by simp [List.append_assoc]
    rw [e]
    have e2 : pre.length + (A.filter (fun x => !pred x)).length =
        (pre ++ A.filter (fun x => !pred x)).length := by simp
    have e3 : pre.length + A.length + (B.filter pred).length -
        (pre.length + (A.filter (fun x => !pred x)).length) = (A.filter pred ++ B.filter pred).length := by
      simp only [List.length_append]; omega
    rw [e3, e2, List.drop_left, List.take_left, List.filter_append]
  · simp only; omega
  · simp only; omega
  · simp only
    have hA : (A.filter (fun x => !pred x) ++ A.filter pred).Perm A := by
      exact (List.perm_append_comm).trans (List.filter_append_perm pred A)
    have hB : (B.filter pred ++ B.filter (fun x => !pred x)).Perm B := List.filter_append_perm pred B
    have e : pre ++ A.filter (fun x => !pred x) ++ (A.filter pred ++ B.filter pred) ++
          B.filter (fun x => !pred x) ++ post =
        pre ++ ((A.filter (fun x => !pred x) ++ A.filter pred) ++
          (B.filter pred ++ B.filter (fun x => !pred x))) ++ post := by simp [List.append_assoc]
    rw [e]
    have e' : pre ++ A ++ B ++ post = pre ++ (A ++ B) ++ post := by simp [List.append_assoc]
    rw [e']
    exact List.Perm.append_right _ (List.Perm.append_left _ (List.Perm.append hA hB))

example : rotate [9, 1, 2, 3, 4, 5, 8] 1 3 6 = some ([9, 3, 4, 5, 1, 2, 8], 3, 4) := by
  simp [rotate, stdReverse, reverseUntil, iterSwap]
example : gather [1, 2, 3, 4, 5, 6] 0 6 3 (fun x => x % 2 == 0) = ([1, 3, 2, 4, 6, 5], 2, 5) := by decide

end Verif.Permute
