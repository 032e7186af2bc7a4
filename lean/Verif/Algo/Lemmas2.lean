import Verif.Algo.Lemmas

namespace Verif.Algo

variable {α β : Type}

/-! ### find and erase -/

theorem findIf_fst (p : α → Bool) (xs : List α) :
    (findIf p xs).1 = (xs.takeWhile (fun x => !p x)).length := by
  induction xs with
  | nil => rfl
  | cons x xs ih =>
    unfold findIf
    by_cases h : p x = true <;> simp [h, ih]

theorem findIfNot_fst (p : α → Bool) (xs : List α) :
    (findIfNot p xs).1 = (xs.takeWhile p).length := by
  induction xs with
  | nil => rfl
  | cons x xs ih =>
    unfold findIfNot
    by_cases h : p x = true <;> simp [h, ih]

theorem findIf_calls (p : α → Bool) (xs : List α) :
    (findIf p xs).2 = xs.take ((findIf p xs).1 + 1) := by
  induction xs with
  | nil => rfl
  | cons x xs ih =>
    unfold findIf
    by_cases h : p x = true
    · simp [h]
    · simp [h]; exact ih

theorem findIfNot_calls (p : α → Bool) (xs : List α) :
    (findIfNot p xs).2 = xs.take ((findIfNot p xs).1 + 1) := by
  induction xs with
  | nil => rfl
  | cons x xs ih =>
    unfold findIfNot
    by_cases h : p x = true
    · simp [h]; exact ih
    · simp [h]

theorem take_takeWhile (q : α → Bool) (xs : List α) :
    xs.take (xs.takeWhile q).length = xs.takeWhile q := by
  induction xs with
  | nil => rfl
  | cons x xs ih => by_cases h : q x = true <;> simp [h, ih]

theorem drop_takeWhile (q : α → Bool) (xs : List α) :
    xs.drop (xs.takeWhile q).length = xs.dropWhile q := by
  induction xs with
  | nil => rfl
  | cons x xs ih => by_cases h : q x = true <;> simp [h, ih]

/-- The range found: before it nothing satisfies the predicate, inside everything does, and the
    element after it does not; it is empty only if there is no such element. -/
theorem findRangeIf_spec (p : α → Bool) (xs : List α) :
    (findRangeIf p xs).1 ≤ (findRangeIf p xs).2.1 ∧ (findRangeIf p xs).2.1 ≤ xs.length ∧
    (∀ x ∈ xs.take (findRangeIf p xs).1, p x = false) ∧
    (∀ x ∈ (xs.drop (findRangeIf p xs).1).take ((findRangeIf p xs).2.1 - (findRangeIf p xs).1),
      p x = true) ∧
    (∀ x, xs[(findRangeIf p xs).2.1]? = some x → p x = false) ∧
    ((findRangeIf p xs).1 = (findRangeIf p xs).2.1 → (findRangeIf p xs).1 = xs.length) := by
  induction xs with
  | nil => simp [findRangeIf, findIf]
  | cons x xs ih =>
    by_cases h : p x = true
    · have e : findRangeIf p (x :: xs) = (0, 0 + 1 + (findIfNot p xs).1, [x] ++ (findIfNot p xs).2) := by
        simp [findRangeIf, findIf, h]
      rw [e]
      simp only [findIfNot_fst]
      have h1 := take_takeWhile p xs
      have h2 := drop_takeWhile p xs
      have h3 : (xs.takeWhile p).length ≤ xs.length := by
        have := (List.takeWhile_sublist (p := p) (l := xs)).length_le; exact this
      refine ⟨by omega, by simp; omega, by simp, ?_, ?_, by omega⟩
      · intro y hy
        simp only [List.drop_zero, Nat.sub_zero] at hy
        rw [show 0 + 1 + (xs.takeWhile p).length = (xs.takeWhile p).length + 1 by omega,
          List.take_succ_cons, h1] at hy
        rcases List.mem_cons.mp hy with rfl | hy
        · exact h
        · have := List.all_takeWhile (p := p) (l := xs)
          rw [List.all_eq_true] at this
          exact this y hy
      · intro y hy
        rw [show 0 + 1 + (xs.takeWhile p).length = (xs.takeWhile p).length + 1 by omega,
          List.getElem?_cons_succ] at hy
        have e2 : (xs.dropWhile p)[0]? = some y := by
          rw [← h2]; simpa [List.getElem?_drop] using hy
        have := List.head?_dropWhile_not p xs
        rw [← List.head?_eq_getElem?] at e2
        rw [e2] at this
        simpa using this
    · have e : (findRangeIf p (x :: xs)).1 = (findRangeIf p xs).1 + 1 ∧
          (findRangeIf p (x :: xs)).2.1 = (findRangeIf p xs).2.1 + 1 := by
        unfold findRangeIf
        simp only [findIf, h]
        by_cases h2 : (findIf p xs).1 = xs.length
        · simp [h2]
        · simp [h2]; omega
      obtain ⟨h1, h2, h3, h4, h5, h6⟩ := ih
      rw [e.1, e.2]
      refine ⟨by omega, by simp; omega, ?_, ?_, ?_, ?_⟩
      · intro y hy
        rw [List.take_succ_cons] at hy
        rcases List.mem_cons.mp hy with rfl | hy
        · simpa using h
        · exact h3 y hy
      · simpa [Nat.add_sub_add_right] using h4
      · simpa using h5
      · intro e; simp; omega

theorem filter_eq_nil_of {p : α → Bool} {xs : List α} (h : ∀ x ∈ xs, p x = true) :
    xs.filter (fun x => !p x) = [] := by
  simp [List.filter_eq_nil_iff]; exact h

theorem filter_eq_self_of {p : α → Bool} {xs : List α} (h : ∀ x ∈ xs, p x = false) :
    xs.filter (fun x => !p x) = xs := by
  rw [List.filter_eq_self]; intro a ha; simp [h a ha]

theorem split3 (xs : List α) {i j : Nat} (h : i ≤ j) :
    xs = xs.take i ++ ((xs.drop i).take (j - i) ++ xs.drop j) := by
  have e : xs.drop j = (xs.drop i).drop (j - i) := by rw [List.drop_drop]; congr 1; omega
  rw [e, List.take_append_drop, List.take_append_drop]

theorem eraseIfNode_fst (p : α → Bool) (pre rest post : List α) :
    (eraseIfNode p pre rest post).1 = pre ++ rest.filter (fun x => !p x) ++ post := by
  induction hn : rest.length using Nat.strongRecOn generalizing rest pre with
  | _ n ih =>
    unfold eraseIfNode
    by_cases h : rest = []
    · simp [h]
    · simp only [h, dite_false]
      obtain ⟨h1, h2, h3, h4, h5, h6⟩ := findRangeIf_spec p rest
      have hpos := findRangeIf_end_pos p h
      have hlen := List.length_pos_iff.mpr h
      rw [ih (rest.drop (findRangeIf p rest).2.1).length (by simp; omega) _ _ rfl]
      conv => rhs; rw [split3 rest h1]
      simp only [List.filter_append]
      rw [filter_eq_self_of h3, filter_eq_nil_of h4]
      simp

theorem findRangeIf_calls_le (p : α → Bool) {xs : List α} (h : xs ≠ []) :
    (findRangeIf p xs).2.2.length ≤ min ((findRangeIf p xs).2.1 + 1) xs.length := by
  unfold findRangeIf
  simp only
  by_cases h1 : (findIf p xs).1 = xs.length
  · simp [h1, findIf_calls]
  · have hl : (findIf p xs).1 ≤ xs.length := by
      rw [findIf_fst]; exact (List.takeWhile_sublist (p := fun x => !p x) (l := xs)).length_le
    simp [h1, findIf_calls, findIfNot_calls]
    omega

theorem eraseIfNode_calls_le (p : α → Bool) (pre rest post : List α) :
    (eraseIfNode p pre rest post).2.length ≤ 2 * rest.length - 1 := by
  induction hn : rest.length using Nat.strongRecOn generalizing rest pre with
  | _ n ih =>
    unfold eraseIfNode
    by_cases h : rest = []
    · simp [h]
    · simp only [h, dite_false, List.length_append]
      have hpos := findRangeIf_end_pos p h
      have hlen := List.length_pos_iff.mpr h
      have hc := findRangeIf_calls_le p h
      have := ih (rest.drop (findRangeIf p rest).2.1).length (by simp; omega)
        (pre ++ rest.take (findRangeIf p rest).1) _ rfl
      simp only [List.length_drop] at this
      omega

theorem removeIfLoop_spec (p : α → Bool) (done v0 rest post gap : List α) :
    ∃ gap' : List α,
      removeIfLoop p (done ++ gap ++ rest ++ post) (done.length + gap.length) done.length
        (done.length + gap.length + rest.length) =
      (done ++ rest.filter (fun x => !p x) ++ gap' ++ post,
        (done ++ rest.filter (fun x => !p x)).length, rest) ∧
      (rest.filter (fun x => !p x)).length + gap'.length = gap.length + rest.length := by
  induction rest generalizing done gap with
  | nil =>
    refine ⟨gap, ?_, by simp⟩
    unfold removeIfLoop; simp
  | cons x rest ih =>
    unfold removeIfLoop
    have hlt : done.length + gap.length < done.length + gap.length + (x :: rest).length := by simp
    have hget : (done ++ gap ++ (x :: rest) ++ post)[done.length + gap.length]? = some x := by
      rw [List.append_assoc, List.getElem?_append_right (by simp)]; simp
    simp only [hlt, dite_true, hget]
    by_cases hp : p x = true
    · obtain ⟨gap', h1, h2⟩ := ih done (gap ++ [x])
      refine ⟨gap', ?_, by simp [hp] at h2 ⊢; omega⟩
      simp only [hp, if_true]
      have e : done ++ gap ++ x :: rest ++ post = done ++ (gap ++ [x]) ++ rest ++ post := by simp
      have e2 : done.length + gap.length + 1 = done.length + (gap ++ [x]).length := by simp; omega
      have e3 : done.length + gap.length + (x :: rest).length =
          done.length + (gap ++ [x]).length + rest.length := by simp; omega
      rw [e, e2, e3, h1]
      simp [hp]
    · have hp' : p x = false := by simpa using hp
      have step : ∃ g2 : List α, (done ++ gap ++ x :: rest ++ post).set done.length x =
          (done ++ [x]) ++ g2 ++ rest ++ post ∧ g2.length = gap.length := by
        cases gap with
        | nil => exact ⟨[], by simp, rfl⟩
        | cons g gs => exact ⟨gs ++ [x], by simp, by simp⟩
      obtain ⟨g2, hs, hg⟩ := step
      obtain ⟨gap', h1, h2⟩ := ih (done ++ [x]) g2
      refine ⟨gap', ?_, by simp [hp', hg] at h2 ⊢; omega⟩
      simp only [hp', Bool.false_eq_true, if_false]
      have e2 : done.length + gap.length + 1 = (done ++ [x]).length + g2.length := by simp; omega
      have e3 : done.length + gap.length + (x :: rest).length =
          (done ++ [x]).length + g2.length + rest.length := by simp; omega
      have e4 : done.length + 1 = (done ++ [x]).length := by simp
      rw [hs, e2, e3, e4, h1]
      simp [hp']

theorem eraseIfBlock_spec (p : α → Bool) (v : List α) {f l : Nat} (hfl : f ≤ l)
    (hl : l ≤ v.length) :
    eraseIfBlock p v f l =
      (v.take f ++ ((v.drop f).take (l - f)).filter (fun x => !p x) ++ v.drop l,
        (v.drop f).take (l - f)) := by
  obtain ⟨gap', h1, h2⟩ := removeIfLoop_spec p (v.take f) [] ((v.drop f).take (l - f)) (v.drop l) []
  have hf : (v.take f).length = f := by simp; omega
  have hm : ((v.drop f).take (l - f)).length = l - f := by simp; omega
  have e := split3 v hfl
  rw [← List.append_assoc] at e
  have e' : v.take f ++ [] ++ (v.drop f).take (l - f) ++ v.drop l = v := by
    rw [List.append_nil]; exact e.symm
  rw [e', hf, hm] at h1
  simp only [List.length_nil, Nat.add_zero] at h1
  rw [show f + (l - f) = l by omega] at h1
  unfold eraseIfBlock removeIf eraseBlock
  rw [h1]
  simp only [List.length_nil, hm] at h2
  dsimp only
  congr 1
  congr 1
  · rw [List.append_assoc, List.take_left]
  · rw [List.drop_left' (by rw [List.length_append, List.length_append, hf]; omega)]

/-! ### copy -/

theorem copyBoundedLoop_spec (done mid post src : List α) (i : Nat) :
    copyBoundedLoop (done ++ mid ++ post) done.length (done.length + mid.length) i src =
      some (i + min src.length mid.length, done.length + min src.length mid.length,
        done ++ src.take mid.length ++ mid.drop src.length ++ post) := by
  induction src generalizing done mid i with
  | nil => simp [copyBoundedLoop]
  | cons x xs ih =>
    cases mid with
    | nil => simp [copyBoundedLoop]
    | cons m ms =>
      unfold copyBoundedLoop
      have := ih (done ++ [x]) ms (i + 1)
      have e1 : (done ++ m :: ms ++ post).set done.length x = done ++ [x] ++ ms ++ post := by simp
      have e2 : done.length + (m :: ms).length = (done ++ [x]).length + ms.length := by simp; omega
      have e3 : done.length + 1 = (done ++ [x]).length := by simp
      have c1 : (done.length != done.length + (m :: ms).length) = true := by simp
      have c2 : done.length < (done ++ m :: ms ++ post).length := by simp
      rw [if_pos c1, if_pos c2, e1, e2, e3, this]
      simp
      omega

theorem stdCopy_spec (done mid post src : List α) (h : src.length = mid.length) :
    stdCopy (done ++ mid ++ post) done.length src =
      some (done.length + src.length, done ++ src ++ post) := by
  induction src generalizing done mid with
  | nil => cases mid <;> simp_all [stdCopy]
  | cons x xs ih =>
    cases mid with
    | nil => simp at h
    | cons m ms =>
      unfold stdCopy
      have := ih (done ++ [x]) ms (by simpa using h)
      have e1 : (done ++ m :: ms ++ post).set done.length x = done ++ [x] ++ ms ++ post := by simp
      have e3 : done.length + 1 = (done ++ [x]).length := by simp
      have c2 : done.length < (done ++ m :: ms ++ post).length := by simp
      rw [if_pos c2, e1, e3, this]
      simp
      omega

theorem copyBoundedRA_spec (done mid post src : List α) :
    copyBoundedRA src (done ++ mid ++ post) done.length (done.length + mid.length) =
      some (min src.length mid.length, done.length + min src.length mid.length,
        done ++ src.take mid.length ++ mid.drop src.length ++ post) := by
  unfold copyBoundedRA copyN
  rw [if_pos (by omega)]
  have e : done ++ mid ++ post = done ++ mid.take src.length ++ (mid.drop src.length ++ post) := by
    rw [List.append_assoc done (mid.take _), ← List.append_assoc (mid.take _),
      List.take_append_drop, List.append_assoc]
  rw [Nat.add_sub_cancel_left, e, stdCopy_spec _ _ _ _ (by simp)]
  simp
  omega

theorem copyNLoop_spec (done mid post pre src : List α) (h : src.length = mid.length) (tl : List α) :
    copyNLoop (pre ++ src ++ tl) (done ++ mid ++ post) src.length done.length pre.length =
      some (pre.length + src.length, done.length + src.length, done ++ src ++ post) := by
  induction src generalizing done mid pre with
  | nil => cases mid <;> simp_all [copyNLoop]
  | cons x xs ih =>
    cases mid with
    | nil => simp at h
    | cons m ms =>
      have := ih (done ++ [x]) ms (pre ++ [x]) (by simpa using h)
      have hget : (pre ++ x :: xs ++ tl)[pre.length]? = some x := by
        rw [List.append_assoc, List.getElem?_append_right (by simp)]; simp
      have e1 : (done ++ m :: ms ++ post).set done.length x = done ++ [x] ++ ms ++ post := by simp
      have e3 : done.length + 1 = (done ++ [x]).length := by simp
      have e4 : pre.length + 1 = (pre ++ [x]).length := by simp
      have e5 : pre ++ x :: xs ++ tl = pre ++ [x] ++ xs ++ tl := by simp
      have c2 : done.length < (done ++ m :: ms ++ post).length := by simp
      simp only [copyNLoop, List.length_cons, hget]
      rw [if_pos c2, e1, e3, e4, e5, this]
      simp
      omega

theorem copySentinal_spec [BEq α] [LawfulBEq α] (s : α) (done mid post src tl : List α) (i : Nat)
    (hs : s ∉ src) (h : src.length = mid.length) :
    copySentinal s (done ++ mid ++ post) done.length i (src ++ s :: tl) =
      some (i + src.length, done.length + src.length, done ++ src ++ post) := by
  induction src generalizing done mid i with
  | nil => cases mid <;> simp_all [copySentinal]
  | cons x xs ih =>
    cases mid with
    | nil => simp at h
    | cons m ms =>
      have := ih (done ++ [x]) ms (i + 1) (by simp at hs; exact hs.2) (by simpa using h)
      have hx : (x != s) = true := by simp at hs ⊢; exact fun e => hs.1 e.symm
      have e1 : (done ++ m :: ms ++ post).set done.length x = done ++ [x] ++ ms ++ post := by simp
      have e3 : done.length + 1 = (done ++ [x]).length := by simp
      have c2 : done.length < (done ++ m :: ms ++ post).length := by simp
      simp only [copySentinal, List.cons_append]
      rw [if_pos hx, if_pos c2, e1, e3, this]
      simp
      omega

end Verif.Algo
