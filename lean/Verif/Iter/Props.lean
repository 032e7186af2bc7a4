import Verif.Iter.Lemmas
/-
C129: a segmented range behaves as the sequence of the elements of its segments.
-/
namespace Verif.Iter
variable {α : Type}

/-- After any sequence of `++` and `--`, a segmented iterator is defined exactly when a cursor of the concatenation of
the segments is, and then it denotes the element at the cursor (none at the end).  The iterator is made for the
segments `[f, e)`; it can be moved back to earlier segments, since these belong to the same top range. -/
theorem C129_segmented_walk (segs : List (List α)) (f e : Nat) (hf : f ≤ e) (he : e ≤ segs.length) (ms : List Move) :
    ∃ i, mk segs f e = some i ∧
      (∀ k, walk (segs.take e).flatten.length ms (segs.take f).flatten.length = some k →
        ∃ j, run segs ms i = some j ∧ deref segs j = (segs.take e).flatten[k]?) ∧
      (walk (segs.take e).flatten.length ms (segs.take f).flatten.length = none → run segs ms i = none) := by
  obtain ⟨i, h1, h2⟩ := mk_at hf he
  refine ⟨i, h1, fun k hk => ?_, (run_at he ms i _ h2).1⟩
  obtain ⟨j, h3, h4⟩ := (run_at he ms i _ h2).2 k hk
  exact ⟨j, h3, at_deref h4⟩

/-- Two segmented iterators of one range compare equal exactly when they are at the same element (or both at the end),
however they came there; the comparison is always defined. -/
theorem C129_segmented_equal (segs : List (List α)) (f g e : Nat) (hf : f ≤ e) (hg : g ≤ e) (he : e ≤ segs.length)
    (ms ns : List Move) (k m : Nat)
    (hk : walk (segs.take e).flatten.length ms (segs.take f).flatten.length = some k)
    (hm : walk (segs.take e).flatten.length ns (segs.take g).flatten.length = some m) :
    ∃ x y, (mk segs f e).bind (run segs ms) = some x ∧ (mk segs g e).bind (run segs ns) = some y ∧
      equal x y = some (decide (k = m)) := by
  obtain ⟨i, h1, h2⟩ := mk_at hf he
  obtain ⟨i', h1', h2'⟩ := mk_at hg he
  obtain ⟨j, h3, h4⟩ := (run_at he ms i _ h2).2 k hk
  obtain ⟨j', h3', h4'⟩ := (run_at he ns i' _ h2').2 m hm
  exact ⟨j, j', by simp [h1, h3], by simp [h1', h3'], by rw [at_equal h4 h4']; rfl⟩

theorem forLoop_at {segs : List (List α)} {e : Nat} (he : e ≤ segs.length) {l : Seg}
    (hl : At segs e l (elementsBefore segs e)) :
    ∀ fuel i k, At segs e i k → elementsBefore segs e - k < fuel →
      forLoop segs fuel i l = some ((segs.take e).flatten.drop k) := by
  intro fuel
  induction fuel with
  | zero => intro i k _ h; omega
  | succ n ih =>
    intro i k h hn
    have hle := at_le h
    unfold forLoop
    rw [at_equal h hl]
    by_cases hk : k = elementsBefore segs e
    · subst hk
      simp [elementsBefore]
    · have hk' : k < (segs.take e).flatten.length := by unfold elementsBefore at hk hle; omega
      obtain ⟨j, h1, h2⟩ := (at_inc he h).2 (by omega)
      rw [beq_eq_false_iff_ne.2 hk]
      have := ih j _ h2 (by omega)
      simp only [at_deref h, h1, Option.bind_eq_bind, Option.bind_some, this]
      rw [List.getElem?_eq_getElem hk', List.drop_eq_getElem_cons hk']
      rfl

theorem backLoop_at {segs : List (List α)} {e : Nat} (he : e ≤ segs.length) {b : Seg} (hb : At segs e b 0) :
    ∀ fuel i k, At segs e i k → k < fuel →
      backLoop segs fuel b i = some ((segs.take e).flatten.take k).reverse := by
  intro fuel
  induction fuel with
  | zero => intro i k _ h; omega
  | succ n ih =>
    intro i k h hn
    have hle := at_le h
    unfold backLoop
    rw [at_equal h hb]
    cases k with
    | zero => simp
    | succ k =>
      have hk' : k < (segs.take e).flatten.length := by unfold elementsBefore at hle; omega
      obtain ⟨j, h1, h2⟩ := (at_dec he h).2 (by omega)
      simp only [Nat.add_sub_cancel] at h2
      have : (k + 1 == 0) = false := rfl
      simp only [this, h1, at_deref h2, ih j k h2 (by omega), Option.bind_eq_bind, Option.bind_some]
      rw [List.getElem?_eq_getElem hk', List.take_succ_eq_append_getElem hk', List.reverse_append]
      rfl

/-- Walking over a segmented range, forwards and backwards, visits the elements of all the segments, each once and in
order, whatever segments are empty. -/
theorem C129_segmented_traversal (segs : List (List α)) (fuel : Nat) (hfuel : segs.flatten.length < fuel) :
    ∃ b e, makeRange segs = some (b, e) ∧ forLoop segs fuel b e = some segs.flatten ∧
      backLoop segs fuel b e = some segs.flatten.reverse := by
  obtain ⟨b, h1, h2⟩ := mk_at (segs := segs) (f := 0) (e := segs.length) (Nat.zero_le _) (Nat.le_refl _)
  obtain ⟨e, g1, g2⟩ := mk_at (segs := segs) (f := segs.length) (e := segs.length) (Nat.le_refl _) (Nat.le_refl _)
  have h0 : elementsBefore segs 0 = 0 := by simp [elementsBefore]
  have hn : elementsBefore segs segs.length = segs.flatten.length := by simp [elementsBefore]
  rw [h0] at h2
  refine ⟨b, e, by simp [makeRange, h1, g1], ?_, ?_⟩
  · rw [forLoop_at (Nat.le_refl _) g2 fuel b 0 h2 (by omega)]; simp
  · rw [backLoop_at (Nat.le_refl _) h2 fuel e _ g2 (by omega), hn, List.take_length, List.take_length]

/-- The two ends of a segmented range are equal exactly when all the segments are empty. -/
theorem C129_segmented_empty (segs : List (List α)) :
    ∃ b e, makeRange segs = some (b, e) ∧ equal b e = some (decide (∀ l ∈ segs, l = [])) := by
  obtain ⟨b, h1, h2⟩ := mk_at (segs := segs) (f := 0) (e := segs.length) (Nat.zero_le _) (Nat.le_refl _)
  obtain ⟨e, g1, g2⟩ := mk_at (segs := segs) (f := segs.length) (e := segs.length) (Nat.le_refl _) (Nat.le_refl _)
  refine ⟨b, e, by simp [makeRange, h1, g1], ?_⟩
  rw [at_equal h2 g2]
  have h0 : elementsBefore segs 0 = 0 := by simp [elementsBefore]
  have hn : elementsBefore segs segs.length = segs.flatten.length := by simp [elementsBefore]
  rw [h0, hn]
  congr 1
  rw [Bool.eq_iff_iff]
  simp only [beq_iff_eq, decide_eq_true_eq]
  rw [eq_comm, List.length_eq_zero_iff, List.flatten_eq_nil_iff]

end Verif.Iter
