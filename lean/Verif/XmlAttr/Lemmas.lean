import Verif.XmlAttr.Spec
import Verif.Search.Props
namespace Verif.XmlAttr
open Spec

/-! ### Texts -/

theorem Tok.text_length (mem : Mem) (r : Tok) : (r.text mem).length = r.size := by simp [Tok.text]

theorem boundedEqual_iff (mem : Mem) (n1 : Nat) : ∀ f1 f2 n2, boundedEqual mem f1 n1 f2 n2 = true ↔
    (List.range' f1 n1).map mem = (List.range' f2 n2).map mem := by
  induction n1 with
  | zero => intro f1 f2 n2; cases n2 <;> simp [boundedEqual, List.range'_succ]
  | succ n1 ih =>
    intro f1 f2 n2
    cases n2 with
    | zero => simp [boundedEqual, List.range'_succ]
    | succ n2 =>
      simp only [boundedEqual, List.range'_succ, List.map_cons, List.cons.injEq]
      split
      · rename_i h; rw [ih]; simp [h]
      · rename_i h; simp [h]

theorem tokenRangeEqual_iff (mem : Mem) (x y : Tok) : tokenRangeEqual mem x y = true ↔ x.text mem = y.text mem := by
  unfold tokenRangeEqual Tok.text
  rw [Bool.and_eq_true, boundedEqual_iff]
  constructor
  · exact fun h => h.2
  · intro h
    refine ⟨?_, h⟩
    have := congrArg List.length h
    simpa using this

theorem mismatch_spec (mem : Mem) (n : Nat) : ∀ f1 f2,
    ((mismatch mem n f1 f2).1 = f1 + n ∧ (List.range' f1 n).map mem = (List.range' f2 n).map mem) ∨
    ((mismatch mem n f1 f2).1 ≠ f1 + n ∧ (List.range' f1 n).map mem ≠ (List.range' f2 n).map mem ∧
      (mem (mismatch mem n f1 f2).1 < mem (mismatch mem n f1 f2).2 ↔
        (List.range' f1 n).map mem < (List.range' f2 n).map mem)) := by
  induction n with
  | zero => intro f1 f2; left; simp [mismatch]
  | succ n ih =>
    intro f1 f2
    simp only [mismatch, List.range'_succ, List.map_cons]
    split
    · rename_i h
      rcases ih (f1 + 1) (f2 + 1) with ⟨h1, h2⟩ | ⟨h1, h2, h3⟩
      · left; exact ⟨by omega, by simp [h, h2]⟩
      · right
        refine ⟨by omega, by simp [h2], ?_⟩
        rw [h3, List.cons_lt_cons_iff]
        simp [h]
    · rename_i h
      right
      refine ⟨by simp, by simp [h], ?_⟩
      rw [List.cons_lt_cons_iff]
      simp [h]

theorem tokenRangeLess_iff (mem : Mem) (x y : Tok) :
    tokenRangeLess mem x y = true ↔ Shortlex (x.text mem) (y.text mem) := by
  unfold tokenRangeLess Shortlex
  rw [Tok.text_length, Tok.text_length]
  split
  · rename_i h; simp [h]
  · rename_i h
    split
    · rename_i h'; simp; omega
    · rename_i h'
      have hs : x.size = y.size := by omega
      have hm := mismatch_spec mem x.size x.first y.first
      unfold Tok.text
      rw [← hs]
      simp only [beq_iff_eq]
      rcases hm with ⟨h1, h2⟩ | ⟨h1, h2, h3⟩
      · rw [h2]; simp [h1, List.lt_irrefl]
      · simp [h1, h3]

theorem Shortlex.irrefl (x : List Nat) : ¬ Shortlex x x := by
  rintro (h | ⟨_, h⟩)
  · omega
  · exact List.lt_irrefl x h

theorem Shortlex.trans {x y z : List Nat} (h1 : Shortlex x y) (h2 : Shortlex y z) : Shortlex x z := by
  unfold Shortlex at *
  rcases h1 with h1 | ⟨h1, h1'⟩ <;> rcases h2 with h2 | ⟨h2, h2'⟩
  · left; omega
  · left; omega
  · left; omega
  · right; exact ⟨by omega, List.lt_trans h1' h2'⟩

theorem Shortlex.tri (x y : List Nat) : Shortlex x y ∨ x = y ∨ Shortlex y x := by
  unfold Shortlex
  rcases Nat.lt_trichotomy x.length y.length with h | h | h
  · left; left; exact h
  · by_cases h1 : x < y
    · left; right; exact ⟨h, h1⟩
    · by_cases h2 : y < x
      · right; right; right; exact ⟨h.symm, h2⟩
      · right; left
        exact List.le_antisymm (List.not_lt.1 h2) (List.not_lt.1 h1)
  · right; right; left; exact h

theorem Shortlex.asymm {x y : List Nat} (h1 : Shortlex x y) (h2 : Shortlex y x) : False := irrefl _ (trans h1 h2)

theorem less_total (mem : Mem) : StrictWeak (tokenRangeLess mem) where
  irrefl a := by
    cases h : tokenRangeLess mem a a with
    | false => rfl
    | true => exact absurd ((tokenRangeLess_iff _ _ _).1 h) (Shortlex.irrefl _)
  trans a b c h1 h2 := by
    rw [tokenRangeLess_iff] at *; exact Shortlex.trans h1 h2
  ntrans a b c h1 h2 := by
    cases h : tokenRangeLess mem a c with
    | false => rfl
    | true =>
      rw [tokenRangeLess_iff] at h
      have h1' : ¬ Shortlex (a.text mem) (b.text mem) := by rw [← tokenRangeLess_iff]; simp [h1]
      have h2' : ¬ Shortlex (b.text mem) (c.text mem) := by rw [← tokenRangeLess_iff]; simp [h2]
      exfalso
      rcases Shortlex.tri (a.text mem) (b.text mem) with h3 | h3 | h3
      · exact h1' h3
      · rw [h3] at h; exact h2' h
      · exact h2' (Shortlex.trans h3 h)

/-! ### Sorted sets -/

/-- The name of an attribute. -/
abbrev key (mem : Mem) (a : Attr) : List Nat := a.1.text mem

/-- Names strictly increasing. -/
def Sorted (mem : Mem) (s : List Attr) : Prop := s.Pairwise fun a b => Shortlex (key mem a) (key mem b)

theorem Sorted.unique {mem : Mem} {s : List Attr} (hs : Sorted mem s) {a b : Attr} (ha : a ∈ s) (hb : b ∈ s)
    (h : key mem a = key mem b) : a = b := by
  induction s with
  | nil => simp at ha
  | cons c s ih =>
    have hs' := List.pairwise_cons.1 hs
    rcases List.mem_cons.1 ha with ha | ha <;> rcases List.mem_cons.1 hb with hb | hb
    · rw [ha, hb]
    · have := hs'.1 b hb; rw [← ha, h] at this; exact absurd this (Shortlex.irrefl _)
    · have := hs'.1 a ha; rw [← hb, h] at this; exact absurd this (Shortlex.irrefl _)
    · exact ih hs'.2 ha hb

theorem Sorted.find {mem : Mem} {s : List Attr} (hs : Sorted mem s) {a : Attr} (ha : a ∈ s) :
    (s.find? fun b => decide (key mem b = key mem a)) = some a := by
  cases h : s.find? fun b => decide (key mem b = key mem a) with
  | none => have := List.find?_eq_none.1 h a ha; simp at this
  | some b =>
    have h1 := List.find?_some h
    have h2 := List.mem_of_find?_eq_some h
    rw [hs.unique h2 ha (by simpa using h1)]

theorem Sorted.findAs {mem : Mem} {s : List Attr} (hs : Sorted mem s) {a : Attr} (ha : a ∈ s) {k : List Nat}
    (hk : a.1.text mem = k) : (s.find? fun b => decide (b.1.text mem = k)) = some a := by
  subst hk; exact hs.find ha

theorem Sorted.find_none {mem : Mem} {s : List Attr} {k : List Nat} (h : ∀ b ∈ s, key mem b ≠ k) :
    (s.find? fun b => decide (key mem b = k)) = none := by
  rw [List.find?_eq_none]; intro b hb; simpa using h b hb

theorem Sorted.by {mem : Mem} {s : List Attr} (hs : Sorted mem s) : Search.SortedBy s (lessKeyOnly mem) id := by
  intro i j hi hj hij
  simp only [id, lessKeyOnly]
  cases h : tokenRangeLess mem s[j].1 s[i].1 with
  | false => rfl
  | true =>
    rw [tokenRangeLess_iff] at h
    exfalso
    rcases Nat.lt_or_eq_of_le hij with hlt | rfl
    · exact Shortlex.asymm h (List.pairwise_iff_getElem.1 hs i j hi hj hlt)
    · exact Shortlex.irrefl _ h

theorem strictWeak_key (mem : Mem) : StrictWeak (lessKeyOnly mem) where
  irrefl a := (less_total mem).irrefl _
  trans a b c := (less_total mem).trans _ _ _
  ntrans a b c := (less_total mem).ntrans _ _ _

theorem lowerBound_spec {mem : Mem} {s : List Attr} (hs : Sorted mem s) (a : Attr) :
    ∃ r found, lowerBound mem s a = some (r, found) ∧ r ≤ s.length ∧
      (∀ b ∈ s.take r, Shortlex (key mem b) (key mem a)) ∧
      (found = false → ∀ b ∈ s.drop r, Shortlex (key mem a) (key mem b)) ∧
      (found = true → ∃ h : r < s.length, key mem s[r] = key mem a) := by
  obtain ⟨r, hr, hle, h1, h2⟩ := Search.C01_lower_bound s (lessKeyOnly mem) id a
    (Search.SortedBy.partLower (strictWeak_key mem) hs.by a _ _)
  unfold lowerBound
  rw [hr]
  have htake : ∀ b ∈ s.take r, Shortlex (key mem b) (key mem a) := by
    intro b hb
    obtain ⟨i, hi, rfl⟩ := List.getElem_of_mem hb
    rw [List.length_take] at hi
    rw [List.getElem_take]
    have := h1 i (by omega) (by omega)
    exact (tokenRangeLess_iff _ _ _).1 this
  have hdrop : ∀ b ∈ s.drop r, ¬ Shortlex (key mem b) (key mem a) := by
    intro b hb
    obtain ⟨i, hi, rfl⟩ := List.getElem_of_mem hb
    rw [List.length_drop] at hi
    rw [List.getElem_drop]
    have := h2 (r + i) (by omega) (by omega)
    rw [← tokenRangeLess_iff]; simpa [lessKeyOnly] using this
  by_cases hl : r = s.length
  · refine ⟨r, false, by simp [hl], hle, htake, ?_, by simp⟩
    intro _ b hb; rw [hl] at hb; simp at hb
  · have hlt : r < s.length := by omega
    simp only [hl, if_false, List.getElem?_eq_getElem hlt]
    refine ⟨r, _, rfl, hle, htake, ?_, ?_⟩
    · intro hne b hb
      have hne' : key mem s[r] ≠ key mem a := by
        intro h0; rw [(tokenRangeEqual_iff _ _ _).2 h0] at hne; simp at hne
      have hd : s.drop r = s[r] :: s.drop (r + 1) := by simp
      have hr' : Shortlex (key mem a) (key mem s[r]) := by
        rcases Shortlex.tri (key mem a) (key mem s[r]) with h | h | h
        · exact h
        · exact absurd h.symm hne'
        · exact absurd h (hdrop _ (by rw [hd]; exact List.mem_cons_self))
      rw [hd] at hb
      rcases List.mem_cons.1 hb with rfl | hb
      · exact hr'
      · have hp : (s.drop r).Pairwise fun a b => Shortlex (key mem a) (key mem b) :=
          List.Pairwise.sublist (List.drop_sublist _ _) hs
        rw [hd] at hp
        exact Shortlex.trans hr' ((List.pairwise_cons.1 hp).1 b hb)
    · intro he; exact ⟨hlt, (tokenRangeEqual_iff _ _ _).1 he⟩

theorem insertIdx_eq {α : Type} {s : List α} {r : Nat} (h : r ≤ s.length) (a : α) :
    s.insertIdx r a = s.take r ++ a :: s.drop r := by
  induction s generalizing r with
  | nil => cases r <;> simp at h ⊢
  | cons x s ih =>
    cases r with
    | zero => simp
    | succ r => simp at h; simp [List.insertIdx_succ_cons, ih h]

/-- What `insert` does. -/
theorem insert_spec {mem : Mem} {s : List Attr} (hs : Sorted mem s) (a : Attr) :
    ∃ s' k', insert mem s a = some s' ∧ Sorted mem s' ∧ k'.text mem = key mem a ∧
      ∀ b, b ∈ s' ↔ (b ∈ s ∧ key mem b ≠ key mem a) ∨ b = (k', a.2) := by
  obtain ⟨r, found, h1, h2, h3, h4, h5⟩ := lowerBound_spec hs a
  unfold insert
  rw [h1]
  cases found with
  | false =>
    have h4' := h4 rfl
    refine ⟨_, a.1, rfl, ?_, rfl, ?_⟩
    · unfold Sorted
      rw [insertIdx_eq h2, List.pairwise_append, List.pairwise_cons]
      refine ⟨List.Pairwise.sublist (List.take_sublist _ _) hs, ⟨h4', List.Pairwise.sublist (List.drop_sublist _ _) hs⟩, ?_⟩
      intro b hb c hc
      rcases List.mem_cons.1 hc with rfl | hc
      · exact h3 b hb
      · exact Shortlex.trans (h3 b hb) (h4' c hc)
    · intro b
      rw [insertIdx_eq h2]
      have hmem : b ∈ s ↔ b ∈ s.take r ∨ b ∈ s.drop r := by
        conv => lhs; rw [← List.take_append_drop r s]
        exact List.mem_append
      have hne : b ∈ s → key mem b ≠ key mem a := by
        intro hb he
        rcases hmem.1 hb with hb | hb
        · have := h3 b hb; rw [he] at this; exact Shortlex.irrefl _ this
        · have := h4' b hb; rw [he] at this; exact Shortlex.irrefl _ this
      simp only [List.mem_append, List.mem_cons]
      constructor
      · rintro (h | h | h)
        · exact .inl ⟨hmem.2 (.inl h), hne (hmem.2 (.inl h))⟩
        · exact .inr h
        · exact .inl ⟨hmem.2 (.inr h), hne (hmem.2 (.inr h))⟩
      · rintro (⟨h, _⟩ | h)
        · rcases hmem.1 h with h | h
          · exact .inl h
          · exact .inr (.inr h)
        · exact .inr (.inl h)
  | true =>
    obtain ⟨hlt, hk⟩ := h5 rfl
    simp only [List.getElem?_eq_getElem hlt]
    refine ⟨_, s[r].1, rfl, ?_, hk, ?_⟩
    · have hkeys : ∀ i (hi : i < (s.set r (s[r].1, a.2)).length),
          key mem (s.set r (s[r].1, a.2))[i] = key mem (s[i]'(by simpa using hi)) := by
        intro i hi
        rw [List.getElem_set]
        split
        · rename_i h; subst h; rfl
        · rfl
      unfold Sorted
      rw [List.pairwise_iff_getElem]
      intro i j hi hj hij
      rw [hkeys i hi, hkeys j hj]
      exact List.pairwise_iff_getElem.1 hs i j _ _ hij
    · intro b
      constructor
      · intro hb
        obtain ⟨i, hi, rfl⟩ := List.getElem_of_mem hb
        have hi' : i < s.length := by simpa using hi
        rw [List.getElem_set]
        split
        · right; rfl
        · rename_i h
          left
          refine ⟨List.getElem_mem _, ?_⟩
          intro he
          rw [← hk] at he
          rcases Nat.lt_or_gt_of_ne h with h' | h'
          · have := List.pairwise_iff_getElem.1 hs r i hlt hi' h'; rw [he] at this; exact Shortlex.irrefl _ this
          · have := List.pairwise_iff_getElem.1 hs i r hi' hlt h'; rw [he] at this; exact Shortlex.irrefl _ this
      · rintro (⟨h, hne⟩ | rfl)
        · obtain ⟨i, hi, rfl⟩ := List.getElem_of_mem h
          have hir : r ≠ i := by rintro rfl; exact hne hk
          refine List.mem_iff_getElem.2 ⟨i, by simpa using hi, ?_⟩
          rw [List.getElem_set, if_neg hir]
        · exact List.mem_iff_getElem.2 ⟨r, by simpa using hlt, by simp⟩

/-! ### Unions and intersections -/

theorem setUnion_spec {α : Type} {lt : α → α → Bool} (hw : StrictWeak lt) : ∀ (xs ys : List α),
    xs.Pairwise (fun a b => lt a b = true) → ys.Pairwise (fun a b => lt a b = true) →
    (setUnion lt xs ys).Pairwise (fun a b => lt a b = true) ∧
    ∀ b, b ∈ setUnion lt xs ys ↔ b ∈ xs ∨ (b ∈ ys ∧ ∀ c ∈ xs, lt c b = true ∨ lt b c = true) := by
  intro xs ys
  induction xs, ys using setUnion.induct (lt := lt) with
  | case1 ys => intro _ h; simp [setUnion, h]
  | case2 xs h0 =>
    intro h _
    cases xs with
    | nil => simp [setUnion]
    | cons x xs => simp [setUnion, h]
  | case3 x xs y ys hxy ih =>
    intro h1 h2
    have h1' := List.pairwise_cons.1 h1
    obtain ⟨i1, i2⟩ := ih h1'.2 h2
    rw [setUnion, if_pos hxy]
    have hlow : ∀ b ∈ y :: ys, lt x b = true := by
      intro b hb
      rcases List.mem_cons.1 hb with rfl | hb
      · exact hxy
      · exact hw.trans _ _ _ hxy ((List.pairwise_cons.1 h2).1 b hb)
    constructor
    · rw [List.pairwise_cons]
      refine ⟨?_, i1⟩
      intro b hb
      rcases (i2 b).1 hb with hb | ⟨hb, -⟩
      · exact h1'.1 b hb
      · exact hlow b hb
    · intro b
      rw [List.mem_cons, i2]
      constructor
      · rintro (rfl | hb | ⟨hb, hc⟩)
        · simp
        · simp [hb]
        · refine .inr ⟨hb, ?_⟩
          intro c hc'
          rcases List.mem_cons.1 hc' with rfl | hc'
          · exact .inl (hlow b hb)
          · exact hc c hc'
      · rintro (hb | ⟨hb, hc⟩)
        · rcases List.mem_cons.1 hb with rfl | hb
          · simp
          · simp [hb]
        · exact .inr (.inr ⟨hb, fun c hc' => hc c (by simp [hc'])⟩)
  | case4 x xs y ys hxy hyx ih =>
    intro h1 h2
    have h2' := List.pairwise_cons.1 h2
    obtain ⟨i1, i2⟩ := ih h1 h2'.2
    rw [setUnion, if_neg hxy, if_pos hyx]
    have hlow : ∀ b ∈ x :: xs, lt y b = true := by
      intro b hb
      rcases List.mem_cons.1 hb with rfl | hb
      · exact hyx
      · exact hw.trans _ _ _ hyx ((List.pairwise_cons.1 h1).1 b hb)
    constructor
    · rw [List.pairwise_cons]
      refine ⟨?_, i1⟩
      intro b hb
      rcases (i2 b).1 hb with hb | ⟨hb, -⟩
      · exact hlow b hb
      · exact h2'.1 b hb
    · intro b
      rw [List.mem_cons, i2]
      constructor
      · rintro (rfl | hb | ⟨hb, hc⟩)
        · exact .inr ⟨by simp, fun c hc => .inr (hlow c hc)⟩
        · exact .inl hb
        · exact .inr ⟨by simp [hb], hc⟩
      · rintro (hb | ⟨hb, hc⟩)
        · exact .inr (.inl hb)
        · rcases List.mem_cons.1 hb with rfl | hb
          · simp
          · exact .inr (.inr ⟨hb, hc⟩)
  | case5 x xs y ys hxy hyx ih =>
    intro h1 h2
    have h1' := List.pairwise_cons.1 h1
    have h2' := List.pairwise_cons.1 h2
    obtain ⟨i1, i2⟩ := ih h1'.2 h2'.2
    simp only [Bool.not_eq_true] at hxy hyx
    rw [setUnion, if_neg (by simp [hxy]), if_neg (by simp [hyx])]
    have hlow : ∀ b ∈ ys, lt x b = true := by
      intro b hb
      have hyb := h2'.1 b hb
      cases h : lt x b with
      | true => rfl
      | false => have := hw.ntrans _ _ _ hyx h; rw [hyb] at this; simp at this
    constructor
    · rw [List.pairwise_cons]
      refine ⟨?_, i1⟩
      intro b hb
      rcases (i2 b).1 hb with hb | ⟨hb, -⟩
      · exact h1'.1 b hb
      · exact hlow b hb
    · intro b
      rw [List.mem_cons, i2]
      constructor
      · rintro (rfl | hb | ⟨hb, hc⟩)
        · simp
        · simp [hb]
        · refine .inr ⟨by simp [hb], ?_⟩
          intro c hc'
          rcases List.mem_cons.1 hc' with rfl | hc'
          · exact .inl (hlow b hb)
          · exact hc c hc'
      · rintro (hb | ⟨hb, hc⟩)
        · rcases List.mem_cons.1 hb with rfl | hb
          · simp
          · simp [hb]
        · rcases List.mem_cons.1 hb with rfl | hb
          · have := hc x (by simp)
            rw [hxy, hyx] at this; simp at this
          · exact .inr (.inr ⟨hb, fun c hc' => hc c (by simp [hc'])⟩)

theorem setIntersection_spec {α : Type} {lt : α → α → Bool} (hw : StrictWeak lt) : ∀ (xs ys : List α),
    xs.Pairwise (fun a b => lt a b = true) → ys.Pairwise (fun a b => lt a b = true) →
    setIntersection lt xs ys = xs.filter fun x => ys.any fun y => !lt x y && !lt y x := by
  intro xs ys
  induction xs, ys using setIntersection.induct (lt := lt) with
  | case1 ys => intro _ h; simp [setIntersection]
  | case2 xs h0 =>
    intro h _
    cases xs with
    | nil => simp [setIntersection]
    | cons x xs => simp [setIntersection]
  | case3 x xs y ys hxy ih =>
    intro h1 h2
    have h1' := List.pairwise_cons.1 h1
    rw [setIntersection, if_pos hxy, ih h1'.2 h2, List.filter_cons, if_neg]
    simp only [List.any_eq_true, not_exists, not_and, Bool.and_eq_true, Bool.not_eq_true']
    intro b hb hbx
    have : lt x b = true := by
      rcases List.mem_cons.1 hb with rfl | hb
      · exact hxy
      · exact hw.trans _ _ _ hxy ((List.pairwise_cons.1 h2).1 b hb)
    rw [this] at hbx; simp at hbx
  | case4 x xs y ys hxy hyx ih =>
    intro h1 h2
    have h2' := List.pairwise_cons.1 h2
    rw [setIntersection, if_neg hxy, if_pos hyx, ih h1 h2'.2]
    apply List.filter_congr
    intro b hb
    have : lt y b = true := by
      rcases List.mem_cons.1 hb with rfl | hb
      · exact hyx
      · exact hw.trans _ _ _ hyx ((List.pairwise_cons.1 h1).1 b hb)
    simp [this]
  | case5 x xs y ys hxy hyx ih =>
    intro h1 h2
    have h1' := List.pairwise_cons.1 h1
    have h2' := List.pairwise_cons.1 h2
    simp only [Bool.not_eq_true] at hxy hyx
    rw [setIntersection, if_neg (by simp [hxy]), if_neg (by simp [hyx]), ih h1'.2 h2'.2, List.filter_cons,
      if_pos (by simp [hxy, hyx])]
    congr 1
    apply List.filter_congr
    intro b hb
    have : lt y b = true := by
      have hxb := h1'.1 b hb
      cases h : lt y b with
      | true => rfl
      | false => have := hw.ntrans _ _ _ hxy h; rw [hxb] at this; simp at this
    simp [this]

theorem Sorted.keyPairwise {mem : Mem} {s : List Attr} (hs : Sorted mem s) :
    s.Pairwise fun a b => lessKeyOnly mem a b = true :=
  List.Pairwise.imp (fun h => (tokenRangeLess_iff _ _ _).2 h) hs

theorem keyIncomp (mem : Mem) (a b : Attr) :
    (!lessKeyOnly mem a b && !lessKeyOnly mem b a) = decide (key mem a = key mem b) := by
  simp only [lessKeyOnly]
  rw [Bool.eq_iff_iff]
  simp only [Bool.and_eq_true, Bool.not_eq_true', decide_eq_true_eq, ← Bool.not_eq_true, tokenRangeLess_iff]
  constructor
  · rintro ⟨h1, h2⟩
    rcases Shortlex.tri (key mem a) (key mem b) with h | h | h
    · exact absurd h h1
    · exact h
    · exact absurd h h2
  · intro h; simp only [key] at h; rw [h]; exact ⟨Shortlex.irrefl _, Shortlex.irrefl _⟩

theorem merge_spec {mem : Mem} {s t : List Attr} (hs : Sorted mem s) (ht : Sorted mem t) :
    Sorted mem (merge mem s t) ∧
    ∀ b, b ∈ merge mem s t ↔ b ∈ s ∨ (b ∈ t ∧ ∀ c ∈ s, key mem c ≠ key mem b) := by
  obtain ⟨h1, h2⟩ := setUnion_spec (strictWeak_key mem) s t hs.keyPairwise ht.keyPairwise
  refine ⟨List.Pairwise.imp (fun h => (tokenRangeLess_iff _ _ _).1 h) h1, ?_⟩
  intro b
  rw [merge, h2]
  have : ∀ c, (lessKeyOnly mem c b = true ∨ lessKeyOnly mem b c = true) ↔ key mem c ≠ key mem b := by
    intro c
    have := keyIncomp mem c b
    rw [Bool.eq_iff_iff] at this
    simp only [Bool.and_eq_true, Bool.not_eq_true', decide_eq_true_eq] at this
    rw [ne_eq, ← this]
    cases lessKeyOnly mem c b <;> cases lessKeyOnly mem b c <;> simp
  simp only [this]

theorem strictWeak_less (mem : Mem) : StrictWeak (less mem) where
  irrefl a := by simp [less, (less_total mem).irrefl]
  trans a b c h1 h2 := by
    have hw := less_total mem
    simp only [less, Bool.or_eq_true, Bool.and_eq_true, Bool.not_eq_true'] at *
    rcases h1 with h1 | ⟨h1, h1'⟩ <;> rcases h2 with h2 | ⟨h2, h2'⟩
    · exact .inl (hw.trans _ _ _ h1 h2)
    · left
      cases h : tokenRangeLess mem a.1 c.1 with
      | true => rfl
      | false => have := hw.ntrans _ _ _ h h2; rw [h1] at this; simp at this
    · left
      cases h : tokenRangeLess mem a.1 c.1 with
      | true => rfl
      | false => have := hw.ntrans _ _ _ h1 h; rw [h2] at this; simp at this
    · exact .inr ⟨hw.ntrans _ _ _ h2 h1, hw.trans _ _ _ h1' h2'⟩
  ntrans a b c h1 h2 := by
    have hw := less_total mem
    simp only [less, Bool.or_eq_false_iff, Bool.and_eq_false_iff, Bool.not_eq_false'] at *
    refine ⟨hw.ntrans _ _ _ h1.1 h2.1, ?_⟩
    rcases h1.2 with h3 | h3
    · left
      cases h : tokenRangeLess mem c.1 a.1 with
      | true => rfl
      | false => have := hw.ntrans _ _ _ h2.1 h; rw [h3] at this; simp at this
    · rcases h2.2 with h4 | h4
      · left
        cases h : tokenRangeLess mem c.1 a.1 with
        | true => rfl
        | false => have := hw.ntrans _ _ _ h h1.1; rw [h4] at this; simp at this
      · exact .inr (hw.ntrans _ _ _ h3 h4)

theorem Sorted.lessPairwise {mem : Mem} {s : List Attr} (hs : Sorted mem s) :
    s.Pairwise fun a b => less mem a b = true :=
  List.Pairwise.imp (fun h => by simp [less, (tokenRangeLess_iff _ _ _).2 h]) hs

theorem lessIncomp (mem : Mem) (a b : Attr) :
    (!less mem a b && !less mem b a) = decide (key mem a = key mem b ∧ a.2.text mem = b.2.text mem) := by
  have hk := keyIncomp mem a b
  have hv := keyIncomp mem (a.2, a.2) (b.2, b.2)
  simp only [lessKeyOnly, key] at hk hv
  rw [Bool.decide_and]
  simp only [key]
  rw [← hk, ← hv]
  simp only [less]
  cases tokenRangeLess mem a.1 b.1 <;> cases tokenRangeLess mem b.1 a.1 <;>
    cases tokenRangeLess mem a.2 b.2 <;> cases tokenRangeLess mem b.2 a.2 <;> rfl

theorem built_sorted {mem : Mem} {s : List Attr} (hb : Built mem s) : Sorted mem s := by
  induction hb with
  | empty => exact List.Pairwise.nil
  | insert _ h ih =>
    obtain ⟨s', k', h1, h2, -⟩ := insert_spec ih _
    rw [h1] at h; simp at h; rw [← h]; exact h2
  | merge _ _ ih1 ih2 => exact (merge_spec ih1 ih2).1

/-- `value` in terms of the elements. -/
theorem value_mem {mem : Mem} {s : List Attr} (hs : Sorted mem s) (k v : List Nat) :
    value mem s k = some v ↔ ∃ a ∈ s, key mem a = k ∧ a.2.text mem = v := by
  unfold value
  constructor
  · intro h
    cases hf : s.find? fun a => decide (a.1.text mem = k) with
    | none => rw [hf] at h; simp at h
    | some a =>
      rw [hf] at h; simp at h
      have h1 := List.find?_some hf
      exact ⟨a, List.mem_of_find?_eq_some hf, by simpa using h1, h⟩
  · rintro ⟨a, ha, rfl, rfl⟩
    have := hs.find ha
    simp only [key] at this
    rw [this]; rfl

theorem value_none {mem : Mem} {s : List Attr} (k : List Nat) :
    value mem s k = none ↔ ∀ a ∈ s, key mem a ≠ k := by
  unfold value
  rw [Option.map_eq_none_iff, List.find?_eq_none]
  simp

end Verif.XmlAttr
