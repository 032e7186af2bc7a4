import Verif.Json.Numbers
/-
Values: whatever the parser takes is a JSON text with the value it returns, and it takes every JSON text.
-/
namespace Verif.Json
open Spec

variable {N : Type} {strtod : List Nat → Option N}

theorem isBool_inv {s r : List Nat} {o : Option Bool} (h : isBool s = .ok o r) :
    (o = some true ∧ s = ascii "true" ++ r) ∨ (o = some false ∧ s = ascii "false" ++ r) ∨ (o = none ∧ r = s) := by
  unfold isBool at h
  replace h := bind_inv h
  obtain ⟨b, s1, h1, h⟩ := h
  rcases isSequence_inv (d := 0x74) (lit := [0x72, 0x75, 0x65]) h1 with ⟨rfl, h2⟩ | ⟨rfl, rfl, _⟩
  · cases h; exact Or.inl ⟨rfl, h2⟩
  · simp only [Bool.false_eq_true, if_false] at h
    replace h := bind_inv h
    obtain ⟨b, s2, h3, h⟩ := h
    rcases isSequence_inv (d := 0x66) (lit := [0x61, 0x6C, 0x73, 0x65]) h3 with ⟨rfl, h4⟩ | ⟨rfl, rfl, _⟩
    · cases h; exact Or.inr (Or.inl ⟨rfl, h4⟩)
    · cases h; exact Or.inr (Or.inr ⟨rfl, rfl⟩)

theorem isNull_inv {s r : List Nat} {b : Bool} (h : isNull s = .ok b r) : (b = true ∧ s = ascii "null" ++ r) ∨ (b = false ∧ r = s) := by
  rcases isSequence_inv (d := 0x6E) (lit := [0x75, 0x6C, 0x6C]) h with ⟨rfl, h4⟩ | ⟨rfl, rfl, _⟩
  · exact Or.inl ⟨rfl, h4⟩
  · exact Or.inr ⟨rfl, rfl⟩

/-! ### soundness -/

/-- what one call of each function tells of the text -/
structure Sound (strtod : List Nat → Option N) (n : Nat) : Prop where
  value : ∀ {s r : List Nat} {o : Option (Value N)}, isValue strtod n s = .ok o r → (∃ c s', s = c :: s' ∧ ws c = false) →
    (∃ v t w, o = some v ∧ Text Taken strtod t v ∧ IsWs w ∧ s = t ++ (w ++ r)) ∨ (o = none ∧ r = s)
  object : ∀ {s r : List Nat} {o : Option (Value N)}, isObject strtod n s = .ok o r →
    ∃ w c r', IsWs w ∧ r = c :: r' ∧ ws c = false ∧
      ((∃ v t w', o = some v ∧ (∃ ms, v = .obj ms) ∧ Text Taken strtod t v ∧ IsWs w' ∧ s = w ++ (t ++ (w' ++ r))) ∨ (o = none ∧ c ≠ 0x7B ∧ s = w ++ r))
  array : ∀ {s r : List Nat} {o : Option (Value N)}, isArray strtod n s = .ok o r →
    ∃ w c r', IsWs w ∧ r = c :: r' ∧ ws c = false ∧
      ((∃ v t w', o = some v ∧ (∃ vs, v = .arr vs) ∧ Text Taken strtod t v ∧ IsWs w' ∧ s = w ++ (t ++ (w' ++ r))) ∨ (o = none ∧ c ≠ 0x5B ∧ s = w ++ r))
  members : ∀ {s r : List Nat} {o o' : List (List Nat × Value N)}, members strtod n o s = .ok o' r →
    ∃ w c r', IsWs w ∧ r = c :: r' ∧ ws c = false ∧
      ((o' = o ∧ s = w ++ r) ∨ (∃ t ms, Members Taken strtod t ms ∧ s = w ++ 0x2C :: (t ++ r) ∧ o' = ms.foldl (fun o m => assign o (cut m.1) m.2) o))
  elements : ∀ {s r : List Nat} {a a' : List (Value N)}, elements strtod n a s = .ok a' r →
    ∃ w c r', IsWs w ∧ r = c :: r' ∧ ws c = false ∧
      ((a' = a ∧ s = w ++ r) ∨ (∃ t vs, Elems Taken strtod t vs ∧ s = w ++ 0x2C :: (t ++ r) ∧ a' = a ++ vs))

theorem sound_zero : Sound strtod 0 where
  value := by intro _ _ _ h; cases h
  object := by intro _ _ _ h; cases h
  array := by intro _ _ _ h; cases h
  members := by intro _ _ _ _ h; cases h
  elements := by intro _ _ _ _ h; cases h

theorem sound_value {n : Nat} (ih : Sound strtod n) {s r : List Nat} {o : Option (Value N)} (h : isValue strtod (n + 1) s = .ok o r)
    (hs : ∃ c s', s = c :: s' ∧ ws c = false) :
    (∃ v t w, o = some v ∧ Text Taken strtod t v ∧ IsWs w ∧ s = t ++ (w ++ r)) ∨ (o = none ∧ r = s) := by
  obtain ⟨c, s', hs, hc⟩ := hs
  unfold isValue at h
  replace h := bind_inv h
  obtain ⟨o1, s1, h1, h⟩ := h
  rcases isString_inv h1 with ⟨x, t, rfl, h2, h3⟩ | ⟨rfl, rfl, _⟩
  · cases h
    exact Or.inl ⟨_, _, [], rfl, Text.str t x h2, wsNil, by rw [h3]; simp⟩
  simp only at h
  replace h := bind_inv h
  obtain ⟨o2, s2, h1, h⟩ := h
  rcases isNumber_inv h1 with ⟨x, t, rfl, h2, h3, h4⟩ | ⟨rfl, rfl, _⟩
  · cases h
    exact Or.inl ⟨_, _, [], rfl, Text.num t x h2 h3, wsNil, by rw [h4]; simp⟩
  simp only at h
  replace h := bind_inv h
  obtain ⟨o3, s3, h1, h⟩ := h
  obtain ⟨w, c3, r3, g1, g2, g3, g4⟩ := ih.object h1
  have hw : ∀ t, s2 = w ++ t → w = [] := by
    intro t e
    cases w with
    | nil => rfl
    | cons d w =>
      rw [hs] at e
      cases e
      have := ws_iff.2 (g1 c (by simp))
      rw [hc] at this; cases this
  rcases g4 with ⟨v, t, w', rfl, _, g5, g6, g7⟩ | ⟨rfl, _, g5⟩
  · cases h
    have := hw _ g7
    subst this
    exact Or.inl ⟨v, t, w', rfl, g5, g6, g7⟩
  have := hw _ g5
  subst this
  rw [List.nil_append] at g5
  subst g5
  simp only at h
  replace h := bind_inv h
  obtain ⟨o4, s4, h1, h⟩ := h
  clear g1 hw
  obtain ⟨w, c4, r4, g1, g2', g3', g4⟩ := ih.array h1
  have hw : ∀ t, s2 = w ++ t → w = [] := by
    intro t e
    cases w with
    | nil => rfl
    | cons d w =>
      rw [hs] at e
      cases e
      have := ws_iff.2 (g1 c (by simp))
      rw [hc] at this; cases this
  rcases g4 with ⟨v, t, w', rfl, _, g5, g6, g7⟩ | ⟨rfl, _, g5⟩
  · cases h
    have := hw _ g7
    subst this
    exact Or.inl ⟨v, t, w', rfl, g5, g6, g7⟩
  have := hw _ g5
  subst this
  rw [List.nil_append] at g5
  subst g5
  simp only at h
  replace h := bind_inv h
  obtain ⟨o5, s5, h1, h⟩ := h
  rcases isBool_inv h1 with ⟨rfl, h2⟩ | ⟨rfl, h2⟩ | ⟨rfl, rfl⟩
  · cases h
    exact Or.inl ⟨_, _, [], rfl, Text.true, wsNil, h2⟩
  · cases h
    exact Or.inl ⟨_, _, [], rfl, Text.false, wsNil, h2⟩
  simp only at h
  replace h := bind_inv h
  obtain ⟨o6, s6, h1, h⟩ := h
  rcases isNull_inv h1 with ⟨rfl, h2⟩ | ⟨rfl, rfl⟩
  · cases h
    exact Or.inl ⟨_, _, [], rfl, Text.null, wsNil, h2⟩
  · cases h
    exact Or.inr ⟨rfl, rfl⟩

theorem sound_elements {n : Nat} (ih : Sound strtod n) {s r : List Nat} {a a' : List (Value N)} (h : elements strtod (n + 1) a s = .ok a' r) :
    ∃ w c r', IsWs w ∧ r = c :: r' ∧ ws c = false ∧
      ((a' = a ∧ s = w ++ r) ∨ (∃ t vs, Elems Taken strtod t vs ∧ s = w ++ 0x2C :: (t ++ r) ∧ a' = a ++ vs)) := by
  unfold elements at h
  replace h := bind_inv h
  obtain ⟨b, s1, h1, h⟩ := h
  obtain ⟨w, c, r', g1, g2, g3, g4⟩ := isStructural_inv h1
  rcases g4 with ⟨rfl, w1, g5, g6⟩ | ⟨rfl, _, g5⟩
  · simp only [Bool.not_true, Bool.false_eq_true, if_false] at h
    replace h := bind_inv h
    obtain ⟨o, s2, h2, h⟩ := h
    rcases ih.value h2 ⟨c, r', g2, g3⟩ with ⟨v, t, w2, rfl, h3, h4, h5⟩ | ⟨rfl, _⟩
    · obtain ⟨w3, c3, r3, k1, k2, k3, k4⟩ := ih.elements h
      refine ⟨w, c3, r3, g1, k2, k3, Or.inr ?_⟩
      rcases k4 with ⟨rfl, k5⟩ | ⟨t', vs, k5, k6, rfl⟩
      · refine ⟨_, _, Elems.one w1 t (w2 ++ w3) v g5 h3 (wsApp h4 k1), ?_, rfl⟩
        rw [g6, h5, k5]; simp
      · refine ⟨_, _, Elems.cons w1 t (w2 ++ w3) t' v vs g5 h3 (wsApp h4 k1) k5, ?_, by simp⟩
        rw [g6, h5, k6]; simp
    · cases h
  · cases h
    exact ⟨w, c, r', g1, g2, g3, Or.inl ⟨rfl, g5⟩⟩

theorem sound_members {n : Nat} (ih : Sound strtod n) {s r : List Nat} {o o' : List (List Nat × Value N)} (h : members strtod (n + 1) o s = .ok o' r) :
    ∃ w c r', IsWs w ∧ r = c :: r' ∧ ws c = false ∧
      ((o' = o ∧ s = w ++ r) ∨ (∃ t ms, Members Taken strtod t ms ∧ s = w ++ 0x2C :: (t ++ r) ∧ o' = ms.foldl (fun o m => assign o (cut m.1) m.2) o)) := by
  unfold members at h
  replace h := bind_inv h
  obtain ⟨b, s1, h1, h⟩ := h
  obtain ⟨w, c, r', g1, g2, g3, g4⟩ := isStructural_inv h1
  rcases g4 with ⟨rfl, w1, g5, g6⟩ | ⟨rfl, _, g5⟩
  · simp only [Bool.not_true, Bool.false_eq_true, if_false] at h
    replace h := bind_inv h
    obtain ⟨ok, s2, h2, h⟩ := h
    rcases isString_inv h2 with ⟨k, kt, rfl, h3, h4⟩ | ⟨rfl, _⟩
    · simp only at h
      replace h := bind_inv h
      obtain ⟨b, s3, h5, h⟩ := h
      replace h := bind_inv h
      obtain ⟨_, s4, h6, h⟩ := h
      obtain ⟨rfl, rfl⟩ := require_inv h6
      obtain ⟨w2, c2, r2, l1, l2, l3, l4⟩ := isStructural_inv h5
      rcases l4 with ⟨_, w2', l5, l6⟩ | ⟨l4, _⟩
      · replace h := bind_inv h
        obtain ⟨o, s5, h7, h⟩ := h
        rcases ih.value h7 ⟨c2, r2, l2, l3⟩ with ⟨v, t, w4, rfl, m3, m4, m5⟩ | ⟨rfl, _⟩
        · obtain ⟨w3, c3, r3, k1, k2, k3, k4⟩ := ih.members h
          refine ⟨w, c3, r3, g1, k2, k3, Or.inr ?_⟩
          rcases k4 with ⟨rfl, k5⟩ | ⟨t', vs, k5, k6, rfl⟩
          · refine ⟨_, _, Members.one w1 kt w2 w2' t (w4 ++ w3) k v g5 h3 l1 l5 m3 (wsApp m4 k1), ?_, rfl⟩
            rw [g6, h4, l6, m5, k5]; simp
          · refine ⟨_, _, Members.cons w1 kt w2 w2' t (w4 ++ w3) t' k v vs g5 h3 l1 l5 m3 (wsApp m4 k1) k5, ?_, by simp⟩
            rw [g6, h4, l6, m5, k6]; simp
        · cases h
      · cases l4
    · cases h
  · cases h
    exact ⟨w, c, r', g1, g2, g3, Or.inl ⟨rfl, g5⟩⟩

theorem sound_array {n : Nat} (ih : Sound strtod n) {s r : List Nat} {o : Option (Value N)} (h : isArray strtod (n + 1) s = .ok o r) :
    ∃ w c r', IsWs w ∧ r = c :: r' ∧ ws c = false ∧
      ((∃ v t w', o = some v ∧ (∃ vs, v = .arr vs) ∧ Text Taken strtod t v ∧ IsWs w' ∧ s = w ++ (t ++ (w' ++ r))) ∨ (o = none ∧ c ≠ 0x5B ∧ s = w ++ r)) := by
  unfold isArray at h
  replace h := bind_inv h
  obtain ⟨b, s1, h1, h⟩ := h
  obtain ⟨w, c, r', g1, g2, g3, g4⟩ := isStructural_inv h1
  rcases g4 with ⟨rfl, w1, g5, g6⟩ | ⟨rfl, g4, g5⟩
  · simp only [Bool.not_true, Bool.false_eq_true, if_false] at h
    replace h := bind_inv h
    obtain ⟨ov, s2, h2, h⟩ := h
    rcases ih.value h2 ⟨c, r', g2, g3⟩ with ⟨v, t, w2, rfl, h3, h4, h5⟩ | ⟨rfl, h3⟩
    · simp only at h
      replace h := bind_inv h
      obtain ⟨arr, s3, h6, h⟩ := h
      replace h := bind_inv h
      obtain ⟨b, s4, h7, h⟩ := h
      replace h := bind_inv h
      obtain ⟨_, s5, h8, h⟩ := h
      obtain ⟨rfl, rfl⟩ := require_inv h8
      cases h
      obtain ⟨w3, c3, r3, k1, k2, k3, k4⟩ := isStructural_inv h7
      obtain ⟨w4, c4, r4, l1, l2, l3, l4⟩ := ih.elements h6
      rcases k4 with ⟨_, w3', k5, k6⟩ | ⟨k4, _⟩
      · refine ⟨w, c3, r3, g1, k2, k3, Or.inl ?_⟩
        rcases l4 with ⟨rfl, l5⟩ | ⟨t', vs, l5, l6, rfl⟩
        · refine ⟨_, _, w3', rfl, ⟨_, rfl⟩, Text.arr _ _ (Elems.one w1 t (w2 ++ w4 ++ w3) v g5 h3 (wsApp (wsApp h4 l1) k1)), k5, ?_⟩
          rw [g6, h5, l5, k6]; simp
        · rw [l2] at k6
          cases w3 with
          | nil =>
            rw [List.nil_append] at k6
            refine ⟨_, _, w3', rfl, ⟨_, rfl⟩, Text.arr _ _ (Elems.cons w1 t (w2 ++ w4) t' v vs g5 h3 (wsApp h4 l1) l5), k5, ?_⟩
            rw [g6, h5, l6, l2, k6]; simp
          | cons d w3 =>
            cases k6
            have := ws_iff.2 (k1 c4 (by simp))
            rw [l3] at this; cases this
      · cases k4
    · simp only at h
      replace h := bind_inv h
      obtain ⟨arr, s3, h6, h⟩ := h
      cases h6
      replace h := bind_inv h
      obtain ⟨b, s4, h7, h⟩ := h
      replace h := bind_inv h
      obtain ⟨_, s5, h8, h⟩ := h
      obtain ⟨rfl, rfl⟩ := require_inv h8
      cases h
      obtain ⟨w3, c3, r3, k1, k2, k3, k4⟩ := isStructural_inv h7
      rcases k4 with ⟨_, w3', k5, k6⟩ | ⟨k4, _⟩
      · refine ⟨w, c3, r3, g1, k2, k3, Or.inl ⟨_, _, w3', rfl, ⟨_, rfl⟩, Text.arr0 (w1 ++ w3) (wsApp g5 k1), k5, ?_⟩⟩
        rw [g6, ← h3, k6]; simp
      · cases k4
  · cases h
    exact ⟨w, c, r', g1, g2, g3, Or.inr ⟨rfl, g4, g5⟩⟩

theorem sound_object {n : Nat} (ih : Sound strtod n) {s r : List Nat} {o : Option (Value N)} (h : isObject strtod (n + 1) s = .ok o r) :
    ∃ w c r', IsWs w ∧ r = c :: r' ∧ ws c = false ∧
      ((∃ v t w', o = some v ∧ (∃ ms, v = .obj ms) ∧ Text Taken strtod t v ∧ IsWs w' ∧ s = w ++ (t ++ (w' ++ r))) ∨ (o = none ∧ c ≠ 0x7B ∧ s = w ++ r)) := by
  unfold isObject at h
  replace h := bind_inv h
  obtain ⟨b, s1, h1, h⟩ := h
  obtain ⟨w, c, r', g1, g2, g3, g4⟩ := isStructural_inv h1
  rcases g4 with ⟨rfl, w1, g5, g6⟩ | ⟨rfl, g4, g5⟩
  · simp only [Bool.not_true, Bool.false_eq_true, if_false] at h
    replace h := bind_inv h
    obtain ⟨ok, s2, h2, h⟩ := h
    rcases isString_inv h2 with ⟨k, kt, rfl, h3, h4⟩ | ⟨rfl, h3, _⟩
    · simp only at h
      replace h := bind_inv h
      obtain ⟨b, s4, h7, h⟩ := h
      replace h := bind_inv h
      obtain ⟨_, s5, h8, h⟩ := h
      obtain ⟨rfl, rfl⟩ := require_inv h8
      replace h := bind_inv h
      obtain ⟨ov, s6, h9, h⟩ := h
      obtain ⟨w2, c2, r2, l1, l2, l3, l4⟩ := isStructural_inv h7
      rcases l4 with ⟨_, w2', l5, l6⟩ | ⟨l4, _⟩
      · rcases ih.value h9 ⟨c2, r2, l2, l3⟩ with ⟨v, t, w4, rfl, m3, m4, m5⟩ | ⟨rfl, _⟩
        · simp only at h
          replace h := bind_inv h
          obtain ⟨arr, s3, h6, h⟩ := h
          replace h := bind_inv h
          obtain ⟨b, s7, h10, h⟩ := h
          replace h := bind_inv h
          obtain ⟨_, s8, h11, h⟩ := h
          obtain ⟨rfl, rfl⟩ := require_inv h11
          cases h
          obtain ⟨w5, c5, r5, k1, k2, k3, k4⟩ := isStructural_inv h10
          obtain ⟨w6, c6, r6, p1, p2, p3, p4⟩ := ih.members h6
          rcases k4 with ⟨_, w3', k5, k6⟩ | ⟨k4, _⟩
          · refine ⟨w, c5, r5, g1, k2, k3, Or.inl ?_⟩
            rcases p4 with ⟨rfl, p5⟩ | ⟨t', ms, p5, p6, rfl⟩
            · refine ⟨_, _, w3', rfl, ⟨_, rfl⟩, Text.obj _ _ (Members.one w1 kt w2 w2' t (w4 ++ w6 ++ w5) k v g5 h3 l1 l5 m3 (wsApp (wsApp m4 p1) k1)), k5, ?_⟩
              rw [g6, h4, l6, m5, p5, k6]; simp
            · rw [p2] at k6
              cases w5 with
              | nil =>
                rw [List.nil_append] at k6
                refine ⟨_, _, w3', rfl, ⟨_, rfl⟩, Text.obj _ _ (Members.cons w1 kt w2 w2' t (w4 ++ w6) t' k v ms g5 h3 l1 l5 m3 (wsApp m4 p1) p5), k5, ?_⟩
                rw [g6, h4, l6, m5, p6, p2, k6]; simp
              | cons d w5 =>
                cases k6
                have := ws_iff.2 (k1 c6 (by simp))
                rw [p3] at this; cases this
          · cases k4
        · cases h
      · cases l4
    · simp only at h
      replace h := bind_inv h
      obtain ⟨arr, s3, h6, h⟩ := h
      cases h6
      replace h := bind_inv h
      obtain ⟨b, s4, h7, h⟩ := h
      replace h := bind_inv h
      obtain ⟨_, s5, h8, h⟩ := h
      obtain ⟨rfl, rfl⟩ := require_inv h8
      cases h
      obtain ⟨w3, c3, r3, k1, k2, k3, k4⟩ := isStructural_inv h7
      rcases k4 with ⟨_, w3', k5, k6⟩ | ⟨k4, _⟩
      · refine ⟨w, c3, r3, g1, k2, k3, Or.inl ⟨_, _, w3', rfl, ⟨_, rfl⟩, Text.obj0 (w1 ++ w3) (wsApp g5 k1), k5, ?_⟩⟩
        rw [g6, ← h3, k6]; simp
      · cases k4
  · cases h
    exact ⟨w, c, r', g1, g2, g3, Or.inr ⟨rfl, g4, g5⟩⟩

theorem sound (n : Nat) : Sound strtod n := by
  induction n with
  | zero => exact sound_zero
  | succ n ih => exact ⟨sound_value ih, sound_object ih, sound_array ih, sound_members ih, sound_elements ih⟩

end Verif.Json
