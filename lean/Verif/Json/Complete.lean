import Verif.Json.Values
/-
The parser takes every JSON text.
-/
namespace Verif.Json
open Spec

variable {N : Type} {strtod : List Nat → Option N}

/-- what can follow a value inside of an array or object, after white space -/
def Sep (c : Nat) : Prop := c = 0x2C ∨ c = 0x5D ∨ c = 0x7D

theorem Sep.ws {c : Nat} (h : Sep c) : ws c = false := by rcases h with rfl | rfl | rfl <;> rfl

theorem wsSep_head {w : List Nat} (hw : IsWs w) {c : Nat} (hc : Sep c) (r : List Nat) : ∃ d s, w ++ c :: r = d :: s ∧ d ≠ 0 ∧ Stop d := by
  cases w with
  | nil => exact ⟨c, r, rfl, by rcases hc with rfl | rfl | rfl <;> decide, by rcases hc with rfl | rfl | rfl <;> (unfold Stop; decide)⟩
  | cons d w =>
    refine ⟨d, _, rfl, ?_⟩
    rcases hw d (by simp) with rfl | rfl | rfl | rfl <;> (unfold Stop; decide)

theorem number_head {t : List Nat} (h : Number t) : ∃ c s, t = c :: s ∧ (c = 0x2D ∨ IsDigit c) := by
  cases h with
  | mk sign int fr ex h1 h2 h3 h4 =>
    obtain ⟨d, s, i1, i2⟩ := int_head h2
    rcases h1 with rfl | rfl
    · exact ⟨d, s ++ fr ++ ex, by rw [i1]; simp, Or.inr i2⟩
    · exact ⟨0x2D, int ++ fr ++ ex, by simp, Or.inl rfl⟩

theorem digit_ws {c : Nat} (h : IsDigit c) : ws c = false := by
  rw [Bool.eq_false_iff]
  intro h'
  rw [ws_iff] at h'
  unfold IsDigit at h
  omega

theorem text_head {E : List Nat → List Nat → Prop} {num : List Nat → Option N} {t : List Nat} {v : Value N} (h : Text E num t v) :
    ∃ c s, t = c :: s ∧ ws c = false := by
  cases h with
  | null => exact ⟨0x6E, _, rfl, rfl⟩
  | «true» => exact ⟨0x74, _, rfl, rfl⟩
  | «false» => exact ⟨0x66, _, rfl, rfl⟩
  | str t s _ => exact ⟨_, _, rfl, rfl⟩
  | num t x h _ =>
    obtain ⟨c, s, h1, h2⟩ := number_head h
    refine ⟨c, s, h1, ?_⟩
    rcases h2 with rfl | h2
    · rfl
    · exact digit_ws h2
  | arr0 w _ => exact ⟨_, _, rfl, rfl⟩
  | arr t vs _ => exact ⟨_, _, rfl, rfl⟩
  | obj0 w _ => exact ⟨_, _, rfl, rfl⟩
  | obj t ms _ => exact ⟨_, _, rfl, rfl⟩

theorem isObject_no {n c : Nat} (h1 : ws c = false) (h2 : c ≠ 0x7B) (r : List Nat) : isObject strtod (n + 1) (c :: r) = .ok none (c :: r) := by
  rw [isObject, bind_ok (s := c :: r) (isStructural_no h1 h2 wsNil r)]; rfl

theorem isArray_no {n c : Nat} (h1 : ws c = false) (h2 : c ≠ 0x5B) (r : List Nat) : isArray strtod (n + 1) (c :: r) = .ok none (c :: r) := by
  rw [isArray, bind_ok (s := c :: r) (isStructural_no h1 h2 wsNil r)]; rfl

theorem isValue_str {n : Nat} {s r x : List Nat} (h : isString s = .ok (some x) r) : isValue strtod (n + 1) s = .ok (some (.str x)) r := by
  rw [isValue, bind_ok h]; rfl

theorem isValue_rest {n : Nat} {c : Nat} (h : c ≠ 0x22) (s : List Nat) : isValue strtod (n + 1) (c :: s) = (do
    if let some x ← isNumber strtod then return some (.num x)
    if let some o ← isObject strtod n then return some o
    if let some a ← isArray strtod n then return some a
    if let some b ← isBool then return some (.bool b)
    if (← isNull) then return some .null
    return none : M (Option (Value N))) (c :: s) := by
  rw [isValue, bind_ok (isString_no h s)]; rfl

theorem isValue_num {n : Nat} {c : Nat} {s r : List Nat} {x : N} (hc : c ≠ 0x22) (h : isNumber strtod (c :: s) = .ok (some x) r) :
    isValue strtod (n + 1) (c :: s) = .ok (some (.num x)) r := by
  rw [isValue_rest hc, bind_ok h]; rfl

theorem isValue_obj {n : Nat} {c : Nat} {s r : List Nat} {v : Value N} (hc : c ≠ 0x22) (hc1 : c ≠ 0x2D) (hc2 : ¬ IsDigit c)
    (h : isObject strtod n (c :: s) = .ok (some v) r) : isValue strtod (n + 1) (c :: s) = .ok (some v) r := by
  rw [isValue_rest hc, bind_ok (isNumber_no hc1 hc2 s)]
  show (isObject strtod n >>= _) _ = _
  rw [bind_ok h]; rfl

theorem isValue_arr {n : Nat} {c : Nat} {s r : List Nat} {v : Value N} (hc : c ≠ 0x22) (hc1 : c ≠ 0x2D) (hc2 : ¬ IsDigit c)
    (h0 : isObject strtod n (c :: s) = .ok none (c :: s)) (h : isArray strtod n (c :: s) = .ok (some v) r) : isValue strtod (n + 1) (c :: s) = .ok (some v) r := by
  rw [isValue_rest hc, bind_ok (isNumber_no hc1 hc2 s)]
  show (isObject strtod n >>= _) _ = _
  rw [bind_ok h0]
  show (isArray strtod n >>= _) _ = _
  rw [bind_ok h]; rfl

theorem isValue_lit {n : Nat} {c : Nat} {s : List Nat} (hc : c ≠ 0x22) (hc1 : c ≠ 0x2D) (hc2 : ¬ IsDigit c)
    (h0 : isObject strtod n (c :: s) = .ok none (c :: s)) (h1 : isArray strtod n (c :: s) = .ok none (c :: s)) : isValue strtod (n + 1) (c :: s) = (do
    if let some b ← isBool then return some (.bool b)
    if (← isNull) then return some .null
    return none : M (Option (Value N))) (c :: s) := by
  rw [isValue_rest hc, bind_ok (isNumber_no hc1 hc2 s)]
  show (isObject strtod n >>= _) _ = _
  rw [bind_ok h0]
  show (isArray strtod n >>= _) _ = _
  rw [bind_ok h1]

theorem isBool_true {c : Nat} (hc : c ≠ 0) (r : List Nat) : isBool (ascii "true" ++ c :: r) = .ok (some true) (c :: r) := by
  rw [isBool]
  exact (bind_ok (isSequence_ok (d := 0x74) (lit := [0x72, 0x75, 0x65]) hc r)).trans rfl

theorem isBool_false {c : Nat} (hc : c ≠ 0) (r : List Nat) : isBool (ascii "false" ++ c :: r) = .ok (some false) (c :: r) := by
  rw [isBool]
  refine (bind_ok (isSequence_no (d := 0x74) (c := 0x66) [0x72, 0x75, 0x65] (by decide) _)).trans ?_
  simp only [Bool.false_eq_true, if_false]
  exact (bind_ok (isSequence_ok (d := 0x66) (lit := [0x61, 0x6C, 0x73, 0x65]) hc r)).trans rfl

theorem isBool_no {c : Nat} (h1 : c ≠ 0x74) (h2 : c ≠ 0x66) (r : List Nat) : isBool (c :: r) = .ok none (c :: r) := by
  rw [isBool]
  refine (bind_ok (isSequence_no (d := 0x74) [0x72, 0x75, 0x65] h1 _)).trans ?_
  simp only [Bool.false_eq_true, if_false]
  exact (bind_ok (isSequence_no (d := 0x66) [0x61, 0x6C, 0x73, 0x65] h2 _)).trans rfl

theorem isNull_yes {c : Nat} (hc : c ≠ 0) (r : List Nat) : isNull (ascii "null" ++ c :: r) = .ok true (c :: r) :=
  isSequence_ok (d := 0x6E) (lit := [0x75, 0x6C, 0x6C]) hc r

theorem isNull_no {c : Nat} (h : c ≠ 0x6E) (r : List Nat) : isNull (c :: r) = .ok false (c :: r) := isSequence_no (d := 0x6E) [0x75, 0x6C, 0x6C] h r

/-- a character that starts no value -/
theorem isValue_none {n c : Nat} (h1 : ws c = false) (h2 : c ≠ 0x22 ∧ c ≠ 0x2D ∧ ¬ IsDigit c ∧ c ≠ 0x7B ∧ c ≠ 0x5B ∧ c ≠ 0x74 ∧ c ≠ 0x66 ∧ c ≠ 0x6E) (r : List Nat) :
    isValue strtod (n + 2) (c :: r) = .ok none (c :: r) := by
  obtain ⟨a1, a2, a3, a4, a5, a6, a7, a8⟩ := h2
  rw [isValue_lit a1 a2 a3 (isObject_no h1 a4 r) (isArray_no h1 a5 r), bind_ok (isBool_no a6 a7 r)]
  show (isNull >>= _) _ = _
  rw [bind_ok (isNull_no a8 r)]; rfl

/-- what each function does with a text -/
structure Complete (strtod : List Nat → Option N) (n : Nat) : Prop where
  value : ∀ {t w r : List Nat} {c : Nat} {v : Value N}, Text Taken strtod t v → 2 * t.length + 1 ≤ n → IsWs w → Sep c →
    ∃ w', IsWs w' ∧ isValue strtod n (t ++ (w ++ c :: r)) = .ok (some v) (w' ++ c :: r)
  object : ∀ {t w r : List Nat} {c : Nat} {ms : List (List Nat × Value N)}, Text Taken strtod t (.obj ms) → 2 * t.length ≤ n → IsWs w → ws c = false →
    ∀ w0, IsWs w0 → isObject strtod n (w0 ++ (t ++ (w ++ c :: r))) = .ok (some (.obj ms)) (c :: r)
  array : ∀ {t w r : List Nat} {c : Nat} {vs : List (Value N)}, Text Taken strtod t (.arr vs) → 2 * t.length ≤ n → IsWs w → ws c = false →
    ∀ w0, IsWs w0 → isArray strtod n (w0 ++ (t ++ (w ++ c :: r))) = .ok (some (.arr vs)) (c :: r)
  members : ∀ {t w r : List Nat} {o ms : List (List Nat × Value N)}, Members Taken strtod t ms → 2 * t.length + 2 ≤ n → IsWs w →
    members strtod n o (w ++ 0x2C :: (t ++ 0x7D :: r)) = .ok (ms.foldl (fun o m => assign o (cut m.1) m.2) o) (0x7D :: r)
  elements : ∀ {t w r : List Nat} {a vs : List (Value N)}, Elems Taken strtod t vs → 2 * t.length + 2 ≤ n → IsWs w →
    elements strtod n a (w ++ 0x2C :: (t ++ 0x5D :: r)) = .ok (a ++ vs) (0x5D :: r)

theorem members_end {n : Nat} {w : List Nat} (hw : IsWs w) (o : List (List Nat × Value N)) (r : List Nat) :
    members strtod (n + 1) o (w ++ 0x7D :: r) = .ok o (0x7D :: r) := by
  rw [members, bind_ok (isStructural_no (c := 0x7D) rfl (by decide) hw r)]; rfl

theorem elements_end {n : Nat} {w : List Nat} (hw : IsWs w) (a : List (Value N)) (r : List Nat) :
    elements strtod (n + 1) a (w ++ 0x5D :: r) = .ok a (0x5D :: r) := by
  rw [elements, bind_ok (isStructural_no (c := 0x5D) rfl (by decide) hw r)]; rfl

theorem structural_text {x : Nat} (hx : ws x = false) {w w' : List Nat} (hw : IsWs w) (hw' : IsWs w') {t : List Nat} (ht : ∃ c s, t = c :: s ∧ ws c = false) (r : List Nat) :
    isStructural x (w ++ x :: (w' ++ (t ++ r))) = .ok true (t ++ r) := by
  obtain ⟨c, s, rfl, hc⟩ := ht
  exact isStructural_yes hx hw hw' hc _

theorem text_len {E : List Nat → List Nat → Prop} {num : List Nat → Option N} {t : List Nat} {v : Value N} (h : Text E num t v) : 1 ≤ t.length := by
  obtain ⟨c, s, rfl, _⟩ := text_head h
  simp

theorem complete_value {n : Nat} (ih : Complete strtod n) {t w r : List Nat} {c : Nat} {v : Value N} (h : Text Taken strtod t v)
    (hn : 2 * t.length + 1 ≤ n + 1) (hw : IsWs w) (hc : Sep c) :
    ∃ w', IsWs w' ∧ isValue strtod (n + 1) (t ++ (w ++ c :: r)) = .ok (some v) (w' ++ c :: r) := by
  have hl := text_len h
  obtain ⟨m, rfl⟩ : ∃ m, n = m + 1 := ⟨n - 1, by omega⟩
  obtain ⟨d, s, e1, e2, e3⟩ := wsSep_head hw hc r
  cases h with
  | null =>
    refine ⟨w, hw, ?_⟩
    rw [e1]
    show isValue strtod (m + 2) (0x6E :: ([0x75, 0x6C, 0x6C] ++ d :: s)) = _
    rw [isValue_lit (by decide) (by decide) (by decide) (isObject_no rfl (by decide) _) (isArray_no rfl (by decide) _),
      bind_ok (isBool_no (by decide) (by decide) _)]
    show (isNull >>= _) _ = _
    exact (bind_ok (isNull_yes e2 s)).trans rfl
  | «true» =>
    refine ⟨w, hw, ?_⟩
    rw [e1]
    show isValue strtod (m + 2) (0x74 :: ([0x72, 0x75, 0x65] ++ d :: s)) = _
    rw [isValue_lit (by decide) (by decide) (by decide) (isObject_no rfl (by decide) _) (isArray_no rfl (by decide) _)]
    exact (bind_ok (isBool_true e2 s)).trans rfl
  | «false» =>
    refine ⟨w, hw, ?_⟩
    rw [e1]
    show isValue strtod (m + 2) (0x66 :: ([0x61, 0x6C, 0x73, 0x65] ++ d :: s)) = _
    rw [isValue_lit (by decide) (by decide) (by decide) (isObject_no rfl (by decide) _) (isArray_no rfl (by decide) _)]
    exact (bind_ok (isBool_false e2 s)).trans rfl
  | str t x h =>
    refine ⟨w, hw, isValue_str ?_⟩
    have := isString_ok h (w ++ c :: r)
    simpa using this
  | num t x h1 h2 =>
    refine ⟨w, hw, ?_⟩
    have := isNumber_ok h1 h2 e3 s
    obtain ⟨c1, s1, e4, e5⟩ := number_head h1
    rw [← e1] at this
    rw [e4] at this ⊢
    refine isValue_num ?_ this
    unfold IsDigit at e5
    omega
  | arr0 w0 hw0 =>
    have := ih.array (Text.arr0 w0 hw0) (by omega) hw hc.ws (r := r) [] wsNil
    refine ⟨[], wsNil, ?_⟩
    simp only [List.nil_append, List.cons_append] at this ⊢
    exact isValue_arr (by decide) (by decide) (by decide) (isObject_no rfl (by decide) _) this
  | arr t vs h =>
    have := ih.array (Text.arr t vs h) (by omega) hw hc.ws (r := r) [] wsNil
    refine ⟨[], wsNil, ?_⟩
    simp only [List.nil_append, List.cons_append] at this ⊢
    exact isValue_arr (by decide) (by decide) (by decide) (isObject_no rfl (by decide) _) this
  | obj0 w0 hw0 =>
    have := ih.object (Text.obj0 w0 hw0) (by omega) hw hc.ws (r := r) [] wsNil
    refine ⟨[], wsNil, ?_⟩
    simp only [List.nil_append, List.cons_append] at this ⊢
    exact isValue_obj (by decide) (by decide) (by decide) this
  | obj t ms h =>
    have := ih.object (Text.obj t ms h) (by omega) hw hc.ws (r := r) [] wsNil
    refine ⟨[], wsNil, ?_⟩
    simp only [List.nil_append, List.cons_append] at this ⊢
    exact isValue_obj (by decide) (by decide) (by decide) this

theorem complete_elements {n : Nat} (ih : Complete strtod n) {t w r : List Nat} {a vs : List (Value N)} (h : Elems Taken strtod t vs)
    (hn : 2 * t.length + 2 ≤ n + 1) (hw : IsWs w) : elements strtod (n + 1) a (w ++ 0x2C :: (t ++ 0x5D :: r)) = .ok (a ++ vs) (0x5D :: r) := by
  cases h with
  | one w1 t w2 v h1 h2 h3 =>
    have hl := text_len h2
    simp only [List.length_append] at hn
    obtain ⟨m, rfl⟩ : ∃ m, n = m + 1 := ⟨n - 1, by omega⟩
    obtain ⟨w', k1, k2⟩ := ih.value (r := r) (c := 0x5D) h2 (by omega) h3 (Or.inr (Or.inl rfl))
    have := structural_text (x := 0x2C) rfl hw h1 (text_head h2) (w2 ++ 0x5D :: r)
    rw [elements]
    simp only [List.append_assoc] at this ⊢
    rw [bind_ok this]
    simp only [Bool.not_true, Bool.false_eq_true, if_false]
    rw [bind_ok k2]
    exact elements_end k1 _ r
  | cons w1 t w2 t' v vs h1 h2 h3 h4 =>
    have hl := text_len h2
    simp only [List.length_append, List.length_cons] at hn
    obtain ⟨w', k1, k2⟩ := ih.value (r := t' ++ 0x5D :: r) (c := 0x2C) h2 (by omega) h3 (Or.inl rfl)
    have := structural_text (x := 0x2C) rfl hw h1 (text_head h2) (w2 ++ 0x2C :: (t' ++ 0x5D :: r))
    rw [elements]
    simp only [List.append_assoc, List.cons_append] at this ⊢
    rw [bind_ok this]
    simp only [Bool.not_true, Bool.false_eq_true, if_false]
    rw [bind_ok k2]
    simp only
    rw [ih.elements h4 (by omega) k1]
    simp

theorem complete_members {n : Nat} (ih : Complete strtod n) {t w r : List Nat} {o ms : List (List Nat × Value N)} (h : Members Taken strtod t ms)
    (hn : 2 * t.length + 2 ≤ n + 1) (hw : IsWs w) :
    members strtod (n + 1) o (w ++ 0x2C :: (t ++ 0x7D :: r)) = .ok (ms.foldl (fun o m => assign o (cut m.1) m.2) o) (0x7D :: r) := by
  cases h with
  | one w0 k w1 w2 t w3 key v h0 hk h1 h2 h3 h4 =>
    have hl := text_len h3
    simp only [List.length_append, List.length_cons] at hn
    obtain ⟨m, rfl⟩ : ∃ m, n = m + 1 := ⟨n - 1, by omega⟩
    obtain ⟨w', k1, k2⟩ := ih.value (r := r) (c := 0x7D) h3 (by omega) h4 (Or.inr (Or.inr rfl))
    have e1 := structural_text (x := 0x2C) rfl hw h0 (t := 0x22 :: (k ++ 0x22 :: (w1 ++ 0x3A :: (w2 ++ (t ++ w3))))) ⟨_, _, rfl, rfl⟩ (0x7D :: r)
    have e2 := structural_text (x := 0x3A) rfl h1 h2 (text_head h3) (w3 ++ 0x7D :: r)
    have e3 := isString_ok hk (w1 ++ 0x3A :: (w2 ++ (t ++ (w3 ++ 0x7D :: r))))
    rw [members]
    simp only [List.append_assoc, List.cons_append] at e1 e2 e3 ⊢
    rw [bind_ok e1]
    simp only [Bool.not_true, Bool.false_eq_true, if_false]
    rw [bind_ok e3]
    simp only
    rw [bind_ok e2, bind_ok (require_true _), bind_ok k2]
    exact members_end k1 _ r
  | cons w0 k w1 w2 t w3 t' key v ms h0 hk h1 h2 h3 h4 h5 =>
    have hl := text_len h3
    simp only [List.length_append, List.length_cons] at hn
    obtain ⟨w', k1, k2⟩ := ih.value (r := t' ++ 0x7D :: r) (c := 0x2C) h3 (by omega) h4 (Or.inl rfl)
    have e1 := structural_text (x := 0x2C) rfl hw h0 (t := 0x22 :: (k ++ 0x22 :: (w1 ++ 0x3A :: (w2 ++ (t ++ (w3 ++ 0x2C :: t')))))) ⟨_, _, rfl, rfl⟩ (0x7D :: r)
    have e2 := structural_text (x := 0x3A) rfl h1 h2 (text_head h3) (w3 ++ 0x2C :: (t' ++ 0x7D :: r))
    have e3 := isString_ok hk (w1 ++ 0x3A :: (w2 ++ (t ++ (w3 ++ 0x2C :: (t' ++ 0x7D :: r)))))
    rw [members]
    simp only [List.append_assoc, List.cons_append] at e1 e2 e3 ⊢
    rw [bind_ok e1]
    simp only [Bool.not_true, Bool.false_eq_true, if_false]
    rw [bind_ok e3]
    simp only
    rw [bind_ok e2, bind_ok (require_true _), bind_ok k2]
    simp only
    rw [ih.members h5 (by omega) k1]
    rfl

theorem complete_array {n : Nat} (ih : Complete strtod n) {t w r : List Nat} {c : Nat} {vs : List (Value N)} (h : Text Taken strtod t (.arr vs))
    (hn : 2 * t.length ≤ n + 1) (hw : IsWs w) (hc : ws c = false) (w0 : List Nat) (hw0 : IsWs w0) :
    isArray strtod (n + 1) (w0 ++ (t ++ (w ++ c :: r))) = .ok (some (.arr vs)) (c :: r) := by
  have hend := isStructural_yes (x := 0x5D) rfl wsNil hw hc r
  rw [List.nil_append] at hend
  cases h with
  | arr0 w1 h1 =>
    simp only [List.length_append, List.length_cons, List.length_nil] at hn
    obtain ⟨m, rfl⟩ : ∃ m, n = m + 2 := ⟨n - 2, by omega⟩
    have e1 := isStructural_yes (x := 0x5B) (c := 0x5D) rfl hw0 h1 rfl (w ++ c :: r)
    rw [isArray]
    simp only [List.append_assoc, List.cons_append, List.nil_append] at e1 ⊢
    rw [bind_ok e1]
    simp only [Bool.not_true, Bool.false_eq_true, if_false]
    rw [bind_ok (isValue_none rfl (by decide) _)]
    show (isStructural 0x5D >>= _) _ = _
    rw [bind_ok hend, bind_ok (require_true _)]; rfl
  | arr t vs h =>
    simp only [List.length_append, List.length_cons, List.length_nil] at hn
    rw [isArray]
    cases h with
    | one w1 t w2 v h1 h2 h3 =>
      have hl := text_len h2
      simp only [List.length_append] at hn
      obtain ⟨m, rfl⟩ : ∃ m, n = m + 1 := ⟨n - 1, by omega⟩
      obtain ⟨w', k1, k2⟩ := ih.value (r := w ++ c :: r) (c := 0x5D) h2 (by omega) h3 (Or.inr (Or.inl rfl))
      have e1 := structural_text (x := 0x5B) rfl hw0 h1 (text_head h2) (w2 ++ 0x5D :: (w ++ c :: r))
      simp only [List.append_assoc, List.cons_append, List.nil_append] at e1 ⊢
      rw [bind_ok e1]
      simp only [Bool.not_true, Bool.false_eq_true, if_false]
      rw [bind_ok k2]
      simp only
      rw [bind_ok (elements_end k1 _ _), bind_ok hend, bind_ok (require_true _)]; rfl
    | cons w1 t w2 t' v vs h1 h2 h3 h4 =>
      have hl := text_len h2
      simp only [List.length_append, List.length_cons] at hn
      obtain ⟨w', k1, k2⟩ := ih.value (r := t' ++ 0x5D :: (w ++ c :: r)) (c := 0x2C) h2 (by omega) h3 (Or.inl rfl)
      have e1 := structural_text (x := 0x5B) rfl hw0 h1 (text_head h2) (w2 ++ 0x2C :: (t' ++ 0x5D :: (w ++ c :: r)))
      simp only [List.append_assoc, List.cons_append, List.nil_append] at e1 ⊢
      rw [bind_ok e1]
      simp only [Bool.not_true, Bool.false_eq_true, if_false]
      rw [bind_ok k2]
      simp only
      rw [bind_ok (ih.elements h4 (by omega) k1), bind_ok hend, bind_ok (require_true _)]; rfl

theorem complete_object {n : Nat} (ih : Complete strtod n) {t w r : List Nat} {c : Nat} {ms : List (List Nat × Value N)} (h : Text Taken strtod t (.obj ms))
    (hn : 2 * t.length ≤ n + 1) (hw : IsWs w) (hc : ws c = false) (w0 : List Nat) (hw0 : IsWs w0) :
    isObject strtod (n + 1) (w0 ++ (t ++ (w ++ c :: r))) = .ok (some (.obj ms)) (c :: r) := by
  have hend := isStructural_yes (x := 0x7D) rfl wsNil hw hc r
  rw [List.nil_append] at hend
  cases h with
  | obj0 w1 h1 =>
    have e1 := isStructural_yes (x := 0x7B) (c := 0x7D) rfl hw0 h1 rfl (w ++ c :: r)
    rw [isObject]
    simp only [List.append_assoc, List.cons_append, List.nil_append] at e1 ⊢
    rw [bind_ok e1]
    simp only [Bool.not_true, Bool.false_eq_true, if_false]
    rw [bind_ok (isString_no (by decide) _)]
    show (isStructural 0x7D >>= _) _ = _
    rw [bind_ok hend, bind_ok (require_true _)]; rfl
  | obj t ms h =>
    simp only [List.length_append, List.length_cons, List.length_nil] at hn
    rw [isObject]
    cases h with
    | one w0' k w1 w2 t w3 key v h0 hk h1 h2 h3 h4 =>
      have hl := text_len h3
      simp only [List.length_append, List.length_cons] at hn
      obtain ⟨m, rfl⟩ : ∃ m, n = m + 1 := ⟨n - 1, by omega⟩
      obtain ⟨w', k1, k2⟩ := ih.value (r := w ++ c :: r) (c := 0x7D) h3 (by omega) h4 (Or.inr (Or.inr rfl))
      have e1 := structural_text (x := 0x7B) rfl hw0 h0 (t := 0x22 :: (k ++ 0x22 :: (w1 ++ 0x3A :: (w2 ++ (t ++ w3))))) ⟨_, _, rfl, rfl⟩ (0x7D :: (w ++ c :: r))
      have e2 := structural_text (x := 0x3A) rfl h1 h2 (text_head h3) (w3 ++ 0x7D :: (w ++ c :: r))
      have e3 := isString_ok hk (w1 ++ 0x3A :: (w2 ++ (t ++ (w3 ++ 0x7D :: (w ++ c :: r)))))
      simp only [List.append_assoc, List.cons_append, List.nil_append] at e1 e2 e3 ⊢
      rw [bind_ok e1]
      simp only [Bool.not_true, Bool.false_eq_true, if_false]
      rw [bind_ok e3]
      simp only
      rw [bind_ok e2, bind_ok (require_true _), bind_ok k2]
      simp only
      rw [bind_ok (members_end k1 _ _), bind_ok hend, bind_ok (require_true _)]; rfl
    | cons w0' k w1 w2 t w3 t' key v ms h0 hk h1 h2 h3 h4 h5 =>
      have hl := text_len h3
      simp only [List.length_append, List.length_cons] at hn
      obtain ⟨w', k1, k2⟩ := ih.value (r := t' ++ 0x7D :: (w ++ c :: r)) (c := 0x2C) h3 (by omega) h4 (Or.inl rfl)
      have e1 := structural_text (x := 0x7B) rfl hw0 h0 (t := 0x22 :: (k ++ 0x22 :: (w1 ++ 0x3A :: (w2 ++ (t ++ (w3 ++ 0x2C :: t')))))) ⟨_, _, rfl, rfl⟩ (0x7D :: (w ++ c :: r))
      have e2 := structural_text (x := 0x3A) rfl h1 h2 (text_head h3) (w3 ++ 0x2C :: (t' ++ 0x7D :: (w ++ c :: r)))
      have e3 := isString_ok hk (w1 ++ 0x3A :: (w2 ++ (t ++ (w3 ++ 0x2C :: (t' ++ 0x7D :: (w ++ c :: r))))))
      simp only [List.append_assoc, List.cons_append, List.nil_append] at e1 e2 e3 ⊢
      rw [bind_ok e1]
      simp only [Bool.not_true, Bool.false_eq_true, if_false]
      rw [bind_ok e3]
      simp only
      rw [bind_ok e2, bind_ok (require_true _), bind_ok k2]
      simp only
      rw [bind_ok (ih.members h5 (by omega) k1), bind_ok hend, bind_ok (require_true _)]; rfl

theorem complete (n : Nat) : Complete strtod n := by
  induction n with
  | zero =>
    refine ⟨?_, ?_, ?_, ?_, ?_⟩
    · intro t w r c v h hn; omega
    · intro t w r c v h hn; have := text_len h; omega
    · intro t w r c v h hn; have := text_len h; omega
    · intro t w r o ms h hn; omega
    · intro t w r o ms h hn; omega
  | succ n ih => exact ⟨complete_value ih, complete_object ih, complete_array ih, complete_members ih, complete_elements ih⟩

end Verif.Json
