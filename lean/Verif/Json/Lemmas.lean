import Verif.Json.Model
import Verif.Unicode.Lemmas
import Mathlib.Tactic.Common
import Mathlib.Tactic.NormNum
import Mathlib.Data.List.Basic
/-
The scanner: characters, white space, strings, numbers and constants.
-/
namespace Verif.Json
open Spec (IsWs IsDigit Chars Taken Hex4 Number IntPart FracPart ExpPart hexVal)
open Verif.Unicode (utf8Spec)

variable {α β : Type}

theorem bind_eq (x : M α) (f : α → M β) (s : List Nat) : (x >>= f) s = match x s with
  | .ok a r => f a r
  | .throw => .throw
  | .oob => .oob
  | .fuel => .fuel := rfl

theorem pure_eq (a : α) (s : List Nat) : (pure a : M α) s = .ok a s := rfl

theorem bind_ok {x : M α} {f : α → M β} {s r : List Nat} {a : α} (h : x s = .ok a r) : (x >>= f) s = f a r := by rw [bind_eq, h]

theorem bind_inv {x : M α} {f : α → M β} {s r : List Nat} {b : β} (h : (x >>= f) s = .ok b r) : ∃ a r1, x s = .ok a r1 ∧ f a r1 = .ok b r := by
  rw [bind_eq] at h
  cases hx : x s with
  | ok a r1 => rw [hx] at h; exact ⟨a, r1, rfl, h⟩
  | throw => rw [hx] at h; cases h
  | oob => rw [hx] at h; cases h
  | fuel => rw [hx] at h; cases h

theorem isChar_cons (x c : Nat) (r : List Nat) : isChar x (c :: r) = if c = x then .ok true r else .ok false (c :: r) := by
  by_cases h : c = x <;> simp [isChar, bind_eq, peek, advance, pure_eq, h]

theorem isChar_nil (x : Nat) : isChar x [] = .oob := rfl

theorem isChar_inv {x : Nat} {s r : List Nat} {b : Bool} (h : isChar x s = .ok b r) : (b = true ∧ s = x :: r) ∨ (b = false ∧ r = s ∧ ∃ c s', s = c :: s' ∧ c ≠ x) := by
  cases s with
  | nil => rw [isChar_nil] at h; cases h
  | cons c s =>
    rw [isChar_cons] at h
    split at h
    · next e => cases h; exact Or.inl ⟨rfl, by rw [e]⟩
    · next e => cases h; exact Or.inr ⟨rfl, rfl, c, s, rfl, e⟩

theorem require_inv {b : Bool} {s r : List Nat} {u : Unit} (h : require b s = .ok u r) : b = true ∧ r = s := by
  cases b with
  | true => cases h; exact ⟨rfl, rfl⟩
  | false => cases h

theorem require_true (s : List Nat) : require true s = .ok () s := rfl

theorem ws_iff {c : Nat} : ws c = true ↔ c = 0x20 ∨ c = 0x09 ∨ c = 0x0A ∨ c = 0x0D := by
  simp only [ws, Bool.or_eq_true, beq_iff_eq]; omega

theorem wsNil : IsWs [] := by intro c hc; cases hc
theorem wsApp {a b : List Nat} (ha : IsWs a) (hb : IsWs b) : IsWs (a ++ b) := by
  intro c hc; rw [List.mem_append] at hc; exact hc.elim (ha c) (hb c)

theorem skipWs_ok {w : List Nat} (hw : IsWs w) {c : Nat} (hc : ws c = false) (r : List Nat) : skipWs (w ++ c :: r) = .ok () (c :: r) := by
  induction w with
  | nil => simp [skipWs, hc]
  | cons d w ih =>
    have : ws d = true := ws_iff.2 (hw d (by simp))
    simp only [List.cons_append, skipWs, this, if_true]
    exact ih (fun c hc => hw c (by simp [hc]))

theorem skipWs_inv {s r : List Nat} {u : Unit} (h : skipWs s = .ok u r) : ∃ w c r', IsWs w ∧ r = c :: r' ∧ ws c = false ∧ s = w ++ r := by
  induction s with
  | nil => cases h
  | cons c s ih =>
    rw [skipWs] at h
    split at h
    · next hc =>
      obtain ⟨w, d, r', h1, h2, h3, h4⟩ := ih h
      refine ⟨c :: w, d, r', ?_, h2, h3, by rw [h4]; rfl⟩
      intro x hx
      rw [List.mem_cons] at hx
      rcases hx with rfl | hx
      · exact ws_iff.1 hc
      · exact h1 x hx
    · next hc => cases h; exact ⟨[], c, s, wsNil, rfl, by simpa using hc, rfl⟩

theorem isStructural_yes {x : Nat} (hx : ws x = false) {w w' : List Nat} (hw : IsWs w) (hw' : IsWs w') {c : Nat} (hc : ws c = false) (r : List Nat) :
    isStructural x (w ++ x :: (w' ++ c :: r)) = .ok true (c :: r) := by
  rw [isStructural, bind_ok (skipWs_ok hw hx _), bind_ok (a := true) (by rw [isChar_cons, if_pos rfl])]
  simp only [Bool.not_true, Bool.false_eq_true, if_false]
  rw [bind_eq, skipWs_ok hw' hc]; rfl

theorem isStructural_no {x c : Nat} (hc : ws c = false) (hcx : c ≠ x) {w : List Nat} (hw : IsWs w) (r : List Nat) :
    isStructural x (w ++ c :: r) = .ok false (c :: r) := by
  rw [isStructural, bind_ok (skipWs_ok hw hc _), bind_ok (a := false) (by rw [isChar_cons, if_neg hcx])]; rfl

theorem isStructural_inv {x : Nat} {s r : List Nat} {b : Bool} (h : isStructural x s = .ok b r) :
    ∃ w c r', IsWs w ∧ r = c :: r' ∧ ws c = false ∧ ((b = true ∧ ∃ w', IsWs w' ∧ s = w ++ x :: (w' ++ r)) ∨ (b = false ∧ c ≠ x ∧ s = w ++ r)) := by
  unfold isStructural at h
  replace h := bind_inv h
  obtain ⟨_, s1, h1, h⟩ := h
  replace h := bind_inv h
  obtain ⟨b1, s2, h2, h⟩ := h
  obtain ⟨w, c, r', h3, h4, h5, h6⟩ := skipWs_inv h1
  rcases isChar_inv h2 with ⟨rfl, h7⟩ | ⟨rfl, h7, c', s', h8, h9⟩
  · simp only [Bool.not_true, Bool.false_eq_true, if_false] at h
    replace h := bind_inv h
    obtain ⟨_, s3, h8, h⟩ := h
    cases h
    obtain ⟨w', d, r'', g1, g2, g3, g4⟩ := skipWs_inv h8
    exact ⟨w, d, r'', h3, g2, g3, Or.inl ⟨rfl, w', g1, by rw [h6, h7, g4]⟩⟩
  · simp only [Bool.not_false, if_true] at h
    cases h
    subst h7
    rw [h4] at h8
    cases h8
    exact ⟨w, c, r', h3, h4, h5, Or.inr ⟨rfl, h9, h6⟩⟩

/-! ### constants -/

theorem seqRest_ok (lit : List Nat) {c : Nat} (hc : c ≠ 0) (r : List Nat) : seqRest lit (lit ++ c :: r) = .ok true (c :: r) := by
  induction lit with
  | nil => rw [List.nil_append, seqRest, bind_ok (a := false) (by rw [isChar_cons, if_neg hc])]; rfl
  | cons d lit ih =>
    rw [List.cons_append, seqRest, bind_ok (a := true) (by rw [isChar_cons, if_pos rfl])]
    exact ih

theorem seqRest_inv {lit s r : List Nat} {b : Bool} (h : seqRest lit s = .ok b r) : b = true ∧ s = lit ++ r := by
  induction lit generalizing s with
  | nil =>
    unfold seqRest at h
    replace h := bind_inv h
    obtain ⟨b1, s1, h1, h⟩ := h
    rcases isChar_inv h1 with ⟨rfl, h2⟩ | ⟨rfl, rfl, _⟩
    · cases h
    · cases h; exact ⟨rfl, rfl⟩
  | cons d lit ih =>
    unfold seqRest at h
    replace h := bind_inv h
    obtain ⟨b1, s1, h1, h⟩ := h
    rcases isChar_inv h1 with ⟨rfl, h2⟩ | ⟨rfl, rfl, _⟩
    · obtain ⟨h3, h4⟩ := ih h
      exact ⟨h3, by rw [h2, h4]; rfl⟩
    · cases h

theorem isSequence_ok {d : Nat} {lit : List Nat} {c : Nat} (hc : c ≠ 0) (r : List Nat) : isSequence (d :: lit) (d :: lit ++ c :: r) = .ok true (c :: r) := by
  rw [List.cons_append, isSequence, bind_ok (a := true) (by rw [isChar_cons, if_pos rfl])]
  exact seqRest_ok lit hc r

theorem isSequence_no {d c : Nat} (lit : List Nat) (hc : c ≠ d) (r : List Nat) : isSequence (d :: lit) (c :: r) = .ok false (c :: r) := by
  rw [isSequence, bind_ok (a := false) (by rw [isChar_cons, if_neg hc])]; rfl

theorem isSequence_inv {d : Nat} {lit s r : List Nat} {b : Bool} (h : isSequence (d :: lit) s = .ok b r) :
    (b = true ∧ s = d :: lit ++ r) ∨ (b = false ∧ r = s ∧ ∃ c s', s = c :: s' ∧ c ≠ d) := by
  unfold isSequence at h
  replace h := bind_inv h
  obtain ⟨b1, s1, h1, h⟩ := h
  rcases isChar_inv h1 with ⟨rfl, h2⟩ | ⟨rfl, h2, h3⟩
  · obtain ⟨h3, h4⟩ := seqRest_inv h
    exact Or.inl ⟨h3, by rw [h2, h4]; rfl⟩
  · cases h
    subst h2
    exact Or.inr ⟨rfl, rfl, h3⟩

/-! ### strings -/

theorem hexDigit_eq (c : Nat) : hexDigit c = hexVal c := rfl

theorem digit4_ok {c d : Nat} (h : hexVal c = some d) (r : List Nat) : digit4 (c :: r) = .ok d r := by
  rw [digit4, bind_ok (x := take) (s := c :: r) rfl, hexDigit_eq, h]; rfl

theorem digit4_inv {s r : List Nat} {d : Nat} (h : digit4 s = .ok d r) : ∃ c, hexVal c = some d ∧ s = c :: r := by
  unfold digit4 at h
  replace h := bind_inv h
  obtain ⟨c, s1, h1, h⟩ := h
  rw [hexDigit_eq] at h
  cases hc : hexVal c with
  | none => rw [hc] at h; cases h
  | some v =>
    rw [hc] at h; cases h
    refine ⟨c, hc, ?_⟩
    cases s with
    | nil => cases h1
    | cons _ _ => cases h1; rfl

theorem fourDigits_ok {h : List Nat} {v : Nat} (hh : Hex4 h v) (r : List Nat) : fourDigits (h ++ r) = .ok v r := by
  cases hh with
  | mk a b c d va vb vc vd ha hb hc hd =>
    simp only [List.cons_append, List.nil_append]
    rw [fourDigits, bind_ok (digit4_ok ha _), bind_ok (digit4_ok hb _), bind_ok (digit4_ok hc _), bind_ok (digit4_ok hd _)]
    rfl

theorem fourDigits_inv {s r : List Nat} {v : Nat} (h : fourDigits s = .ok v r) : ∃ t, Hex4 t v ∧ s = t ++ r := by
  unfold fourDigits at h
  replace h := bind_inv h
  obtain ⟨va, s1, h1, h⟩ := h
  replace h := bind_inv h
  obtain ⟨vb, s2, h2, h⟩ := h
  replace h := bind_inv h
  obtain ⟨vc, s3, h3, h⟩ := h
  replace h := bind_inv h
  obtain ⟨vd, s4, h4, h⟩ := h
  cases h
  obtain ⟨a, ha, rfl⟩ := digit4_inv h1
  obtain ⟨b, hb, rfl⟩ := digit4_inv h2
  obtain ⟨c, hc, rfl⟩ := digit4_inv h3
  obtain ⟨d, hd, rfl⟩ := digit4_inv h4
  exact ⟨[a, b, c, d], Hex4.mk a b c d va vb vc vd ha hb hc hd, rfl⟩

theorem hexVal_lt {c v : Nat} (h : hexVal c = some v) : v < 16 := by
  unfold hexVal at h
  split at h
  · cases h; omega
  split at h
  · cases h; omega
  split at h
  · cases h; omega
  · cases h

theorem hex4_lt {h : List Nat} {v : Nat} (hh : Hex4 h v) : v < 0x10000 := by
  cases hh with
  | mk a b c d va vb vc vd ha hb hc hd =>
    have := hexVal_lt ha; have := hexVal_lt hb; have := hexVal_lt hc; have := hexVal_lt hd
    omega

theorem low_eq (x : Nat) : low x = 0x80 + x % 64 := by
  unfold low
  apply Nat.eq_of_testBit_eq
  intro i
  have e : 0x80 + x % 64 = 2 ^ 7 * 1 + x % 64 := rfl
  rw [e, Nat.testBit_two_pow_mul_add _ (by omega : x % 64 < 2 ^ 7), Nat.testBit_and, Nat.testBit_or, show (64 : Nat) = 2 ^ 6 from rfl, Nat.testBit_mod_two_pow]
  by_cases h8 : i < 8
  · have : i = 0 ∨ i = 1 ∨ i = 2 ∨ i = 3 ∨ i = 4 ∨ i = 5 ∨ i = 6 ∨ i = 7 := by omega
    rcases this with rfl | rfl | rfl | rfl | rfl | rfl | rfl | rfl <;> simp [Nat.testBit]
  · have h1 : Nat.testBit 0xBF i = false := Nat.testBit_lt_two_pow (Nat.lt_of_lt_of_le (by norm_num : 0xBF < 2 ^ 8) (Nat.pow_le_pow_right (by norm_num) (by omega)))
    have h2 : Nat.testBit 1 (i - 7) = false := Nat.testBit_lt_two_pow (Nat.one_lt_two_pow (by omega))
    simp [h1, h2, show ¬ i < 7 by omega]

theorem or_lead (x k m : Nat) (hx : x < 2 ^ k) : x ||| m <<< k = m * 2 ^ k + x := by
  rw [Nat.or_comm, Verif.Unicode.or_add _ _ _ hx]

theorem utf8_eq {x : Nat} (h : x < 0x10FFFF) (s : List Nat) : utf8 x s = .ok (utf8Spec x) s := by
  unfold utf8 utf8Spec
  by_cases h1 : x < 0x80
  · simp [h1, show x ≤ 0x7F by omega, M.pure]
  by_cases h2 : x < 0x800
  · have e : (x >>> 6) ||| 0xC0 = 0xC0 + x / 64 := by
      rw [Nat.shiftRight_eq_div_pow, show (0xC0 : Nat) = 0x6 <<< 5 from rfl, or_lead _ _ _ (by omega : x / 2 ^ 6 < 2 ^ 5)]; omega
    simp [h1, h2, show ¬ x ≤ 0x7F by omega, show x ≤ 0x7FF by omega, M.pure, e, low_eq]
  by_cases h3 : x < 0x10000
  · have e : (x >>> 12) ||| 0xE0 = 0xE0 + x / 4096 := by
      rw [Nat.shiftRight_eq_div_pow, show (0xE0 : Nat) = 0xE <<< 4 from rfl, or_lead _ _ _ (by omega : x / 2 ^ 12 < 2 ^ 4)]; omega
    rw [Nat.shiftRight_eq_div_pow] at e
    simp at e
    simp [h1, h2, h3, show ¬ x ≤ 0x7F by omega, show ¬ x ≤ 0x7FF by omega, show x ≤ 0xFFFF by omega, M.pure, e, low_eq, Nat.shiftRight_eq_div_pow]
  · have e : (x >>> 18) ||| 0xF0 = 0xF0 + x / 262144 := by
      rw [Nat.shiftRight_eq_div_pow, show (0xF0 : Nat) = 0x1E <<< 3 from rfl, or_lead _ _ _ (by omega : x / 2 ^ 18 < 2 ^ 3)]; omega
    rw [Nat.shiftRight_eq_div_pow] at e
    simp at e
    simp [h1, h2, h3, h, show ¬ x ≤ 0x7F by omega, show ¬ x ≤ 0x7FF by omega, show ¬ x ≤ 0xFFFF by omega, M.pure, e, low_eq, Nat.shiftRight_eq_div_pow]

theorem scan_ok {cs : List Nat} (h : ∀ c ∈ cs, 0x20 ≤ c ∧ c ≠ 0x22 ∧ c ≠ 0x5C) {d : Nat} (hd : d < 0x20 ∨ d = 0x22 ∨ d = 0x5C) (r : List Nat) :
    scan (cs ++ d :: r) = .ok cs (d :: r) := by
  induction cs with
  | nil => simp [scan, hd]
  | cons c cs ih =>
    have := h c (by simp)
    rw [List.cons_append, scan, if_neg (by omega), ih (fun c hc => h c (by simp [hc]))]

theorem scan_inv {s r cs : List Nat} (h : scan s = .ok cs r) :
    s = cs ++ r ∧ (∀ c ∈ cs, 0x20 ≤ c ∧ c ≠ 0x22 ∧ c ≠ 0x5C) ∧ ∃ d r', r = d :: r' ∧ (d < 0x20 ∨ d = 0x22 ∨ d = 0x5C) := by
  induction s generalizing cs with
  | nil => cases h
  | cons c s ih =>
    rw [scan] at h
    split at h
    · next hc => cases h; exact ⟨rfl, by simp, c, s, rfl, hc⟩
    · next hc =>
      cases hs : scan s with
      | ok cs' r' =>
        rw [hs] at h; cases h
        obtain ⟨h1, h2, h3⟩ := ih hs
        refine ⟨by rw [h1]; rfl, ?_, h3⟩
        intro x hx
        rw [List.mem_cons] at hx
        rcases hx with rfl | hx
        · omega
        · exact h2 x hx
      | throw => rw [hs] at h; cases h
      | oob => rw [hs] at h; cases h
      | fuel => rw [hs] at h; cases h

theorem escaped_ok {e b : List Nat} (h : Taken e b) (r : List Nat) : escaped (e ++ r) = .ok b r := by
  cases h with
  | simple c b hc =>
    simp only [Spec.simple, List.mem_cons, Prod.mk.injEq, List.not_mem_nil, or_false] at hc
    rcases hc with ⟨rfl, rfl⟩ | ⟨rfl, rfl⟩ | ⟨rfl, rfl⟩ | ⟨rfl, rfl⟩ | ⟨rfl, rfl⟩ | ⟨rfl, rfl⟩ | ⟨rfl, rfl⟩ | ⟨rfl, rfl⟩ <;> rfl
  | bmp h v hh hv =>
    show escaped (0x75 :: (h ++ r)) = _
    rw [escaped, bind_ok (x := take) (s := 0x75 :: (h ++ r)) rfl]
    simp only [escape]
    simp only [show ¬ (0x75 = 0x22) by decide, show ¬ (0x75 = 0x2F) by decide, show ¬ (0x75 = 0x5C) by decide, show ¬ (0x75 = 0x62) by decide, show ¬ (0x75 = 0x66) by decide, show ¬ (0x75 = 0x6E) by decide, show ¬ (0x75 = 0x72) by decide, show ¬ (0x75 = 0x74) by decide, if_false, if_true]
    rw [bind_ok (x := require _) (a := ()) (r := h ++ r) rfl, bind_ok (fourDigits_ok hh r), if_neg hv, utf8_eq (by have := hex4_lt hh; omega)]
  | pair h g hi lo hh hg h1 h2 h3 h4 =>
    show escaped (0x75 :: ((h ++ 0x75 :: g) ++ r)) = _
    rw [escaped, bind_ok (x := take) (s := 0x75 :: ((h ++ 0x75 :: g) ++ r)) rfl]
    simp only [escape]
    simp only [show ¬ (0x75 = 0x22) by decide, show ¬ (0x75 = 0x2F) by decide, show ¬ (0x75 = 0x5C) by decide, show ¬ (0x75 = 0x62) by decide, show ¬ (0x75 = 0x66) by decide, show ¬ (0x75 = 0x6E) by decide, show ¬ (0x75 = 0x72) by decide, show ¬ (0x75 = 0x74) by decide, if_false, if_true]
    rw [bind_ok (x := require _) (a := ()) (r := (h ++ 0x75 :: g) ++ r) rfl, List.append_assoc, bind_ok (fourDigits_ok hh _), if_pos ⟨h1, h2⟩, List.cons_append,
      bind_ok (a := true) (by rw [isChar_cons, if_pos rfl]), bind_ok (require_true _), bind_ok (fourDigits_ok hg r), decide_eq_true ⟨h3, h4⟩,
      bind_ok (require_true _), Nat.shiftLeft_eq, utf8_eq (by omega)]

theorem take_inv {s r : List Nat} {c : Nat} (h : take s = .ok c r) : s = c :: r := by
  cases s with
  | nil => cases h
  | cons _ _ => cases h; rfl

theorem escape_cases (c : Nat) : escape c = 0 ∨ (c, escape c) ∈ Spec.simple ∨ c = 0x75 := by
  simp only [Spec.simple, List.mem_cons, Prod.mk.injEq, List.not_mem_nil, or_false]
  unfold escape
  split_ifs <;> simp_all

theorem escaped_inv {s r b : List Nat} (h : escaped s = .ok b r) : ∃ e, Taken e b ∧ s = e ++ r := by
  unfold escaped at h
  replace h := bind_inv h
  obtain ⟨c, s1, h1, h⟩ := h
  have := take_inv h1
  subst this
  replace h := bind_inv h
  obtain ⟨_, s2, h2, h⟩ := h
  obtain ⟨h3, rfl⟩ := require_inv h2
  by_cases hu : escape c = 0x75
  · have hc : c = 0x75 := by
      unfold escape at hu
      by_contra hne
      simp only [hne, if_false] at hu
      split_ifs at hu <;> omega
    subst hc
    rw [if_pos hu] at h
    replace h := bind_inv h
    obtain ⟨v, s3, h4, h⟩ := h
    obtain ⟨t, h5, rfl⟩ := fourDigits_inv h4
    split at h
    · next hv =>
      replace h := bind_inv h
      obtain ⟨b1, s4, h6, h⟩ := h
      replace h := bind_inv h
      obtain ⟨_, s5, h7, h⟩ := h
      obtain ⟨rfl, rfl⟩ := require_inv h7
      replace h := bind_inv h
      obtain ⟨lo, s6, h8, h⟩ := h
      replace h := bind_inv h
      obtain ⟨_, s7, h9, h⟩ := h
      obtain ⟨h10, rfl⟩ := require_inv h9
      obtain ⟨g, h11, rfl⟩ := fourDigits_inv h8
      simp only [decide_eq_true_eq] at h10
      rcases isChar_inv h6 with ⟨_, h12⟩ | ⟨h12, _⟩
      · rw [Nat.shiftLeft_eq, utf8_eq (by omega)] at h
        injection h with e1 e2
        subst e1 e2
        exact ⟨_, Taken.pair t g v lo h5 h11 hv.1 hv.2 h10.1 h10.2, by rw [h12]; simp⟩
      · cases h12
    · next hv =>
      rw [utf8_eq (by have := hex4_lt h5; omega)] at h
      cases h
      exact ⟨_, Taken.bmp t v h5 hv, rfl⟩
  · rw [if_neg hu] at h
    cases h
    refine ⟨[c], Taken.simple c _ ?_, rfl⟩
    have h0 : escape c ≠ 0 := by simpa using h3
    rcases escape_cases c with h4 | h4 | h4
    · exact absurd h4 h0
    · exact h4
    · exact absurd (by rw [h4]; rfl) hu

theorem Chars.raw_append {E : List Nat → List Nat → Prop} {cs t s : List Nat} (h : ∀ c ∈ cs, 0x20 ≤ c ∧ c ≠ 0x22 ∧ c ≠ 0x5C) (ht : Chars E t s) :
    Chars E (cs ++ t) (cs ++ s) := by
  induction cs with
  | nil => exact ht
  | cons c cs ih =>
    obtain ⟨h1, h2, h3⟩ := h c (by simp)
    exact Chars.raw c _ _ h1 h2 h3 (ih (fun c hc => h c (by simp [hc])))

theorem strLoop_inv (n : Nat) : ∀ {acc s r v : List Nat}, strLoop n acc s = .ok v r → ∃ t x, Chars Taken t x ∧ v = acc ++ x ∧ s = t ++ 0x22 :: r := by
  induction n with
  | zero => intro acc s r v h; cases h
  | succ n ih =>
    intro acc s r v h
    unfold strLoop at h
    replace h := bind_inv h
    obtain ⟨b, s1, h1, h⟩ := h
    rcases isChar_inv h1 with ⟨rfl, h2⟩ | ⟨rfl, rfl, _⟩
    · cases h
      exact ⟨[], [], Chars.nil, by simp, h2⟩
    · simp only [Bool.false_eq_true, if_false] at h
      replace h := bind_inv h
      obtain ⟨cs, s2, h3, h⟩ := h
      obtain ⟨h4, h5, d, s', h6, h7⟩ := scan_inv h3
      replace h := bind_inv h
      obtain ⟨p, s3, h8, h⟩ := h
      rw [h6] at h8
      cases h8
      replace h := bind_inv h
      obtain ⟨_, s4, h9, h⟩ := h
      obtain ⟨h10, rfl⟩ := require_inv h9
      replace h := bind_inv h
      obtain ⟨b2, s5, h11, h⟩ := h
      rcases isChar_inv h11 with ⟨rfl, h12⟩ | ⟨rfl, rfl, _⟩
      · simp only [Bool.not_true, Bool.false_eq_true, if_false] at h
        replace h := bind_inv h
        obtain ⟨e, s6, h13, h⟩ := h
        obtain ⟨et, h14, rfl⟩ := escaped_inv h13
        obtain ⟨t, x, g1, g2, g3⟩ := ih h
        refine ⟨cs ++ 0x5C :: (et ++ t), cs ++ (e ++ x), Chars.raw_append h5 (Chars.esc _ _ _ _ h14 g1), by rw [g2]; simp, ?_⟩
        rw [h4, h6, h12, g3]; simp
      · simp only [Bool.not_false, if_true] at h
        obtain ⟨t, x, g1, g2, g3⟩ := ih h
        refine ⟨cs ++ t, cs ++ x, Chars.raw_append h5 g1, by rw [g2]; simp, ?_⟩
        rw [h4, h6, g3]; simp

theorem isString_inv {s r : List Nat} {o : Option (List Nat)} (h : isString s = .ok o r) :
    (∃ x t, o = some x ∧ Chars Taken t x ∧ s = 0x22 :: (t ++ 0x22 :: r)) ∨ (o = none ∧ r = s ∧ ∃ c s', s = c :: s' ∧ c ≠ 0x22) := by
  unfold isString at h
  replace h := bind_inv h
  obtain ⟨b, s1, h1, h⟩ := h
  rcases isChar_inv h1 with ⟨rfl, h2⟩ | ⟨rfl, h2, h3⟩
  · simp only [Bool.not_true, Bool.false_eq_true, if_false] at h
    replace h := bind_inv h
    obtain ⟨v, s2, h4, h⟩ := h
    cases h
    obtain ⟨t, x, g1, g2, g3⟩ := strLoop_inv _ h4
    rw [List.nil_append] at g2
    subst g2
    exact Or.inl ⟨v, t, rfl, g1, by rw [h2, g3]⟩
  · cases h
    subst h2
    exact Or.inr ⟨rfl, rfl, h3⟩

/-- how the loop goes through a text: a maximal run of plain characters, then the end or an escape -/
theorem Chars.split {E : List Nat → List Nat → Prop} {t x : List Nat} (h : Chars E t x) :
    ∃ cs, (∀ c ∈ cs, 0x20 ≤ c ∧ c ≠ 0x22 ∧ c ≠ 0x5C) ∧
      ((t = cs ∧ x = cs) ∨ ∃ e b t' x', E e b ∧ Chars E t' x' ∧ t = cs ++ 0x5C :: (e ++ t') ∧ x = cs ++ (b ++ x')) := by
  induction h with
  | nil => exact ⟨[], by simp, Or.inl ⟨rfl, rfl⟩⟩
  | raw c t s h1 h2 h3 _ ih =>
    obtain ⟨cs, h4, h5⟩ := ih
    refine ⟨c :: cs, ?_, ?_⟩
    · intro y hy
      rw [List.mem_cons] at hy
      rcases hy with rfl | hy
      · exact ⟨h1, h2, h3⟩
      · exact h4 y hy
    · rcases h5 with ⟨rfl, rfl⟩ | ⟨e, b, t', x', g1, g2, rfl, rfl⟩
      · exact Or.inl ⟨rfl, rfl⟩
      · exact Or.inr ⟨e, b, t', x', g1, g2, rfl, rfl⟩
  | esc e b t s h1 h2 _ => exact ⟨[], by simp, Or.inr ⟨e, b, t, s, h1, h2, rfl, rfl⟩⟩

theorem strLoop_ok (n : Nat) : ∀ {t x : List Nat} (_ : Chars Taken t x) (acc r : List Nat), t.length + 1 < n → strLoop n acc (t ++ 0x22 :: r) = .ok (acc ++ x) r := by
  induction n with
  | zero => intro t x _ acc r h; omega
  | succ n ih =>
    intro t x hc acc r hn
    by_cases ht : t = []
    · subst ht
      have : x = [] := by cases hc; rfl
      subst this
      rw [List.nil_append, strLoop, bind_ok (a := true) (by rw [isChar_cons, if_pos rfl])]
      simp [pure_eq]
    · have hq : ∃ d t1, t = d :: t1 ∧ d ≠ 0x22 := by
        cases hc with
        | nil => exact absurd rfl ht
        | raw c t s h1 h2 h3 _ => exact ⟨c, t, rfl, h2⟩
        | esc e b t s _ _ => exact ⟨0x5C, _, rfl, by decide⟩
      obtain ⟨d, t1, hd, hdq⟩ := hq
      obtain ⟨cs, h4, h5⟩ := Chars.split hc
      rw [strLoop, bind_ok (a := false) (r := t ++ 0x22 :: r) (by rw [hd, List.cons_append, isChar_cons, if_neg hdq])]
      simp only [Bool.false_eq_true, if_false]
      rcases h5 with ⟨rfl, rfl⟩ | ⟨e, b, t', x', g1, g2, rfl, rfl⟩
      · rw [bind_ok (scan_ok h4 (by decide) r)]
        rw [bind_ok (x := peek) (s := 0x22 :: r) rfl, show (!decide ((0x22 : Nat) < 0x20)) = true from rfl, bind_ok (require_true _), bind_ok (a := false) (by rw [isChar_cons, if_neg (by decide)])]
        simp only [Bool.not_false, if_true]
        have := ih (t := []) (x := []) Chars.nil (acc ++ x) r
        simp only [List.nil_append, List.append_nil] at this
        apply this
        rw [hd] at hn
        simp at hn ⊢; omega
      · rw [List.append_assoc, List.cons_append, bind_ok (scan_ok h4 (by decide) _)]
        rw [bind_ok (x := peek) (s := 0x5C :: (e ++ t' ++ 0x22 :: r)) rfl, show (!decide ((0x5C : Nat) < 0x20)) = true from rfl, bind_ok (require_true _), bind_ok (a := true) (by rw [isChar_cons, if_pos rfl])]
        simp only [Bool.not_true, Bool.false_eq_true, if_false]
        rw [List.append_assoc, bind_ok (escaped_ok g1 _), ih g2]
        · simp
        · simp at hn; omega

theorem isString_ok {t x : List Nat} (h : Chars Taken t x) (r : List Nat) : isString (0x22 :: (t ++ 0x22 :: r)) = .ok (some x) r := by
  unfold isString
  rw [bind_ok (a := true) (by rw [isChar_cons, if_pos rfl])]
  simp only [Bool.not_true, Bool.false_eq_true, if_false]
  rw [bind_ok (strLoop_ok _ h [] r (by simp; omega))]; rfl

theorem isString_no {c : Nat} (h : c ≠ 0x22) (r : List Nat) : isString (c :: r) = .ok none (c :: r) := by
  unfold isString
  rw [bind_ok (a := false) (by rw [isChar_cons, if_neg h])]; rfl

end Verif.Json
