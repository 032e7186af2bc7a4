import Verif.Json.Lemmas
/-
The scanner: numbers.
-/
namespace Verif.Json
open Spec (IsWs IsDigit Chars Taken Hex4 Number IntPart FracPart ExpPart hexVal)

theorem digits_ok {ds : List Nat} (h : ∀ c ∈ ds, IsDigit c) {c : Nat} (hc : ¬ IsDigit c) (r : List Nat) : digits (ds ++ c :: r) = .ok () (c :: r) := by
  induction ds with
  | nil => rw [List.nil_append, digits, if_neg (show ¬ (_ ∧ _) from hc)]
  | cons d ds ih =>
    rw [List.cons_append, digits, if_pos (show _ ∧ _ from h d (by simp))]
    exact ih (fun c hc => h c (by simp [hc]))

theorem digits_inv {s r : List Nat} {u : Unit} (h : digits s = .ok u r) : ∃ ds, (∀ c ∈ ds, IsDigit c) ∧ s = ds ++ r ∧ ∃ c r', r = c :: r' ∧ ¬ IsDigit c := by
  induction s with
  | nil => cases h
  | cons c s ih =>
    rw [digits] at h
    split at h
    · next hc =>
      obtain ⟨ds, h1, h2, h3⟩ := ih h
      refine ⟨c :: ds, ?_, by rw [h2]; rfl, h3⟩
      intro x hx
      rw [List.mem_cons] at hx
      rcases hx with rfl | hx
      · exact hc
      · exact h1 x hx
    · next hc => cases h; exact ⟨[], by simp, rfl, c, s, rfl, hc⟩

instance (c : Nat) : Decidable (IsDigit c) := inferInstanceAs (Decidable (_ ∧ _))

theorem isDigit_cons (c : Nat) (r : List Nat) : isDigit (c :: r) = if IsDigit c then .ok true r else .ok false (c :: r) := by
  rw [isDigit, bind_ok (x := peek) (s := c :: r) rfl]
  by_cases h : IsDigit c
  · rw [if_pos h, show decide (0x30 ≤ c ∧ c ≤ 0x39) = true from decide_eq_true h]; rfl
  · rw [if_neg h, show decide (0x30 ≤ c ∧ c ≤ 0x39) = false from decide_eq_false h]; rfl

theorem isDigit_inv {s r : List Nat} {b : Bool} (h : isDigit s = .ok b r) :
    (b = true ∧ ∃ c, IsDigit c ∧ s = c :: r) ∨ (b = false ∧ r = s ∧ ∃ c s', s = c :: s' ∧ ¬ IsDigit c) := by
  cases s with
  | nil => cases h
  | cons c s =>
    rw [isDigit_cons] at h
    split at h
    · next e => cases h; exact Or.inl ⟨rfl, c, e, rfl⟩
    · next e => cases h; exact Or.inr ⟨rfl, rfl, c, s, rfl, e⟩

theorem isInt_ok {t : List Nat} (h : IntPart t) {c : Nat} (hc : ¬ IsDigit c) (r : List Nat) : isInt (t ++ c :: r) = .ok true (c :: r) := by
  cases h with
  | zero => rw [isInt, List.cons_append, bind_ok (a := true) (by rw [isChar_cons, if_pos rfl])]; rfl
  | digits d ds h1 h2 h3 =>
    rw [isInt, List.cons_append, bind_ok (a := false) (by rw [isChar_cons, if_neg (by omega)])]
    simp only [Bool.false_eq_true, if_false]
    rw [bind_ok (a := true) (by rw [isDigit_cons, if_pos ⟨by omega, h2⟩])]
    simp only [Bool.not_true, Bool.false_eq_true, if_false]
    rw [bind_ok (digits_ok h3 hc r)]; rfl

theorem isInt_no {c : Nat} (hc : ¬ IsDigit c) (r : List Nat) : isInt (c :: r) = .ok false (c :: r) := by
  have h0 : c ≠ 0x30 := by rintro rfl; exact hc (by decide)
  rw [isInt, bind_ok (a := false) (by rw [isChar_cons, if_neg h0])]
  simp only [Bool.false_eq_true, if_false]
  rw [bind_ok (a := false) (by rw [isDigit_cons, if_neg hc])]; rfl

theorem isInt_inv {s r : List Nat} {b : Bool} (h : isInt s = .ok b r) :
    (b = true ∧ ∃ t, IntPart t ∧ s = t ++ r) ∨ (b = false ∧ r = s ∧ ∃ c s', s = c :: s' ∧ ¬ IsDigit c) := by
  unfold isInt at h
  replace h := bind_inv h
  obtain ⟨b1, s1, h1, h⟩ := h
  rcases isChar_inv h1 with ⟨rfl, h2⟩ | ⟨rfl, rfl, c0, s0, h3, h4⟩
  · cases h
    exact Or.inl ⟨rfl, [0x30], IntPart.zero, h2⟩
  · simp only [Bool.false_eq_true, if_false] at h
    replace h := bind_inv h
    obtain ⟨b2, s2, h5, h⟩ := h
    rcases isDigit_inv h5 with ⟨rfl, c, h6, h7⟩ | ⟨rfl, h7, h8⟩
    · simp only [Bool.not_true, Bool.false_eq_true, if_false] at h
      replace h := bind_inv h
      obtain ⟨_, s3, h8, h⟩ := h
      cases h
      obtain ⟨ds, g1, g2, _⟩ := digits_inv h8
      refine Or.inl ⟨rfl, c :: ds, IntPart.digits c ds ?_ h6.2 g1, by rw [h7, g2]; rfl⟩
      rw [h7] at h3
      cases h3
      have := h6.1
      omega
    · cases h
      exact Or.inr ⟨rfl, h7, h8⟩

theorem frac_ok {t : List Nat} (h : FracPart t) {c : Nat} (hc : ¬ IsDigit c) (hd : c ≠ 0x2E) (r : List Nat) : frac (t ++ c :: r) = .ok () (c :: r) := by
  cases h with
  | none => rw [frac, List.nil_append, bind_ok (a := false) (by rw [isChar_cons, if_neg hd])]; rfl
  | some d ds h1 h2 =>
    rw [frac, List.cons_append, bind_ok (a := true) (by rw [isChar_cons, if_pos rfl])]
    simp only [Bool.not_true, Bool.false_eq_true, if_false]
    rw [List.cons_append, bind_ok (a := true) (by rw [isDigit_cons, if_pos h1]), bind_ok (require_true _), digits_ok h2 hc]

theorem frac_inv {s r : List Nat} {u : Unit} (h : frac s = .ok u r) : ∃ t, FracPart t ∧ s = t ++ r := by
  unfold frac at h
  replace h := bind_inv h
  obtain ⟨b1, s1, h1, h⟩ := h
  rcases isChar_inv h1 with ⟨rfl, h2⟩ | ⟨rfl, rfl, _⟩
  · simp only [Bool.not_true, Bool.false_eq_true, if_false] at h
    replace h := bind_inv h
    obtain ⟨b2, s2, h3, h⟩ := h
    replace h := bind_inv h
    obtain ⟨_, s3, h4, h⟩ := h
    obtain ⟨rfl, rfl⟩ := require_inv h4
    rcases isDigit_inv h3 with ⟨_, c, h6, h7⟩ | ⟨h6, _⟩
    · obtain ⟨ds, g1, g2, _⟩ := digits_inv h
      exact ⟨_, FracPart.some c ds h6 g1, by rw [h2, h7, g2]; rfl⟩
    · cases h6
  · cases h
    exact ⟨[], FracPart.none, rfl⟩

/-- the end of `exp` -/
def expDigits : M Unit := do
  require (← isDigit)
  digits

theorem exp_eq : exp = (do
    if !(← isChar 0x65) then
      if !(← isChar 0x45) then return ()
    if !(← isChar 0x2D) then
      let _ ← isChar 0x2B
    expDigits) := rfl

theorem expDigits_ok {d : Nat} {ds : List Nat} (h1 : IsDigit d) (h2 : ∀ c ∈ ds, IsDigit c) {c : Nat} (hc : ¬ IsDigit c) (r : List Nat) :
    expDigits (d :: ds ++ c :: r) = .ok () (c :: r) := by
  rw [expDigits, List.cons_append, bind_ok (a := true) (by rw [isDigit_cons, if_pos h1]), bind_ok (require_true _), digits_ok h2 hc]

theorem expDigits_inv {s r : List Nat} {u : Unit} (h : expDigits s = .ok u r) : ∃ d ds, IsDigit d ∧ (∀ c ∈ ds, IsDigit c) ∧ s = d :: ds ++ r := by
  unfold expDigits at h
  replace h := bind_inv h
  obtain ⟨b2, s2, h3, h⟩ := h
  replace h := bind_inv h
  obtain ⟨_, s3, h4, h⟩ := h
  obtain ⟨rfl, rfl⟩ := require_inv h4
  rcases isDigit_inv h3 with ⟨_, c, h6, h7⟩ | ⟨h6, _⟩
  · obtain ⟨ds, g1, g2, _⟩ := digits_inv h
    exact ⟨c, ds, h6, g1, by rw [h7, g2]; rfl⟩
  · cases h6

/-- the sign and the digits of the exponent -/
def expSign : M Unit := do
  if !(← isChar 0x2D) then
    let _ ← isChar 0x2B
  expDigits

theorem expSign_ok {sign : List Nat} (hs : sign = [] ∨ sign = [0x2D] ∨ sign = [0x2B]) {d : Nat} {ds : List Nat} (h1 : IsDigit d) (h2 : ∀ c ∈ ds, IsDigit c)
    {c : Nat} (hc : ¬ IsDigit c) (r : List Nat) : expSign (sign ++ (d :: ds ++ c :: r)) = .ok () (c :: r) := by
  have key := expDigits_ok h1 h2 hc r
  unfold IsDigit at h1
  rcases hs with rfl | rfl | rfl
  · rw [expSign, List.nil_append, bind_ok (a := false) (r := d :: ds ++ c :: r) (by rw [List.cons_append, isChar_cons, if_neg (by omega)])]
    simp only [Bool.not_false, if_true]
    show (isChar 0x2B >>= fun _ => expDigits) _ = _
    rw [bind_ok (a := false) (r := d :: ds ++ c :: r) (by rw [List.cons_append, isChar_cons, if_neg (by omega)]), key]
  · rw [expSign, List.cons_append, bind_ok (a := true) (by rw [isChar_cons, if_pos rfl])]
    exact key
  · rw [expSign, List.cons_append, bind_ok (a := false) (by rw [isChar_cons, if_neg (by omega)])]
    simp only [Bool.not_false, if_true]
    show (isChar 0x2B >>= fun _ => expDigits) _ = _
    rw [bind_ok (a := true) (by rw [isChar_cons, if_pos rfl])]
    exact key

theorem expSign_inv {s r : List Nat} {u : Unit} (h : expSign s = .ok u r) :
    ∃ sign d ds, (sign = [] ∨ sign = [0x2D] ∨ sign = [0x2B]) ∧ IsDigit d ∧ (∀ c ∈ ds, IsDigit c) ∧ s = sign ++ (d :: ds) ++ r := by
  unfold expSign at h
  replace h := bind_inv h
  obtain ⟨b1, s1, h1, h⟩ := h
  rcases isChar_inv h1 with ⟨rfl, h2⟩ | ⟨rfl, rfl, _⟩
  · obtain ⟨d, ds, g1, g2, g3⟩ := expDigits_inv h
    exact ⟨_, d, ds, Or.inr (Or.inl rfl), g1, g2, by rw [h2, g3]; rfl⟩
  · simp only [Bool.not_false, if_true] at h
    replace h : (isChar 0x2B >>= fun _ => expDigits) s1 = _ := h
    replace h := bind_inv h
    obtain ⟨b2, s2, h3, h⟩ := h
    obtain ⟨d, ds, g1, g2, g3⟩ := expDigits_inv h
    rcases isChar_inv h3 with ⟨rfl, h4⟩ | ⟨rfl, rfl, _⟩
    · exact ⟨_, d, ds, Or.inr (Or.inr rfl), g1, g2, by rw [h4, g3]; rfl⟩
    · exact ⟨_, d, ds, Or.inl rfl, g1, g2, by rw [g3]; rfl⟩

theorem exp_cons (c : Nat) (r : List Nat) : exp (c :: r) = if c = 0x65 ∨ c = 0x45 then expSign r else .ok () (c :: r) := by
  rw [exp_eq]
  by_cases h1 : c = 0x65
  · rw [bind_ok (a := true) (by rw [isChar_cons, if_pos h1]), if_pos (Or.inl h1)]; rfl
  · rw [bind_ok (a := false) (by rw [isChar_cons, if_neg h1])]
    simp only [Bool.not_false, if_true]
    by_cases h2 : c = 0x45
    · rw [if_pos (Or.inr h2), bind_ok (a := true) (by rw [isChar_cons, if_pos h2])]; rfl
    · rw [if_neg (by omega), bind_ok (a := false) (by rw [isChar_cons, if_neg h2])]; rfl

theorem exp_ok {t : List Nat} (h : ExpPart t) {c : Nat} (hc : ¬ IsDigit c) (he : c ≠ 0x65) (hE : c ≠ 0x45) (r : List Nat) : exp (t ++ c :: r) = .ok () (c :: r) := by
  cases h with
  | none => rw [List.nil_append, exp_cons, if_neg (by omega)]
  | some e sign d ds h1 h2 h3 h4 =>
    rw [List.cons_append, exp_cons, if_pos h1, List.append_assoc, expSign_ok h2 h3 h4 hc]

theorem exp_inv {s r : List Nat} {u : Unit} (h : exp s = .ok u r) : ∃ t, ExpPart t ∧ s = t ++ r := by
  cases s with
  | nil => cases h
  | cons c s =>
    rw [exp_cons] at h
    split at h
    · next hc =>
      obtain ⟨sign, d, ds, h1, h2, h3, h4⟩ := expSign_inv h
      exact ⟨_, ExpPart.some c sign d ds hc h1 h2 h3, by rw [h4]; rfl⟩
    · cases h; exact ⟨[], ExpPart.none, rfl⟩

/-- a character that cannot continue a number -/
def Stop (c : Nat) : Prop := ¬ IsDigit c ∧ c ≠ 0x2E ∧ c ≠ 0x65 ∧ c ≠ 0x45

theorem exp_head {t : List Nat} (h : ExpPart t) {c : Nat} (hc : Stop c) (r : List Nat) : ∃ d s, t ++ c :: r = d :: s ∧ ¬ IsDigit d ∧ d ≠ 0x2E := by
  cases h with
  | none => exact ⟨c, r, rfl, hc.1, hc.2.1⟩
  | some e sign d ds h1 h2 h3 h4 => exact ⟨e, _, rfl, by rintro ⟨_, _⟩; omega, by omega⟩

theorem frac_head {t : List Nat} (h : FracPart t) {c : Nat} (hc : ¬ IsDigit c) (r : List Nat) : ∃ d s, t ++ c :: r = d :: s ∧ ¬ IsDigit d := by
  cases h with
  | none => exact ⟨c, r, rfl, hc⟩
  | some d ds h1 h2 => exact ⟨_, _, rfl, by decide⟩

theorem int_head {t : List Nat} (h : IntPart t) : ∃ d s, t = d :: s ∧ IsDigit d := by
  cases h with
  | zero => exact ⟨_, _, rfl, by decide⟩
  | digits d ds h1 h2 h3 => exact ⟨_, _, rfl, by omega, h2⟩

variable {N : Type} {strtod : List Nat → Option N}

theorem isNumber_ok {t : List Nat} (h : Number t) {x : N} (hx : strtod t = some x) {c : Nat} (hc : Stop c) (r : List Nat) :
    isNumber strtod (t ++ c :: r) = .ok (some x) (c :: r) := by
  cases h with
  | mk sign int fr ex h1 h2 h3 h4 =>
    obtain ⟨ce, se, e1, e2, e3⟩ := exp_head h4 hc r
    obtain ⟨cf, sf, f1, f2⟩ := frac_head h3 e2 se
    obtain ⟨ci, si, i1, i2⟩ := int_head h2
    have hE := exp_ok h4 hc.1 hc.2.2.1 hc.2.2.2 r
    have hF := frac_ok h3 e2 e3 se
    have hI := isInt_ok h2 f2 sf
    rw [← f1] at hI
    rw [← e1] at hF hI
    have hneg : ∃ b, isChar 0x2D (sign ++ int ++ fr ++ ex ++ c :: r) = .ok b (int ++ (fr ++ (ex ++ c :: r))) := by
      rcases h1 with rfl | rfl
      · refine ⟨false, ?_⟩
        have : ci ≠ 0x2D := by unfold IsDigit at i2; omega
        rw [i1]
        simp [isChar_cons, this]
      · exact ⟨true, by simp [isChar_cons]⟩
    obtain ⟨b, hneg⟩ := hneg
    unfold isNumber
    rw [bind_ok hneg, bind_ok hI]
    simp only [Bool.not_true, Bool.false_eq_true, if_false]
    rw [bind_ok hF, bind_ok hE, convert]
    simp only [List.length_append, List.length_cons]
    rw [show (sign.length + int.length + fr.length + ex.length + (r.length + 1) - (r.length + 1)) = (sign ++ int ++ fr ++ ex).length by simp; omega,
      List.take_left, hx]

theorem isNumber_no {c : Nat} (h1 : c ≠ 0x2D) (h2 : ¬ IsDigit c) (r : List Nat) : isNumber strtod (c :: r) = .ok none (c :: r) := by
  unfold isNumber
  rw [bind_ok (a := false) (by rw [isChar_cons, if_neg h1]), bind_ok (isInt_no h2 r)]
  rfl

theorem isNumber_inv {s r : List Nat} {o : Option N} (h : isNumber strtod s = .ok o r) :
    (∃ x t, o = some x ∧ Number t ∧ strtod t = some x ∧ s = t ++ r) ∨ (o = none ∧ r = s ∧ ∃ c s', s = c :: s' ∧ c ≠ 0x2D ∧ ¬ IsDigit c) := by
  unfold isNumber at h
  replace h := bind_inv h
  obtain ⟨neg, s1, h1, h⟩ := h
  replace h := bind_inv h
  obtain ⟨b, s2, h2, h⟩ := h
  rcases isInt_inv h2 with ⟨rfl, ti, h3, h4⟩ | ⟨rfl, h3, c, s', h4, h5⟩
  · simp only [Bool.not_true, Bool.false_eq_true, if_false] at h
    replace h := bind_inv h
    obtain ⟨_, s3, h5, h⟩ := h
    replace h := bind_inv h
    obtain ⟨_, s4, h6, h⟩ := h
    obtain ⟨tf, h7, h8⟩ := frac_inv h5
    obtain ⟨te, h9, h10⟩ := exp_inv h6
    have hs : ∃ sign, (sign = [] ∨ sign = [0x2D]) ∧ s = sign ++ s1 := by
      rcases isChar_inv h1 with ⟨_, e⟩ | ⟨_, e, _⟩
      · exact ⟨_, Or.inr rfl, e⟩
      · exact ⟨_, Or.inl rfl, e.symm⟩
    obtain ⟨sign, g1, g2⟩ := hs
    have e : s = (sign ++ ti ++ tf ++ te) ++ s4 := by rw [g2, h4, h8, h10]; simp
    have : s.take (s.length - s4.length) = sign ++ ti ++ tf ++ te := by
      rw [e, List.length_append, Nat.add_sub_cancel, List.take_left]
    rw [convert, this] at h
    split at h
    · next x hx =>
      cases h
      exact Or.inl ⟨x, _, rfl, Number.mk sign ti tf te g1 h3 h7 h9, hx, e⟩
    · cases h
  · simp only [Bool.not_false, if_true] at h
    replace h := bind_inv h
    obtain ⟨_, s3, h6, h⟩ := h
    obtain ⟨h7, rfl⟩ := require_inv h6
    cases h
    refine Or.inr ⟨rfl, ?_⟩
    rcases isChar_inv h1 with ⟨rfl, _⟩ | ⟨_, h8, c', s'', h9, h10⟩
    · cases h7
    · subst h8
      subst h3
      rw [h4] at h9
      cases h9
      exact ⟨rfl, c, s', h4, h10, h5⟩

end Verif.Json
