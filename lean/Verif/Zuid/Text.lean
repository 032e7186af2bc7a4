import Verif.Zuid.Spec
import Mathlib.Data.List.Induction
/-!
The textual form.
-/
namespace Verif.Zuid
open Verif.Zuid.Spec

theorem hexDigit_eq {n : Nat} (h : n < 16) : hexDigit n = digit n := by
  have : ∀ n < 16, hexDigit n = digit n := by decide
  exact this n h

theorem hex_length (w v : Nat) : (hex w v).length = w := by
  induction w generalizing v with
  | zero => rfl
  | succ w ih => simp [hex, ih]

theorem hex_zero (w : Nat) : hex w 0 = List.replicate w '0' := by
  induction w with
  | zero => rfl
  | succ w ih =>
    simp only [hex, Nat.zero_div, Nat.zero_mod, ih]
    rw [List.replicate_succ']
    rfl

theorem fmtX_eq {w v : Nat} (hw : 0 < w) (h : v < 16 ^ w) : fmtX w v = hex w v := by
  have key : ∀ w v, v < 16 ^ (w + 1) → (hexMin v).length ≤ w + 1 ∧ fmtX (w + 1) v = hex (w + 1) v := by
    intro w
    induction w with
    | zero =>
      intro v h
      have h16 : v < 16 := by simpa using h
      unfold fmtX
      rw [hexMin]
      simp [h16, hex, hexDigit_eq h16, Nat.mod_eq_of_lt h16]
    | succ w ih =>
      intro v h
      unfold fmtX
      rw [hexMin]
      by_cases h16 : v < 16
      · simp only [h16, if_true, List.length_singleton]
        refine ⟨by omega, ?_⟩
        have : hex (w + 1 + 1) v = hex (w + 1) 0 ++ [digit v] := by
          rw [hex, Nat.div_eq_of_lt h16, Nat.mod_eq_of_lt h16]
        rw [this, hex_zero, hexDigit_eq h16]
        simp
      · simp only [h16, if_false]
        have hd : v / 16 < 16 ^ (w + 1) := by
          rw [Nat.div_lt_iff_lt_mul (by omega)]
          rw [Nat.pow_succ] at h
          exact h
        obtain ⟨h1, h2⟩ := ih (v / 16) hd
        refine ⟨by simp; omega, ?_⟩
        rw [hex, ← h2, hexDigit_eq (Nat.mod_lt _ (by omega))]
        unfold fmtX
        simp only [List.length_append, List.length_singleton]
        rw [show w + 1 + 1 - ((hexMin (v / 16)).length + 1) = w + 1 - (hexMin (v / 16)).length by omega]
        simp
  obtain ⟨w, rfl⟩ : ∃ k, w = k + 1 := ⟨w - 1, by omega⟩
  exact (key w v h).2

theorem vector8 (x : Vector Byte 8) : x.toList = [x[0], x[1], x[2], x[3], x[4], x[5], x[6], x[7]] := by
  have h : x.toList.length = 8 := by simp
  apply List.ext_getElem
  · simp
  · intro i h1 h2
    simp only [List.length_cons, List.length_nil] at h2
    have : i = 0 ∨ i = 1 ∨ i = 2 ∨ i = 3 ∨ i = 4 ∨ i = 5 ∨ i = 6 ∨ i = 7 := by omega
    rcases this with h | h | h | h | h | h | h | h <;> subst h <;> simp

theorem lt32 (x : BitVec 32) : x.toNat < 16 ^ 8 := by have := x.isLt; omega
theorem lt16 (x : BitVec 16) : x.toNat < 16 ^ 4 := by have := x.isLt; omega
theorem lt8 (x : BitVec 8) : x.toNat < 16 ^ 2 := by have := x.isLt; omega

theorem text_eq (u : Uuid) : text u = hex 8 u.data1.toNat ++ ['-'] ++ hex 4 u.data2.toNat ++ ['-'] ++ hex 4 u.data3.toNat ++ ['-'] ++
    hex 2 u.data4[0].toNat ++ hex 2 u.data4[1].toNat ++ ['-'] ++
    hex 2 u.data4[2].toNat ++ hex 2 u.data4[3].toNat ++ hex 2 u.data4[4].toNat ++ hex 2 u.data4[5].toNat ++
    hex 2 u.data4[6].toNat ++ hex 2 u.data4[7].toNat := by
  unfold text
  rw [vector8]
  simp

theorem text_length (u : Uuid) : (text u).length = 36 := by
  rw [text_eq]
  simp [hex_length]

theorem str_eq (u : Uuid) : str u = text u := by
  have : formatUuid u = text u := by
    rw [text_eq]
    unfold formatUuid
    simp only [fmtX_eq (w := 8) (by omega) (lt32 _), fmtX_eq (w := 4) (by omega) (lt16 _), fmtX_eq (w := 2) (by omega) (lt8 _)]
  unfold str
  rw [this, List.take_of_length_le (by rw [text_length])]

/-! ### Reading -/

theorem isHex_iff (c : Char) : isHex c = true ↔ IsHexDigit c := by
  simp [isHex, IsHexDigit, or_assoc]

theorem hex_chars {c : Char} (h : IsHexDigit c) : isSpace c = false ∧ c ≠ '-' ∧ c ≠ '+' ∧ c ≠ 'x' ∧ c ≠ 'X' ∧ c ≠ '\x00' := by
  have h' : (48 ≤ c.toNat ∧ c.toNat ≤ 57) ∨ (97 ≤ c.toNat ∧ c.toNat ≤ 102) ∨ (65 ≤ c.toNat ∧ c.toNat ≤ 70) := by
    rcases h with h | h | h
    · left
      simp [Char.isDigit] at h
      exact ⟨h.1, h.2⟩
    · right; left; exact h
    · right; right; exact h
  have ne : ∀ d : Char, ¬ ((48 ≤ d.toNat ∧ d.toNat ≤ 57) ∨ (97 ≤ d.toNat ∧ d.toNat ≤ 102) ∨ (65 ≤ d.toNat ∧ d.toNat ≤ 70)) → c ≠ d := by
    rintro d hd rfl
    exact hd h'
  refine ⟨?_, ne _ (by decide), ne _ (by decide), ne _ (by decide), ne _ (by decide), ne _ (by decide)⟩
  simp only [isSpace, decide_eq_false_iff_not]
  intro hm
  simp at hm
  rcases hm with hm | hm | hm | hm | hm | hm
  all_goals exact ne _ (by decide) hm

theorem takeWhile_all {p : Char → Bool} {s : Str} (h : ∀ c ∈ s, p c = true) : s.takeWhile p = s := by
  induction s with
  | nil => rfl
  | cons c s ih => rw [List.takeWhile_cons, if_pos (h c (by simp)), ih fun d hd => h d (by simp [hd])]

/-- Two or more digits, exactly as many as are wanted. -/
theorem scanHex_digits {w : Nat} {ds rest : Str} (hw : 2 ≤ w) (hl : ds.length = w) (hd : ∀ c ∈ ds, IsHexDigit c) :
    scanHex w (ds ++ rest) = some ((ofHex ds : Int), rest) := by
  obtain ⟨c, d, ds', rfl⟩ : ∃ c d ds', ds = c :: d :: ds' := by
    match ds, hl with
    | [], h => simp at h; omega
    | [_], h => simp at h; omega
    | c :: d :: ds', _ => exact ⟨c, d, ds', rfl⟩
  have hc := hex_chars (hd c (by simp))
  have hd' := hex_chars (hd d (by simp))
  unfold scanHex
  have e1 : (c :: d :: ds' ++ rest).dropWhile isSpace = c :: d :: ds' ++ rest := by
    simp [hc.1]
  rw [e1]
  simp only [List.cons_append]
  have e2 : scanSign w (c :: d :: (ds' ++ rest)) = (false, w, c :: d :: (ds' ++ rest)) := by
    unfold scanSign
    split
    · next h => cases h; exact absurd rfl hc.2.1
    · next h => cases h; exact absurd rfl hc.2.2.1
    · rfl
  have e3 : scan0x w (c :: d :: (ds' ++ rest)) = (w, c :: d :: (ds' ++ rest)) := by
    unfold scan0x
    split
    · next h => cases h; rw [if_neg (by rintro ⟨h | h, _⟩; exacts [hd'.2.2.2.1 h, hd'.2.2.2.2.1 h])]
    · rfl
  rw [e2]
  simp only
  rw [e3]
  simp only
  have e4 : (c :: d :: (ds' ++ rest)).take w = c :: d :: ds' := by
    have : c :: d :: (ds' ++ rest) = (c :: d :: ds') ++ rest := by simp
    rw [this, ← hl, List.take_left]
  have e5 : (c :: d :: ds').takeWhile isHex = c :: d :: ds' := takeWhile_all fun x hx => (isHex_iff x).mpr (hd x hx)
  rw [e4, e5]
  rw [if_neg (by simp)]
  simp

theorem lit_dash (s : Str) : lit '-' ('-' :: s) = some s := by simp [lit]

theorem lit_bind {α : Type} (s : Str) (f : Str → Option α) : (lit '-' ('-' :: s) >>= f) = f s := by rw [lit_dash]; rfl

theorem scan_bind {α : Type} {w : Nat} {ds rest : Str} (hw : 2 ≤ w) (hl : ds.length = w) (hd : ∀ c ∈ ds, IsHexDigit c)
    {f : Int × Str → Option α} : (scanHex w (ds ++ rest) >>= f) = f ((ofHex ds : Int), rest) := by
  rw [scanHex_digits hw hl hd]; rfl

/-- Reading eleven groups of digits. -/
theorem ofCString_groups {a b c d0 d1 e0 e1 e2 e3 e4 e5 : Str} (ha : a.length = 8) (hb : b.length = 4) (hc : c.length = 4)
    (hd0 : d0.length = 2) (hd1 : d1.length = 2) (he0 : e0.length = 2) (he1 : e1.length = 2) (he2 : e2.length = 2) (he3 : e3.length = 2)
    (he4 : e4.length = 2) (he5 : e5.length = 2)
    (h : ∀ x ∈ a ++ b ++ c ++ d0 ++ d1 ++ e0 ++ e1 ++ e2 ++ e3 ++ e4 ++ e5, IsHexDigit x) :
    ofString (a ++ ['-'] ++ b ++ ['-'] ++ c ++ ['-'] ++ d0 ++ d1 ++ ['-'] ++ e0 ++ e1 ++ e2 ++ e3 ++ e4 ++ e5) =
      some ⟨BitVec.ofNat 32 (ofHex a), BitVec.ofNat 16 (ofHex b), BitVec.ofNat 16 (ofHex c),
        #v[BitVec.ofNat 8 (ofHex d0), BitVec.ofNat 8 (ofHex d1), BitVec.ofNat 8 (ofHex e0), BitVec.ofNat 8 (ofHex e1),
          BitVec.ofNat 8 (ofHex e2), BitVec.ofNat 8 (ofHex e3), BitVec.ofNat 8 (ofHex e4), BitVec.ofNat 8 (ofHex e5)]⟩ := by
  simp only [List.mem_append] at h
  unfold ofString
  rw [List.take_of_length_le (by simp; omega)]
  unfold ofCString
  rw [takeWhile_all]
  swap
  · intro x hx
    have : IsHexDigit x ∨ x = '-' := by
      simp at hx
      by_cases hxd : x = '-'
      · exact .inr hxd
      · left; apply h; simp only [hxd, false_or] at hx; tauto
    rcases this with h1 | rfl
    · simpa using (hex_chars h1).2.2.2.2.2
    · decide
  simp only [List.append_assoc, List.cons_append, List.nil_append]
  rw [scan_bind (by omega) ha fun x hx => h x (by tauto)]
  dsimp only
  rw [lit_bind]
  rw [scan_bind (by omega) hb fun x hx => h x (by tauto)]
  dsimp only
  rw [lit_bind]
  rw [scan_bind (by omega) hc fun x hx => h x (by tauto)]
  dsimp only
  rw [lit_bind]
  rw [scan_bind (by omega) hd0 fun x hx => h x (by tauto)]
  dsimp only
  rw [scan_bind (by omega) hd1 fun x hx => h x (by tauto)]
  dsimp only
  rw [lit_bind]
  rw [scan_bind (by omega) he0 fun x hx => h x (by tauto)]
  dsimp only
  rw [scan_bind (by omega) he1 fun x hx => h x (by tauto)]
  dsimp only
  rw [scan_bind (by omega) he2 fun x hx => h x (by tauto)]
  dsimp only
  rw [scan_bind (by omega) he3 fun x hx => h x (by tauto)]
  dsimp only
  rw [scan_bind (by omega) he4 fun x hx => h x (by tauto)]
  dsimp only
  conv_lhs => rw [show e5 = e5 ++ [] by simp]
  rw [scan_bind (by omega) he5 fun x hx => h x (by tauto)]
  dsimp only
  simp only [BitVec.ofInt_natCast]

theorem digit_spec : ∀ n < 16, IsHexDigit (digit n) ∧ hexValue (digit n) = n ∧ lower (digit n) = digit n := by
  have : ∀ n < 16, isHex (digit n) = true ∧ hexValue (digit n) = n ∧ lower (digit n) = digit n := by
    unfold lower; decide
  intro n h
  exact ⟨(isHex_iff _).mp (this n h).1, (this n h).2⟩

theorem hex_isHex (w v : Nat) : ∀ c ∈ hex w v, IsHexDigit c := by
  induction w generalizing v with
  | zero => simp [hex]
  | succ w ih =>
    intro c hc
    simp only [hex, List.mem_append, List.mem_singleton] at hc
    rcases hc with hc | rfl
    · exact ih _ c hc
    · exact (digit_spec _ (Nat.mod_lt _ (by omega))).1

theorem ofHex_append (s : Str) (c : Char) : ofHex (s ++ [c]) = 16 * ofHex s + hexValue c := by simp [ofHex]

theorem ofHex_hex {w v : Nat} (h : v < 16 ^ w) : ofHex (hex w v) = v := by
  induction w generalizing v with
  | zero => simp at h; subst h; rfl
  | succ w ih =>
    rw [hex, ofHex_append, ih (by rw [Nat.div_lt_iff_lt_mul (by omega)]; rw [Nat.pow_succ] at h; exact h),
      (digit_spec _ (Nat.mod_lt _ (by omega))).2.1]
    omega

theorem hexValue_lt {c : Char} (h : IsHexDigit c) : hexValue c < 16 ∧ digit (hexValue c) = lower c := by
  have h' : (48 ≤ c.toNat ∧ c.toNat ≤ 57) ∨ (97 ≤ c.toNat ∧ c.toNat ≤ 102) ∨ (65 ≤ c.toNat ∧ c.toNat ≤ 70) := by
    rcases h with h | h | h
    · left
      simp [Char.isDigit] at h
      exact ⟨h.1, h.2⟩
    · right; left; exact h
    · right; right; exact h
  have key : ∀ n < 128, ((48 ≤ n ∧ n ≤ 57) ∨ (97 ≤ n ∧ n ≤ 102) ∨ (65 ≤ n ∧ n ≤ 70)) →
      hexValue (Char.ofNat n) < 16 ∧ digit (hexValue (Char.ofNat n)) = lower (Char.ofNat n) := by unfold lower; decide
  have := key c.toNat (by omega) h'
  rwa [Char.ofNat_toNat] at this

theorem hex_ofHex {s : Str} (h : ∀ c ∈ s, IsHexDigit c) : hex s.length (ofHex s) = s.map lower ∧ ofHex s < 16 ^ s.length := by
  induction s using List.reverseRecOn with
  | nil => exact ⟨rfl, by simp [ofHex]⟩
  | append_singleton s c ih =>
    obtain ⟨h1, h2⟩ := ih fun d hd => h d (by simp [hd])
    obtain ⟨h3, h4⟩ := hexValue_lt (h c (by simp))
    rw [ofHex_append, List.length_append, List.length_singleton]
    refine ⟨?_, by rw [Nat.pow_succ]; omega⟩
    rw [hex, show (16 * ofHex s + hexValue c) / 16 = ofHex s by omega, show (16 * ofHex s + hexValue c) % 16 = hexValue c by omega, h1, h4]
    simp

end Verif.Zuid
