import Verif.Unicode.Lemmas

namespace Verif.Unicode

/-- every conversion loop of `copy_utf` on well-formed text, for every pair of widths except 8→8 and 16→16 (plain copies) -/
theorem copyUtf_spec (s d : W) (junks : Nat → Nat) (cs : List Nat) (hcs : ∀ c ∈ cs, IsScalar c) (n : Nat)
    (hn : cs.length ≤ n) : copyUtf s d junks n (cs.flatMap (spec s)) = .done (cs.flatMap (spec d)) true := by
  have h := loop_spec s d junks cs hcs n hn
  cases s <;> cases d <;> first | rfl | exact h

theorem flatMap_single (cs : List Nat) : cs.flatMap (fun c => [c]) = cs := by
  induction cs with
  | nil => rfl
  | cons a t ih => simp [ih]

/-! ### C25 -/

/-- Any sequence of Unicode scalar values converts to exactly its standard UTF-8 form; no assertion fires and the loop
    ends after as many steps as there are code points. -/
theorem C25_utf32_to_utf8 (cs : List Nat) (hcs : ∀ c ∈ cs, IsScalar c) (junks : Nat → Nat) (n : Nat) (hn : cs.length ≤ n) :
    copyUtf .u32 .u8 junks n cs = .done (cs.flatMap utf8Spec) true := by
  have := copyUtf_spec .u32 .u8 junks cs hcs n hn
  simp only [spec, flatMap_single] at this
  exact this

/-- … and converting back gives the original sequence. -/
theorem C25_roundtrip (cs : List Nat) (hcs : ∀ c ∈ cs, IsScalar c) (junks junks' : Nat → Nat) (n n' : Nat)
    (hn : cs.length ≤ n) (hn' : cs.length ≤ n') :
    ∃ bytes, copyUtf .u32 .u8 junks n cs = .done bytes true ∧ copyUtf .u8 .u32 junks' n' bytes = .done cs true := by
  refine ⟨_, C25_utf32_to_utf8 cs hcs junks n hn, ?_⟩
  have := copyUtf_spec .u8 .u32 junks' cs hcs n' hn'
  simp only [spec, flatMap_single] at this
  exact this

/-- Different texts have different UTF-8 (consequence: nothing is lost). -/
theorem C25_injective (cs cs' : List Nat) (h : ∀ c ∈ cs, IsScalar c) (h' : ∀ c ∈ cs', IsScalar c)
    (heq : copyUtf .u32 .u8 (fun _ => 0) cs.length cs = copyUtf .u32 .u8 (fun _ => 0) cs'.length cs') : cs = cs' := by
  rw [C25_utf32_to_utf8 cs h _ _ (Nat.le_refl _), C25_utf32_to_utf8 cs' h' _ _ (Nat.le_refl _)] at heq
  have he : cs.flatMap utf8Spec = cs'.flatMap utf8Spec := by injection heq
  have a := copyUtf_spec .u8 .u32 (fun _ => 0) cs h (cs.length + cs'.length) (by omega)
  have b := copyUtf_spec .u8 .u32 (fun _ => 0) cs' h' (cs.length + cs'.length) (by omega)
  simp only [spec, flatMap_single] at a b
  rw [he, b] at a
  injection a with a1 _
  exact a1.symm

example : ∀ c ∈ [0x41, 0xE9, 0x20AC, 0x1F600, 0x10FFFF], IsScalar c := by simp [IsScalar]
example : copyUtf .u32 .u8 (fun _ => 0) 5 [0x41, 0xE9, 0x20AC, 0x1F600]
    = .done [0x41, 0xC3, 0xA9, 0xE2, 0x82, 0xAC, 0xF0, 0x9F, 0x98, 0x80] true := by decide

/-! ### C26 -/

theorem C26_utf32_to_utf16 (cs : List Nat) (hcs : ∀ c ∈ cs, IsScalar c) (junks : Nat → Nat) (n : Nat) (hn : cs.length ≤ n) :
    copyUtf .u32 .u16 junks n cs = .done (cs.flatMap utf16Spec) true := by
  have := copyUtf_spec .u32 .u16 junks cs hcs n hn
  simp only [spec, flatMap_single] at this
  exact this

theorem C26_roundtrip (cs : List Nat) (hcs : ∀ c ∈ cs, IsScalar c) (junks junks' : Nat → Nat) (n n' : Nat)
    (hn : cs.length ≤ n) (hn' : cs.length ≤ n') :
    ∃ units, copyUtf .u32 .u16 junks n cs = .done units true ∧ copyUtf .u16 .u32 junks' n' units = .done cs true := by
  refine ⟨_, C26_utf32_to_utf16 cs hcs junks n hn, ?_⟩
  have := copyUtf_spec .u16 .u32 junks' cs hcs n' hn'
  simp only [spec, flatMap_single] at this
  exact this

/-- The direct conversions 8→16 and 16→8 agree with going through UTF-32. -/
theorem C26_utf8_utf16 (cs : List Nat) (hcs : ∀ c ∈ cs, IsScalar c) (junks : Nat → Nat) (n : Nat) (hn : cs.length ≤ n) :
    copyUtf .u8 .u16 junks n (cs.flatMap utf8Spec) = .done (cs.flatMap utf16Spec) true ∧
    copyUtf .u16 .u8 junks n (cs.flatMap utf16Spec) = .done (cs.flatMap utf8Spec) true :=
  ⟨copyUtf_spec .u8 .u16 junks cs hcs n hn, copyUtf_spec .u16 .u8 junks cs hcs n hn⟩

/-- One unit up to U+FFFF; above it a lead surrogate followed by a trail surrogate. -/
theorem C26_surrogates (c : Nat) (hc : IsScalar c) (junks : Nat → Nat) :
    ∃ units, copyUtf .u32 .u16 junks 1 [c] = .done units true ∧
      (c ≤ 0xFFFF → units = [c]) ∧
      (0xFFFF < c → ∃ hi lo, units = [hi, lo] ∧ 0xD800 ≤ hi ∧ hi ≤ 0xDBFF ∧ 0xDC00 ≤ lo ∧ lo ≤ 0xDFFF ∧
        c = 0x10000 + (hi - 0xD800) * 0x400 + (lo - 0xDC00)) := by
  refine ⟨_, C26_utf32_to_utf16 [c] (by simpa using hc) junks 1 (by simp), ?_, ?_⟩
  · intro h; simp [utf16Spec, h]
  · intro h
    refine ⟨0xD800 + (c - 0x10000) / 1024, 0xDC00 + (c - 0x10000) % 1024, ?_, ?_⟩
    · simp [utf16Spec, Nat.not_le.2 h]
    · have := hc.1
      omega

example : copyUtf .u32 .u16 (fun _ => 0) 2 [0x41, 0x1F600] = .done [0x41, 0xD83D, 0xDE00] true := by decide

/-! ### C27 : arbitrary (also ill-formed) input -/

theorem promotion_some (n : Nat) (hn : 0 < n) (hdr : Bool) (l : List Nat) (hl : l ≠ []) :
    ∃ d, promotion n hdr l = some d ∧ d.rest.length < l.length ∧ (d.ok = true → d.rest.length + n = l.length) := by
  induction n generalizing hdr l with
  | zero => omega
  | succ n ih =>
    cases l with
    | nil => exact absurd rfl hl
    | cons b rest =>
      cases n with
      | zero => exact ⟨_, rfl, by simp, by simp⟩
      | succ n =>
        cases rest with
        | nil => exact ⟨_, rfl, by simp, by simp⟩
        | cons r rs =>
          obtain ⟨d, hd, h1, h2⟩ := ih (by omega) false (r :: rs) (by simp)
          refine ⟨_, by simp only [promotion, hd]; rfl, ?_, ?_⟩
          · simp at h1 ⊢; omega
          · intro h; have := h2 h; simp at this ⊢; omega

/-- Every decoder applied to non-empty input is defined and never moves backwards; only a byte ≥ 0xF8 makes no progress. -/
theorem decoder_some (w : W) (junk b : Nat) (l : List Nat) :
    ∃ d, decoder w junk (b :: l) = some d ∧ d.rest.length ≤ l.length + 1 ∧
      ((w = .u8 → b < 0xF8) → d.rest.length ≤ l.length) ∧ (d.ok = true → d.rest.length ≤ l.length) ∧
      (∀ x ∈ d.rest, x ∈ b :: l) := by
  have psuf : ∀ n hdr (l : List Nat) d, promotion n hdr l = some d → ∀ x ∈ d.rest, x ∈ l := by
    intro n
    induction n with
    | zero =>
      intro hdr l d h
      cases l with
      | nil => simp [promotion] at h
      | cons a t => simp [promotion] at h; subst h; exact fun x hx => hx
    | succ n ih =>
      intro hdr l d h x hx
      cases l with
      | nil => simp [promotion] at h
      | cons a t =>
        cases n with
        | zero => simp [promotion] at h; subst h; simp at hx; simp [hx]
        | succ n =>
          cases t with
          | nil => simp [promotion] at h; subst h; simp at hx
          | cons r rs =>
            simp only [promotion] at h
            cases hp : promotion (n + 1) false (r :: rs) with
            | none => simp [hp] at h
            | some d' =>
              simp [hp] at h; subst h
              have := ih false (r :: rs) d' hp x (by simpa using hx)
              exact List.mem_cons_of_mem _ this
  cases w with
  | u8 =>
    simp only [decoder, decode8]
    by_cases h1 : b < 128
    · rw [if_pos h1]; exact ⟨_, rfl, by simp, by simp, by simp, by simp +contextual⟩
    · rw [if_neg h1]
      by_cases h2 : b < 224
      · rw [if_pos h2]
        obtain ⟨d, hd, a1, a2⟩ := promotion_some 2 (by omega) true (b :: l) (by simp)
        rw [hd]
        refine ⟨_, rfl, ?_, ?_, ?_, ?_⟩
        · simp at a1 ⊢; omega
        · intro _; simp at a1 ⊢; omega
        · intro _; simp at a1 ⊢; omega
        · exact psuf _ _ _ d hd
      · rw [if_neg h2]
        by_cases h3 : b < 240
        · rw [if_pos h3]
          obtain ⟨d, hd, a1, a2⟩ := promotion_some 3 (by omega) true (b :: l) (by simp)
          rw [hd]
          refine ⟨_, rfl, ?_, ?_, ?_, ?_⟩
          · simp at a1 ⊢; omega
          · intro _; simp at a1 ⊢; omega
          · intro _; simp at a1 ⊢; omega
          · exact psuf _ _ _ d hd
        · rw [if_neg h3]
          by_cases h4 : b < 248
          · rw [if_pos h4]
            obtain ⟨d, hd, a1, a2⟩ := promotion_some 4 (by omega) true (b :: l) (by simp)
            rw [hd]
            refine ⟨_, rfl, ?_, ?_, ?_, ?_⟩
            · simp at a1 ⊢; omega
            · intro _; simp at a1 ⊢; omega
            · intro _; simp at a1 ⊢; omega
            · exact psuf _ _ _ d hd
          · rw [if_neg h4]
            refine ⟨_, rfl, by simp, ?_, by simp, by simp⟩
            intro h; exact absurd (by simpa using h) h4
  | u16 =>
    simp only [decoder, decode16]
    by_cases h1 : b < 0xD800
    · rw [if_pos h1]; exact ⟨_, rfl, by simp, by simp, by simp, by simp +contextual⟩
    · rw [if_neg h1]
      by_cases h2 : b < 0xDC00
      · rw [if_pos h2]
        cases l with
        | nil => exact ⟨_, rfl, by simp, by simp, by simp, by simp⟩
        | cons t r => exact ⟨_, rfl, by simp; omega, by simp, by simp, by simp +contextual⟩
      · rw [if_neg h2]; exact ⟨_, rfl, by simp, by simp, by simp, by simp +contextual⟩
  | u32 => exact ⟨_, rfl, by simp, by simp, by simp, by simp +contextual⟩

/-- C27: the conversion never reads outside `[first, last)` – whatever the bytes, the uninitialised values and however
    long it has been running. -/
theorem C27_never_reads_past_end (s d : W) (junks : Nat → Nat) (n : Nat) (l : List Nat) :
    copyUtf s d junks n l ≠ .ub := by
  have key : ∀ n l, loop (decoder s) (encoder d) junks n l ≠ .ub := by
    intro n
    induction n with
    | zero => intro l; cases l <;> simp [loop]
    | succ n ih =>
      intro l
      cases l with
      | nil => simp [loop]
      | cons b l =>
        obtain ⟨r, hr, _⟩ := decoder_some s (junks n) b l
        simp only [loop, hr]
        have := ih r.rest
        cases h : loop (decoder s) (encoder d) junks n r.rest with
        | ub => exact absurd h this
        | done o k => simp [Res.cons]
        | running o => simp [Res.cons]
  cases s <;> cases d <;> first | exact key n l | simp [copyUtf]

/-- Units of the source sequence are in range for their width. -/
def InRange : W → Nat → Prop
  | .u8, b => b < 256
  | .u16, b => b < 65536
  | .u32, _ => True

/-- C27 (termination): every conversion stops after at most one step per source unit, unless an 8-bit source contains a
    byte 0xF8..0xFF. -/
theorem C27_terminates_partial (s d : W) (junks : Nat → Nat) (l : List Nat) (h : s = .u8 → ∀ b ∈ l, b < 0xF8) (n : Nat)
    (hn : l.length ≤ n) : ∃ out ok, copyUtf s d junks n l = .done out ok := by
  have key : ∀ n l, (s = .u8 → ∀ b ∈ l, b < 0xF8) → l.length ≤ n →
      ∃ out ok, loop (decoder s) (encoder d) junks n l = .done out ok := by
    intro n
    induction n with
    | zero => intro l _ hl; cases l <;> simp [loop] at hl ⊢
    | succ n ih =>
      intro l hb hl
      cases l with
      | nil => simp [loop]
      | cons b l =>
        obtain ⟨r, hr, _, h2, _, h4⟩ := decoder_some s (junks n) b l
        simp only [loop, hr]
        have hlen := h2 (fun e => hb e b (by simp))
        obtain ⟨o, k, e⟩ := ih r.rest (fun e x hx => hb e x (h4 x hx)) (by simp at hl; omega)
        rw [e]; exact ⟨_, _, rfl⟩
  cases s <;> cases d <;> first | exact key n l h hn | exact ⟨_, _, rfl⟩

/-- C27 fails in a build without assertions: on a byte 0xF8..0xFF the loop never advances.  For every number of steps
    `n` the conversion of `[b]` to UTF-32 is still running and has already written `n` units. -/
theorem C27_terminates_violated (b : Nat) (hb : 0xF8 ≤ b) (rest : List Nat) (junks : Nat → Nat) (n : Nat) :
    ∃ out, copyUtf .u8 .u32 junks n (b :: rest) = .running out ∧ out.length = n := by
  show ∃ out, loop (decoder .u8) (encoder .u32) junks n (b :: rest) = .running out ∧ out.length = n
  induction n with
  | zero => exact ⟨[], rfl, rfl⟩
  | succ n ih =>
    obtain ⟨o, ho, hl⟩ := ih
    have hd : decoder .u8 (junks n) (b :: rest) = some ⟨junks n, b :: rest, false⟩ := by
      simp only [decoder, decode8]
      rw [if_neg (by omega), if_neg (by omega), if_neg (by omega), if_neg (by omega)]
      rfl
    simp only [loop, hd, ho, Res.cons]
    exact ⟨_, rfl, by simp [encoder, encode32, hl]⟩

/-- A debug build (assertions stop the program) terminates on every input within one step per source unit and never reads
    past the end. -/
theorem C27_debug_terminates (s d : W) (junks : Nat → Nat) (l : List Nat) (n : Nat) (hn : l.length ≤ n) :
    ∃ out, copyUtfDebug s d junks n l = .done out ∨ copyUtfDebug s d junks n l = .asserted out := by
  have key : ∀ n l, l.length ≤ n → ∃ out, loopD (decoder s) (encoder d) junks n l = .done out ∨
      loopD (decoder s) (encoder d) junks n l = .asserted out := by
    intro n
    induction n with
    | zero => intro l hl; cases l <;> simp [loopD] at hl ⊢
    | succ n ih =>
      intro l hl
      cases l with
      | nil => simp [loopD]
      | cons b l =>
        obtain ⟨r, hr, _, _, h3, _⟩ := decoder_some s (junks n) b l
        simp only [loopD, hr]
        by_cases hok : (r.ok && (encoder d r.code).2) = true
        · rw [if_pos hok]
          have hlen := h3 (by simp at hok; exact hok.1)
          obtain ⟨o, e⟩ := ih r.rest (by simp at hl; omega)
          rcases e with e | e
          · exact ⟨_, Or.inl (by rw [e]; rfl)⟩
          · exact ⟨_, Or.inr (by rw [e]; rfl)⟩
        · rw [if_neg hok]; exact ⟨_, Or.inr rfl⟩
  cases s <;> cases d <;> first | exact key n l hn | exact ⟨_, Or.inl rfl⟩

/-! #### expansion bound -/

theorem demotion_length (n : Nat) (hdr : Bool) (c : Nat) : (demotion n hdr c).length = n := by
  induction n generalizing hdr with
  | zero => rfl
  | succ n ih =>
    cases n with
    | zero => rfl
    | succ n => simp [demotion, ih]

theorem encode8_len (c : Nat) : (encode8 c).1.length ≤ 4 ∧ (c < 2 ^ 16 → (encode8 c).1.length ≤ 3) := by
  unfold encode8
  by_cases h1 : c < 2 ^ 7
  · rw [if_pos h1]; simp
  · rw [if_neg h1]
    by_cases h2 : c < 2 ^ 11
    · rw [if_pos h2]; simp [demotion_length]
    · rw [if_neg h2]
      by_cases h3 : c < 2 ^ 16
      · rw [if_pos h3]; simp [demotion_length]
      · rw [if_neg h3]
        by_cases h4 : c < 2 ^ 21
        · rw [if_pos h4]; simp only [demotion_length]; omega
        · rw [if_neg h4]; simp

theorem encode16_len (c : Nat) : (encode16 c).1.length ≤ 2 ∧ (c < 2 ^ 16 → (encode16 c).1.length ≤ 1) := by
  unfold encode16
  by_cases h1 : c < 0x10000
  · rw [if_pos h1]; simp
  · rw [if_neg h1]; simp; omega

/-- value bound for n continuation-style fragments -/
theorem promotion_lt (n : Nat) (hdr : Bool) (l : List Nat) (d : Dec) (h : promotion n hdr l = some d) (k : Nat)
    (hk : ∀ b t, l = b :: t → n ≠ 1 → stripMask (header (if hdr then n else 0)) b < 2 ^ k) (h7 : 2 ≤ n → 1 ≤ k) (hn : 0 < n) :
    n = 1 ∧ d.code < 2 ^ 7 ∨ 2 ≤ n ∧ d.code < 2 ^ ((n - 1) * 6 + max k 1) := by
  induction n generalizing hdr l d k with
  | zero => omega
  | succ n ih =>
    cases l with
    | nil => simp [promotion] at h
    | cons b rest =>
      cases n with
      | zero =>
        left
        simp [promotion] at h
        subst h
        refine ⟨rfl, ?_⟩
        simp only [promote, header, strip_80]
        have : (1 - 1) * 6 = 0 := rfl
        rw [this, Nat.shiftLeft_zero]
        have := Nat.mod_lt b (show 0 < 128 by omega)
        simpa using this
      | succ n =>
        right
        refine ⟨by omega, ?_⟩
        cases rest with
        | nil => simp [promotion] at h; subst h; exact Nat.two_pow_pos _
        | cons r rs =>
          simp only [promotion] at h
          cases hp : promotion (n + 1) false (r :: rs) with
          | none => simp [hp] at h
          | some d' =>
            simp [hp] at h
            subst h
            have hs := hk b (r :: rs) rfl (by omega)
            have ih' := ih false (r :: rs) d' hp 7 (by
              intro b' t' _ _
              simp only [Bool.false_eq_true, if_false, header, strip_80]
              have := Nat.mod_lt b' (show 0 < 128 by omega)
              simpa using this) (by omega) (by omega)
            have hd' : d'.code < 2 ^ ((n + 1) * 6 + 1) := by
              rcases ih' with ⟨e, h⟩ | ⟨_, h⟩
              · have : n = 0 := by omega
                subst this; simpa using h
              · have e : (n + 1 - 1) * 6 + max 7 1 = (n + 1) * 6 + 1 := by
                  simp; omega
                rwa [e] at h
            apply Nat.or_lt_two_pow
            · rw [promote, Nat.shiftLeft_eq, Nat.mul_comm, Nat.add_comm _ (max k 1), Nat.pow_add,
                Nat.mul_comm (2 ^ max k 1)]
              apply Nat.mul_lt_mul_of_pos_left _ (Nat.two_pow_pos _)
              exact Nat.lt_of_lt_of_le hs (Nat.pow_le_pow_right (by omega) (by omega))
            · exact Nat.lt_of_lt_of_le hd' (Nat.pow_le_pow_right (by omega) (by have := Nat.le_max_right k 1; simp; omega))

theorem decode8_code (junk b : Nat) (l : List Nat) (d : Dec) (h : decode8 junk (b :: l) = some d) (hb : b < 0xF8) :
    d.code < 2 ^ 16 ∨ d.rest.length + 2 ≤ l.length + 1 := by
  simp only [decode8] at h
  by_cases h1 : b < 128
  · rw [if_pos h1] at h; simp at h; subst h; left; simp; omega
  · rw [if_neg h1] at h
    by_cases h2 : b < 224
    · rw [if_pos h2] at h
      obtain ⟨p, hp, _⟩ := promotion_some 2 (by omega) true (b :: l) (by simp)
      rw [hp] at h; simp at h; subst h
      left
      have := promotion_lt 2 true (b :: l) p hp 6 (by
        intro b' t' _ _; simp only [if_true, header, strip_C0]
        have := Nat.mod_lt b' (show 0 < 64 by omega); simpa using this) (by omega) (by omega)
      simp at this ⊢; omega
    · rw [if_neg h2] at h
      by_cases h3 : b < 240
      · rw [if_pos h3] at h
        obtain ⟨p, hp, _⟩ := promotion_some 3 (by omega) true (b :: l) (by simp)
        rw [hp] at h; simp at h; subst h
        left
        have := promotion_lt 3 true (b :: l) p hp 4 (by
          intro b' t' e _; simp only [if_true, header, strip_E0]
          injection e with e1 _
          subst e1
          simp; omega) (by omega) (by omega)
        simp at this ⊢; omega
      · rw [if_neg h3, if_pos hb] at h
        cases l with
        | nil => simp [promotion] at h; subst h; left; simp
        | cons r rs =>
          obtain ⟨p, hp, hlt, _⟩ := promotion_some 3 (by omega) false (r :: rs) (by simp)
          simp only [promotion, hp] at h
          simp at h; subst h; right
          simp at hlt ⊢; omega

/-- one step of the loop respects the expansion factor -/
theorem step_expand (s d : W) (junk b : Nat) (l : List Nat) (r : Dec) (h : decoder s junk (b :: l) = some r)
    (hr : InRange s b) (hF8 : s = .u8 → b < 0xF8)
    (hlead : s = .u16 → d = .u8 → l = [] → ¬ (0xD800 ≤ b ∧ b < 0xDC00))
    (hsame : ¬ (s = .u16 ∧ d = .u16)) (hsame8 : ¬ (s = .u8 ∧ d = .u8)) :
    (encoder d r.code).1.length + expand s d * r.rest.length ≤ expand s d * (l.length + 1) := by
  obtain ⟨r', hr', _, h2, _, _⟩ := decoder_some s junk b l
  rw [h] at hr'; injection hr' with e; subst e
  have hlen := h2 hF8
  cases d with
  | u32 => cases s <;> simp [encoder, encode32, expand] <;> omega
  | u8 =>
    have := (encode8_len r.code).1
    have h3 := (encode8_len r.code).2
    cases s with
    | u32 => simp [encoder, expand]; omega
    | u8 => exact absurd ⟨rfl, rfl⟩ hsame8
    | u16 =>
      simp only [encoder, expand]
      simp only [decoder, decode16] at h
      simp only [InRange] at hr
      by_cases c1 : b < 0xD800
      · rw [if_pos c1] at h; injection h with h; subst h
        have := h3 (by simp; omega); simp at this ⊢; omega
      · rw [if_neg c1] at h
        by_cases c2 : b < 0xDC00
        · rw [if_pos c2] at h
          cases l with
          | nil => exact absurd ⟨by omega, c2⟩ (hlead rfl rfl rfl)
          | cons t rs =>
            injection h with h
            have e : r.rest = rs := by rw [← h]
            rw [e]; simp; omega
        · rw [if_neg c2] at h; injection h with h; subst h
          have := h3 (by simp; omega); simp at this ⊢; omega
  | u16 =>
    have a := (encode16_len r.code).1
    have h3 := (encode16_len r.code).2
    cases s with
    | u32 => simp [encoder, expand]; omega
    | u16 => exact absurd ⟨rfl, rfl⟩ hsame
    | u8 =>
      simp only [encoder, expand]
      rcases decode8_code junk b l r h (hF8 rfl) with c | c
      · have := h3 c; omega
      · omega

/-- C27 (expansion): the number of units written is at most `expand_utf` times the number of units read, for every input
    except: an 8-bit source containing a byte ≥ 0xF8, and a 16-bit source ending in an unpaired lead surrogate converted
    to UTF-8 – see the violations below. -/
theorem C27_expansion_partial (s d : W) (junks : Nat → Nat) (n : Nat) (l : List Nat) (hr : ∀ b ∈ l, InRange s b)
    (hF8 : s = .u8 → ∀ b ∈ l, b < 0xF8)
    (hlead : s = .u16 → d = .u8 → ∀ b, l.getLast? = some b → ¬ (0xD800 ≤ b ∧ b < 0xDC00)) (out : List Nat) :
    (∀ ok, copyUtf s d junks n l = .done out ok → out.length ≤ expand s d * l.length) ∧
    (copyUtf s d junks n l = .running out → out.length ≤ expand s d * l.length) := by
  have suf : ∀ (b : Nat) (l : List Nat) (junk : Nat) (r : Dec), decoder .u16 junk (b :: l) = some r → ∃ p, b :: l = p ++ r.rest := by
    intro b l junk r h
    simp only [decoder, decode16] at h
    by_cases c1 : b < 0xD800
    · rw [if_pos c1] at h; injection h with h; subst h; exact ⟨[b], rfl⟩
    · rw [if_neg c1] at h
      by_cases c2 : b < 0xDC00
      · rw [if_pos c2] at h
        cases l with
        | nil => injection h with h; subst h; exact ⟨[b], rfl⟩
        | cons t rs => injection h with h; subst h; exact ⟨[b, t], rfl⟩
      · rw [if_neg c2] at h; injection h with h; subst h; exact ⟨[b], rfl⟩
  by_cases hsame : s = .u16 ∧ d = .u16
  · obtain ⟨rfl, rfl⟩ := hsame
    simp only [copyUtf]
    refine ⟨fun ok h => ?_, fun h => by cases h⟩
    injection h with h _; subst h; simp [expand]
  by_cases hsame8 : s = .u8 ∧ d = .u8
  · obtain ⟨rfl, rfl⟩ := hsame8
    simp only [copyUtf]
    refine ⟨fun ok h => ?_, fun h => by cases h⟩
    injection h with h _; subst h; simp [expand]
  have hcu : copyUtf s d junks n l = loop (decoder s) (encoder d) junks n l := by
    cases s <;> cases d <;> simp_all [copyUtf]
  rw [hcu]; clear hcu
  induction n generalizing l out with
  | zero =>
    cases l with
    | nil => simp [loop]
    | cons b l => simp [loop]; intro h; subst h; simp
  | succ n ih =>
    cases l with
    | nil => simp [loop]
    | cons b l =>
      obtain ⟨r, hr', _, h2, _, h4⟩ := decoder_some s (junks n) b l
      have hst := step_expand s d (junks n) b l r hr' (hr b (by simp)) (fun e => hF8 e b (by simp))
        (by intro e e' el; subst el; exact hlead e e' b (by simp)) hsame hsame8
      have ih' := ih r.rest (fun x hx => hr x (h4 x hx)) (fun e x hx => hF8 e x (h4 x hx))
        (by
          intro e e' x hx
          subst e
          obtain ⟨p, hp⟩ := suf b l _ r hr'
          apply hlead rfl e' x
          rw [hp, List.getLast?_append, hx]; rfl)
      simp only [loop, hr']
      simp only [List.length_cons]
      cases hl : loop (decoder s) (encoder d) junks n r.rest with
      | ub => simp [Res.cons]
      | done o k =>
        have := (ih' o).1 k hl
        simp only [Res.cons]
        refine ⟨fun ok h => ?_, fun h => by cases h⟩
        injection h with h _; subst h
        rw [List.length_append]; omega
      | running o =>
        have := (ih' o).2 hl
        simp only [Res.cons]
        refine ⟨fun ok h => (by cases h), fun h => ?_⟩
        injection h with h; subst h
        rw [List.length_append]; omega

/-- In a debug build the expansion bound holds for every input, whether the conversion finishes or an assertion stops it. -/
theorem C27_debug_expansion (s d : W) (junks : Nat → Nat) (n : Nat) (l : List Nat) (hr : ∀ b ∈ l, InRange s b)
    (out : List Nat) (h : copyUtfDebug s d junks n l = .done out ∨ copyUtfDebug s d junks n l = .asserted out) :
    out.length ≤ expand s d * l.length := by
  by_cases hsame : s = .u16 ∧ d = .u16
  · obtain ⟨rfl, rfl⟩ := hsame
    simp only [copyUtfDebug] at h
    rcases h with h | h
    · injection h with h; subst h; simp [expand]
    · cases h
  by_cases hsame8 : s = .u8 ∧ d = .u8
  · obtain ⟨rfl, rfl⟩ := hsame8
    simp only [copyUtfDebug] at h
    rcases h with h | h
    · injection h with h; subst h; simp [expand]
    · cases h
  have hcu : copyUtfDebug s d junks n l = loopD (decoder s) (encoder d) junks n l := by
    cases s <;> cases d <;> simp_all [copyUtfDebug]
  rw [hcu] at h; clear hcu
  induction n generalizing l out with
  | zero =>
    cases l with
    | nil => simp [loopD] at h; simp [h]
    | cons b l => simp [loopD] at h
  | succ n ih =>
    cases l with
    | nil => simp [loopD] at h; simp [h]
    | cons b l =>
      obtain ⟨r, hr', _, h2, _, h4⟩ := decoder_some s (junks n) b l
      simp only [loopD, hr'] at h
      by_cases hok : (r.ok && (encoder d r.code).2) = true
      · rw [if_pos hok] at h
        simp at hok
        have hF : s = .u8 → b < 0xF8 := by
          intro e; subst e
          apply Decidable.byContradiction; intro hb
          simp only [decoder, decode8] at hr'
          rw [if_neg (by omega), if_neg (by omega), if_neg (by omega), if_neg (by omega)] at hr'
          simp at hr'; rw [← hr'] at hok; simp at hok
        have hL : s = .u16 → d = .u8 → l = [] → ¬ (0xD800 ≤ b ∧ b < 0xDC00) := by
          intro e _ el; subst e; subst el
          rintro ⟨c1, c2⟩
          simp only [decoder, decode16] at hr'
          rw [if_neg (by omega), if_pos c2] at hr'
          simp at hr'; rw [← hr'] at hok; simp at hok
        have hst := step_expand s d (junks n) b l r hr' (hr b (by simp)) hF hL hsame hsame8
        have ih' := ih r.rest (fun x hx => hr x (h4 x hx))
        simp only [List.length_cons]
        cases hl : loopD (decoder s) (encoder d) junks n r.rest with
        | ub => rw [hl] at h; simp [ResD.cons] at h
        | running o => rw [hl] at h; simp [ResD.cons] at h
        | done o =>
          have := ih' o (Or.inl hl)
          rw [hl] at h; simp [ResD.cons] at h; subst h
          rw [List.length_append]; omega
        | asserted o =>
          have := ih' o (Or.inr hl)
          rw [hl] at h; simp [ResD.cons] at h; subst h
          rw [List.length_append]; omega
      · rw [if_neg hok] at h
        simp at h; subst h; simp

/-- C27 fails in a build without assertions: an unpaired lead surrogate at the end of 16-bit text converts to UTF-8 using
    an uninitialised value, which can write 4 bytes where the documented maximum is 3. -/
theorem C27_expansion_violated :
    ∃ (l : List Nat) (junk : Nat) (out : List Nat), (∀ b ∈ l, b < 65536) ∧ junk < 2 ^ 32 ∧
      copyUtf .u16 .u8 (fun _ => junk) l.length l = .done out false ∧ expand .u16 .u8 * l.length < out.length :=
  ⟨[0xD800], 0x10000, [0xF0, 0x90, 0x80, 0x80], by decide, by decide, by decide, by decide⟩

/-- C27: and with a byte ≥ 0xF8 the output exceeds every bound. -/
theorem C27_unbounded_output_violated (b : Nat) (hb : 0xF8 ≤ b) (bound : Nat) :
    ∃ n out, copyUtf .u8 .u32 (fun _ => 0) n [b] = .running out ∧ bound < out.length := by
  obtain ⟨o, h, hl⟩ := C27_terminates_violated b hb [] (fun _ => 0) (bound + 1)
  exact ⟨bound + 1, o, h, by omega⟩

example : ∃ l : List Nat, (∀ b ∈ l, b < 0xF8) ∧ copyUtf .u8 .u16 (fun _ => 7) l.length l = .done [0xDBC0, 0xDC00, 0x41, 0x0] false :=
  ⟨[0xF4, 0x80, 0x80, 0x80, 0x41, 0xF0], by decide, by decide⟩

end Verif.Unicode
