import Verif.Json.Complete
/-
The parser ends, and reads beyond its input only if the input ends with a constant.
-/
namespace Verif.Json
open Spec

variable {α β N : Type} {strtod : List Nat → Option N}

def consts : List (List Nat) := [ascii "true", ascii "false", ascii "null"]

/-- a 0-terminated input; if `P` does not hold, it does not end with a constant -/
def Inp (P : Prop) (s : List Nat) : Prop := ∃ u, s = u ++ [0] ∧ 0 ∉ u ∧ (P ∨ ∀ l ∈ consts, ¬ l <:+ u)

theorem Inp.ne {P : Prop} {s : List Nat} (h : Inp P s) : ∃ c r, s = c :: r := by
  obtain ⟨u, rfl, _⟩ := h
  cases u with
  | nil => exact ⟨_, _, rfl⟩
  | cons c u => exact ⟨_, _, rfl⟩

theorem Inp.tail {P : Prop} {c : Nat} {s : List Nat} (h : Inp P (c :: s)) (hc : c ≠ 0) : Inp P s := by
  obtain ⟨u, e, h1, h2⟩ := h
  cases u with
  | nil => cases e; exact absurd rfl hc
  | cons d u =>
    cases e
    refine ⟨u, rfl, fun h => h1 (by simp [h]), h2.imp id ?_⟩
    intro h l hl hs
    exact h l hl (hs.trans (List.suffix_cons _ _))

theorem Inp.drop {P : Prop} {t s : List Nat} (h : Inp P (t ++ s)) (ht : 0 ∉ t) : Inp P s := by
  induction t with
  | nil => exact h
  | cons c t ih =>
    exact ih (h.tail (by rintro rfl; exact ht (by simp))) (fun h => ht (by simp [h]))

/-- no read beyond the input (unless `P`), and enough fuel -/
def Safe (P : Prop) (x : M α) (s : List Nat) : Prop := match x s with
  | .ok _ r => Inp P r
  | .throw => True
  | .oob => P
  | .fuel => False

variable {P : Prop}

theorem Safe.bind {x : M α} {f : α → M β} {s : List Nat} (h : Safe P x s) (hf : ∀ a r, x s = .ok a r → Inp P r → Safe P (f a) r) : Safe P (x >>= f) s := by
  unfold Safe at h ⊢
  rw [bind_eq]
  cases hx : x s with
  | ok a r =>
    rw [hx] at h
    exact hf a r hx h
  | throw => trivial
  | oob => rw [hx] at h; exact h
  | fuel => rw [hx] at h; exact h

theorem safe_pure (a : α) {s : List Nat} (h : Inp P s) : Safe P (pure a) s := h
theorem safe_throw {s : List Nat} : Safe P (throw : M α) s := trivial
theorem safe_require (b : Bool) {s : List Nat} (h : Inp P s) : Safe P (require b) s := by cases b <;> [exact safe_throw; exact h]

theorem safe_isChar {x : Nat} (hx : x ≠ 0) {s : List Nat} (h : Inp P s) : Safe P (isChar x) s := by
  obtain ⟨c, r, rfl⟩ := h.ne
  unfold Safe
  rw [isChar_cons]
  split_ifs with hc
  · exact h.tail (by rw [hc]; exact hx)
  · exact h

theorem safe_skipWs {s : List Nat} (h : Inp P s) : Safe P skipWs s := by
  induction s with
  | nil => obtain ⟨_, _, e⟩ := h.ne; cases e
  | cons c s ih =>
    unfold Safe
    rw [skipWs]
    by_cases hc : ws c = true
    · rw [if_pos hc]
      exact ih (h.tail (by rintro rfl; cases hc))
    · rw [if_neg hc]; exact h

theorem safe_isStructural {x : Nat} (hx : x ≠ 0) {s : List Nat} (h : Inp P s) : Safe P (isStructural x) s := by
  unfold isStructural
  refine (safe_skipWs h).bind fun _ r _ h => (safe_isChar hx h).bind fun b r _ h => ?_
  cases b
  · exact h
  · exact (safe_skipWs h).bind fun _ _ _ h => h

theorem safe_seqRest {pre cs s : List Nat} (hl : pre ++ cs ∈ consts) (h : Inp P (pre ++ s)) : Safe P (seqRest cs) s := by
  have h0 : 0 ∉ pre := by
    intro h
    have : 0 ∈ pre ++ cs := by simp [h]
    simp only [consts, List.mem_cons, List.not_mem_nil, or_false] at hl
    rcases hl with e | e | e <;> (rw [e] at this; revert this; decide)
  induction cs generalizing pre s with
  | nil =>
    rw [List.append_nil] at hl
    have hs := h.drop h0
    obtain ⟨c, r, rfl⟩ := hs.ne
    unfold Safe
    by_cases hc : c = 0
    · subst hc
      show P
      obtain ⟨u, e, h1, h2⟩ := h
      rcases h2 with h2 | h2
      · exact h2
      · exfalso
        have : u = pre := by
          obtain ⟨u', e', h1', _⟩ := hs
          have : r = [] := by
            cases u' with
            | nil => cases e'; rfl
            | cons _ _ => cases e'; exact absurd (by simp) h1'
          subst this
          exact (List.append_inj_left' e rfl).symm
        subst this
        exact h2 _ hl (List.suffix_refl _)
    · rw [seqRest, bind_ok (a := false) (by rw [isChar_cons, if_neg hc])]
      exact hs
  | cons d cs ih =>
    have hd : d ≠ 0 := by
      rintro rfl
      have : 0 ∈ pre ++ 0 :: cs := by simp
      simp only [consts, List.mem_cons, List.not_mem_nil, or_false] at hl
      rcases hl with e | e | e <;> (rw [e] at this; revert this; decide)
    rw [seqRest]
    refine (safe_isChar hd (h.drop h0)).bind fun b r hb hr => ?_
    rcases isChar_inv hb with ⟨rfl, h2⟩ | ⟨rfl, rfl, _⟩
    · refine ih (pre := pre ++ [d]) (by simpa using hl) (by rw [h2] at h; simpa using h) ?_
      simp only [List.mem_append, List.mem_singleton, not_or]
      exact ⟨h0, hd.symm⟩
    · exact safe_throw

theorem safe_isSequence {d : Nat} {l : List Nat} (hd : d ≠ 0) (hl : d :: l ∈ consts) {s : List Nat} (h : Inp P s) : Safe P (isSequence (d :: l)) s := by
  rw [isSequence]
  refine (safe_isChar hd h).bind fun b r hb hr => ?_
  rcases isChar_inv hb with ⟨rfl, h2⟩ | ⟨rfl, rfl, _⟩
  · exact safe_seqRest (pre := [d]) hl (by rw [h2] at h; exact h)
  · exact hr

theorem safe_isBool {s : List Nat} (h : Inp P s) : Safe P isBool s := by
  unfold isBool
  refine (safe_isSequence (d := 0x74) (l := [0x72, 0x75, 0x65]) (by decide) (by decide) h).bind fun b r _ h => ?_
  cases b
  · refine (safe_isSequence (d := 0x66) (l := [0x61, 0x6C, 0x73, 0x65]) (by decide) (by decide) h).bind fun b r _ h => ?_
    cases b <;> exact h
  · exact h

theorem safe_isNull {s : List Nat} (h : Inp P s) : Safe P isNull s := safe_isSequence (d := 0x6E) (l := [0x75, 0x6C, 0x6C]) (by decide) (by decide) h

theorem safe_digit4 {s : List Nat} (h : Inp P s) : Safe P digit4 s := by
  obtain ⟨c, r, rfl⟩ := h.ne
  unfold Safe
  rw [digit4, bind_ok (x := take) (s := c :: r) rfl]
  cases hd : hexDigit c with
  | none => trivial
  | some d => exact h.tail (by rintro rfl; cases hd)

theorem safe_fourDigits {s : List Nat} (h : Inp P s) : Safe P fourDigits s := by
  unfold fourDigits
  exact (safe_digit4 h).bind fun _ _ _ h => (safe_digit4 h).bind fun _ _ _ h => (safe_digit4 h).bind fun _ _ _ h => (safe_digit4 h).bind fun _ _ _ h => h

theorem safe_utf8 (x : Nat) {s : List Nat} (h : Inp P s) : Safe P (utf8 x) s := by
  unfold utf8
  split_ifs <;> first | exact h | exact safe_throw

theorem safe_scan {s : List Nat} (h : Inp P s) : Safe P scan s := by
  induction s with
  | nil => obtain ⟨_, _, e⟩ := h.ne; cases e
  | cons c s ih =>
    unfold Safe
    rw [scan]
    by_cases hc : c < 0x20 ∨ c = 0x22 ∨ c = 0x5C
    · rw [if_pos hc]; exact h
    · rw [if_neg hc]
      have := ih (h.tail (by omega))
      unfold Safe at this
      cases hs : scan s with
      | ok a r => rw [hs] at this; exact this
      | throw => trivial
      | oob => rw [hs] at this; exact this
      | fuel => rw [hs] at this; exact this

theorem safe_escaped {s : List Nat} (h : Inp P s) : Safe P escaped s := by
  obtain ⟨c, r, rfl⟩ := h.ne
  by_cases hc : c = 0
  · subst hc; exact trivial
  have hr := h.tail hc
  have ht : Safe P take (c :: r) := hr
  unfold escaped
  refine ht.bind fun c _ _ h => ?_
  refine Safe.bind (safe_require _ h) fun _ r _ h => ?_
  split
  · refine (safe_fourDigits h).bind fun u r _ h => ?_
    split
    · refine Safe.bind (safe_isChar (x := 0x75) (by decide) h) fun b r _ h => ?_
      refine Safe.bind (safe_require _ h) fun _ r _ h => ?_
      refine Safe.bind (safe_fourDigits h) fun t r _ h => ?_
      refine Safe.bind (safe_require _ h) fun _ r _ h => ?_
      generalize ((u - 0xD800) <<< 10) + (t - 0xDC00) = y
      exact safe_utf8 y h
    · exact safe_utf8 _ h
  · exact h

theorem safe_strLoop (n : Nat) : ∀ (acc : List Nat) {s : List Nat}, s.length < n → Inp P s → Safe P (strLoop n acc) s := by
  induction n with
  | zero => intro _ s h; omega
  | succ n ih =>
    intro acc s hn h
    unfold strLoop
    refine (safe_isChar (by decide) h).bind fun b r hb h => ?_
    rcases isChar_inv hb with ⟨rfl, _⟩ | ⟨rfl, rfl, c0, s0, hq1, hq2⟩
    · exact h
    · simp only [Bool.false_eq_true, if_false]
      refine (safe_scan h).bind fun cs r1 hs h => ?_
      obtain ⟨g1, g2, d, r', g3, g4⟩ := scan_inv hs
      have hp : Safe P peek r1 := by
        rw [g3] at h ⊢
        exact h
      refine hp.bind fun p r2 hp h => ?_
      rw [g3] at hp
      cases hp
      refine (safe_require _ h).bind fun _ r3 hreq h => ?_
      obtain ⟨hd, rfl⟩ := require_inv hreq
      have hd' : ¬ d < 0x20 := by simpa using hd
      refine (safe_isChar (by decide) h).bind fun b r4 hb h => ?_
      rcases isChar_inv hb with ⟨rfl, h5⟩ | ⟨rfl, rfl, c5, s5, h5, h6⟩
      · simp only [Bool.not_true, Bool.false_eq_true, if_false]
        refine (safe_escaped h).bind fun b r5 he h => ?_
        obtain ⟨e, _, h7⟩ := escaped_inv he
        refine ih _ ?_ h
        have l1 := congrArg List.length g1
        have l2 := congrArg List.length h5
        have l3 := congrArg List.length h7
        rw [g3] at l1
        simp only [List.length_append, List.length_cons] at l1 l2 l3
        omega
      · simp only [Bool.not_false, if_true]
        refine ih _ ?_ h
        cases h5
        rw [g3] at g1
        have hcs : cs ≠ [] := by
          rintro rfl
          rw [List.nil_append] at g1
          rw [hq1] at g1
          cases g1
          omega
        have : 0 < cs.length := List.length_pos_iff.2 hcs
        have l1 := congrArg List.length g1
        simp only [List.length_append, List.length_cons] at l1 ⊢
        omega

theorem safe_isString {s : List Nat} (h : Inp P s) : Safe P isString s := by
  unfold isString
  show Safe P (_ >>= _) s
  refine (safe_isChar (by decide) h).bind fun b r hb hr => ?_
  rcases isChar_inv hb with ⟨rfl, h2⟩ | ⟨rfl, rfl, _⟩
  · simp only [Bool.not_true, Bool.false_eq_true, if_false]
    refine (safe_strLoop _ _ ?_ hr).bind fun _ _ _ h => h
    rw [h2]; simp; omega
  · exact hr

theorem safe_isDigit {s : List Nat} (h : Inp P s) : Safe P isDigit s := by
  obtain ⟨c, r, rfl⟩ := h.ne
  unfold Safe
  rw [isDigit_cons]
  split_ifs with hc
  · exact h.tail (by rintro rfl; revert hc; decide)
  · exact h

theorem safe_digits {s : List Nat} (h : Inp P s) : Safe P digits s := by
  induction s with
  | nil => obtain ⟨_, _, e⟩ := h.ne; cases e
  | cons c s ih =>
    unfold Safe
    rw [digits]
    by_cases hc : 0x30 ≤ c ∧ c ≤ 0x39
    · rw [if_pos hc]
      exact ih (h.tail (by omega))
    · rw [if_neg hc]; exact h

theorem safe_isInt {s : List Nat} (h : Inp P s) : Safe P isInt s := by
  unfold isInt
  refine (safe_isChar (by decide) h).bind fun b r _ h => ?_
  cases b
  · refine (safe_isDigit h).bind fun b r _ h => ?_
    cases b
    · exact h
    · exact (safe_digits h).bind fun _ _ _ h => h
  · exact h

theorem safe_frac {s : List Nat} (h : Inp P s) : Safe P frac s := by
  unfold frac
  refine (safe_isChar (by decide) h).bind fun b r _ h => ?_
  cases b
  · exact h
  · exact (safe_isDigit h).bind fun _ _ _ h => (safe_require _ h).bind fun _ _ _ h => safe_digits h

theorem safe_expDigits {s : List Nat} (h : Inp P s) : Safe P expDigits s :=
  (safe_isDigit h).bind fun _ _ _ h => (safe_require _ h).bind fun _ _ _ h => safe_digits h

theorem safe_exp {s : List Nat} (h : Inp P s) : Safe P exp s := by
  have key : ∀ {s}, Inp P s → Safe P expSign s := by
    intro s h
    unfold expSign
    refine (safe_isChar (by decide) h).bind fun b r _ h => ?_
    cases b
    · show Safe P (isChar 0x2B >>= fun _ => expDigits) r
      exact (safe_isChar (by decide) h).bind fun _ _ _ h => safe_expDigits h
    · exact safe_expDigits h
  obtain ⟨c, r, rfl⟩ := h.ne
  unfold Safe
  rw [exp_cons]
  split_ifs with hc
  · exact key (h.tail (by omega))
  · exact h

theorem safe_isNumber {s : List Nat} (h : Inp P s) : Safe P (isNumber strtod) s := by
  unfold isNumber
  show Safe P (_ >>= _) s
  refine (safe_isChar (by decide) h).bind fun neg r _ h => (safe_isInt h).bind fun b r _ h => ?_
  cases b
  · exact (safe_require _ h).bind fun _ _ _ h => h
  · refine (safe_frac h).bind fun _ _ _ h => (safe_exp h).bind fun _ r _ h => ?_
    unfold Safe convert
    split
    · next h' => split at h' <;> cases h'; exact h
    · trivial
    · next h' => split at h' <;> cases h'
    · next h' => split at h' <;> cases h'

/-- what each function needs -/
structure AllSafe (P : Prop) (strtod : List Nat → Option N) (n : Nat) : Prop where
  value : ∀ {s : List Nat}, Inp P s → 2 * s.length + 1 ≤ n → Safe P (isValue strtod n) s
  object : ∀ {s : List Nat}, Inp P s → 2 * s.length ≤ n → Safe P (isObject strtod n) s
  array : ∀ {s : List Nat}, Inp P s → 2 * s.length ≤ n → Safe P (isArray strtod n) s
  members : ∀ (o : List (List Nat × Value N)) {s : List Nat}, Inp P s → 2 * s.length + 1 ≤ n → Safe P (members strtod n o) s
  elements : ∀ (a : List (Value N)) {s : List Nat}, Inp P s → 2 * s.length + 1 ≤ n → Safe P (elements strtod n a) s

theorem structural_len {x : Nat} {s r : List Nat} (h : isStructural x s = .ok true r) : r.length + 1 ≤ s.length ∧ ∃ c r', r = c :: r' ∧ ws c = false := by
  obtain ⟨w, c, r', _, h1, h2, h3⟩ := isStructural_inv h
  rcases h3 with ⟨_, w', _, h3⟩ | ⟨h3, _⟩
  · refine ⟨?_, c, r', h1, h2⟩
    rw [h3]
    simp only [List.length_append, List.length_cons]
    omega
  · cases h3

theorem value_len {n : Nat} {s r : List Nat} {o : Option (Value N)} (h : isValue strtod n s = .ok o r) (hs : ∃ c s', s = c :: s' ∧ ws c = false) : r.length ≤ s.length := by
  rcases (sound n).value h hs with ⟨v, t, w, _, _, _, e⟩ | ⟨_, e⟩
  · rw [e]; simp only [List.length_append]; omega
  · rw [e]

theorem string_len {s r : List Nat} {o : Option (List Nat)} (h : isString s = .ok o r) : r.length ≤ s.length := by
  rcases isString_inv h with ⟨x, t, _, _, e⟩ | ⟨_, e, _⟩
  · rw [e]; simp only [List.length_append, List.length_cons]; omega
  · rw [e]

theorem all_safe (n : Nat) : AllSafe P strtod n := by
  induction n with
  | zero =>
    have hl : ∀ {s : List Nat}, Inp P s → 0 < s.length := by
      intro s h
      obtain ⟨c, r, rfl⟩ := h.ne
      simp
    exact ⟨fun _ h => by omega, fun h _ => by have := hl h; omega, fun h _ => by have := hl h; omega, fun _ _ _ h => by omega, fun _ _ _ h => by omega⟩
  | succ n ih =>
    refine ⟨?_, ?_, ?_, ?_, ?_⟩
    · intro s h hn
      unfold isValue
      refine (safe_isString h).bind fun o r ho h => ?_
      rcases isString_inv ho with ⟨x, t, rfl, _, _⟩ | ⟨rfl, rfl, _⟩
      · exact h
      refine Safe.bind (safe_isNumber h) fun o r1 ho h => ?_
      rcases isNumber_inv ho with ⟨x, t, rfl, _⟩ | ⟨rfl, rfl, _⟩
      · exact h
      refine Safe.bind (ih.object h (by omega)) fun o r2 ho h => ?_
      cases o with
      | some o => exact h
      | none =>
        obtain ⟨w, c, r', _, _, _, e⟩ := (sound n).object ho
        rcases e with ⟨v, _, _, e, _⟩ | ⟨_, _, e⟩
        · cases e
        have l2 : r2.length ≤ r1.length := by rw [e]; simp
        refine Safe.bind (ih.array h (by omega)) fun o r3 ho h => ?_
        cases o with
        | some o => exact h
        | none =>
          refine Safe.bind (safe_isBool h) fun o r4 ho h => ?_
          cases o with
          | some o => exact h
          | none =>
            refine Safe.bind (safe_isNull h) fun b r5 ho h => ?_
            cases b <;> exact h
    · intro s h hn
      unfold isObject
      refine (safe_isStructural (by decide) h).bind fun b r1 hb h => ?_
      cases b
      · exact h
      obtain ⟨l1, _⟩ := structural_len hb
      refine Safe.bind (safe_isString h) fun o r2 ho h => ?_
      have l2 := string_len ho
      have fin : ∀ (x : List (List Nat × Value N)) {r : List Nat}, Inp P r →
          Safe P (isStructural 0x7D >>= fun b => require b >>= fun _ => pure (some (Value.obj x))) r := by
        intro x r h
        exact (safe_isStructural (by decide) h).bind fun _ _ _ h => (safe_require _ h).bind fun _ _ _ h => h
      cases o with
      | none => exact fin _ h
      | some k =>
        refine Safe.bind (safe_isStructural (by decide) h) fun b r3 hb h => Safe.bind (safe_require _ h) fun _ r4 hreq h => ?_
        obtain ⟨rfl, rfl⟩ := require_inv hreq
        obtain ⟨l3, hne⟩ := structural_len hb
        refine Safe.bind (ih.value h (by omega)) fun o r5 ho h => ?_
        have l4 := value_len ho hne
        cases o with
        | none => exact trivial
        | some v => exact Safe.bind (ih.members _ h (by omega)) fun o r6 ho h => fin _ h
    · intro s h hn
      unfold isArray
      refine (safe_isStructural (by decide) h).bind fun b r1 hb h => ?_
      cases b
      · exact h
      obtain ⟨l1, hne⟩ := structural_len hb
      refine Safe.bind (ih.value h (by omega)) fun o r2 ho h => ?_
      have l2 := value_len ho hne
      have fin : ∀ (x : List (Value N)) {r : List Nat}, Inp P r →
          Safe P (isStructural 0x5D >>= fun b => require b >>= fun _ => pure (some (Value.arr x))) r := by
        intro x r h
        exact (safe_isStructural (by decide) h).bind fun _ _ _ h => (safe_require _ h).bind fun _ _ _ h => h
      cases o with
      | none => exact fin _ h
      | some v => exact Safe.bind (ih.elements _ h (by omega)) fun o r6 ho h => fin _ h
    · intro o s h hn
      unfold members
      refine (safe_isStructural (by decide) h).bind fun b r1 hb h => ?_
      cases b
      · exact h
      obtain ⟨l1, _⟩ := structural_len hb
      refine Safe.bind (safe_isString h) fun o r2 ho h => ?_
      have l2 := string_len ho
      cases o with
      | none => exact trivial
      | some k =>
        refine Safe.bind (safe_isStructural (by decide) h) fun b r3 hb h => Safe.bind (safe_require _ h) fun _ r4 hreq h => ?_
        obtain ⟨rfl, rfl⟩ := require_inv hreq
        obtain ⟨l3, hne⟩ := structural_len hb
        refine Safe.bind (ih.value h (by omega)) fun o r5 ho h => ?_
        have l4 := value_len ho hne
        cases o with
        | none => exact trivial
        | some v => exact ih.members _ h (by omega)
    · intro a s h hn
      unfold elements
      refine (safe_isStructural (by decide) h).bind fun b r1 hb h => ?_
      cases b
      · exact h
      obtain ⟨l1, hne⟩ := structural_len hb
      refine Safe.bind (ih.value h (by omega)) fun o r2 ho h => ?_
      have l2 := value_len ho hne
      cases o with
      | none => exact trivial
      | some v => exact ih.elements _ h (by omega)

theorem safe_parse {s : List Nat} (h : Inp P s) : Safe P (parse strtod) s := by
  unfold parse
  show Safe P (_ >>= _) s
  refine ((all_safe _).object h (by omega)).bind fun o r ho h => ?_
  cases o with
  | some o => exact h
  | none =>
    obtain ⟨w, c, r', _, _, _, e⟩ := (sound _).object ho
    rcases e with ⟨v, _, _, e, _⟩ | ⟨_, _, e⟩
    · cases e
    have l2 : r.length ≤ s.length := by rw [e]; simp
    refine Safe.bind ((all_safe _).array h (by omega)) fun o r3 ho h => ?_
    cases o with
    | some o => exact h
    | none => exact trivial

end Verif.Json
