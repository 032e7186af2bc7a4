import Verif.Sha.Stream
import Verif.Sha.Compress
/-
C30, C42, C43.
-/
namespace Verif.Sha
open Spec

variable {w : Nat}

theorem allFit_of_bytes : ∀ (cs : List Call) (m : List Bool), (∀ c ∈ cs, c.WholeBytes) → m.length % 8 = 0 → AllFit m cs := by
  intro cs
  induction cs with
  | nil => intros; trivial
  | cons c cs ih =>
    intro m hc h8
    have h1 := hc c (by simp)
    have h2 : ∀ c ∈ cs, c.WholeBytes := fun c h => hc c (List.mem_cons_of_mem _ h)
    cases c with
    | bytes l => exact ⟨⟨h8, trivial⟩, ih _ h2 (by simp only [Call.content, List.length_append, bitsOf_length]; omega)⟩
    | bits l n =>
      have h1 : n % 8 = 0 ∧ n ≤ 8 * l.length := h1
      refine ⟨⟨h8, h1.2, fun h => absurd h1.1 h⟩, ih _ h2 ?_⟩
      simp only [Call.content, List.length_append, List.length_take, bitsOf_length]; omega
    | finalize => exact ⟨trivial, ih _ h2 (by simpa [Call.content] using h8)⟩

theorem allFit_finalize : ∀ (cs : List Call) (m : List Bool), (∀ c ∈ cs, c = .finalize) → AllFit m cs := by
  intro cs
  induction cs with
  | nil => intros; trivial
  | cons c cs ih =>
    intro m h
    have := h c (by simp); subst this
    exact ⟨trivial, ih _ (fun c hc => h c (List.mem_cons_of_mem _ hc))⟩

theorem allFit_of_bits : ∀ (cs : List Call) (m : List Bool), ValidBits cs → (∀ c ∈ cs, c.UnusedZero) → m.length % 8 = 0 → AllFit m cs := by
  intro cs
  induction cs with
  | nil => intros; trivial
  | cons c cs ih =>
    intro m hv hc h8
    have h1 := hc c (by simp)
    have h2 : ∀ c ∈ cs, c.UnusedZero := fun c h => hc c (List.mem_cons_of_mem _ h)
    cases c with
    | bytes l => exact ⟨⟨h8, trivial⟩, ih _ hv h2 (by simp only [Call.content, List.length_append, bitsOf_length]; omega)⟩
    | bits l n =>
      refine ⟨⟨h8, hv.1, h1⟩, ?_⟩
      by_cases hn : n % 8 = 0
      · refine ih _ hv.2.2 h2 ?_
        have := hv.1
        simp only [Call.content, List.length_append, List.length_take, bitsOf_length]; omega
      · exact allFit_finalize _ _ (hv.2.1 hn)
    | finalize => exact ⟨trivial, ih _ hv h2 (by simpa [Call.content] using h8)⟩

theorem history (hw : w = 32 ∨ w = 64) (T : Traits w) {H : List Bool → List (BitVec w)} (hH : ∀ m, Spec.hash T.digest T.init T.outLen m = H m)
    {cs : List Call} (hfit : AllFit [] cs) (hlen : (message cs).length < 2 ^ 64) :
    ((Obj.new T).calls T cs).map Prod.snd = some (expected H [] cs) := by
  obtain ⟨o', e, _⟩ := calls_spec hw T cs (Obj.new T) [] (Inv.new T) hfit (by simpa using hlen)
  rw [e, Option.map_some, show Spec.hash T.digest T.init T.outLen = H from funext hH]

/-- C30: whatever sequence of updates (with whole bytes) and finalizations a client performs, each `finalize` returns the SHA-1
    of FIPS 180-4 of all that was passed so far. -/
theorem C30_sha1 (cs : List Call) (hb : ∀ c ∈ cs, c.WholeBytes) (hlen : (message cs).length < 2 ^ 64) :
    ((Obj.new sha1).calls sha1 cs).map Prod.snd = some (expected Spec.sha1 [] cs) :=
  history (Or.inl rfl) sha1 sha1_hash (allFit_of_bytes cs [] hb rfl) hlen

theorem C30_sha224 (cs : List Call) (hb : ∀ c ∈ cs, c.WholeBytes) (hlen : (message cs).length < 2 ^ 64) :
    ((Obj.new sha224).calls sha224 cs).map Prod.snd = some (expected Spec.sha224 [] cs) :=
  history (Or.inl rfl) sha224 sha224_hash (allFit_of_bytes cs [] hb rfl) hlen

theorem C30_sha256 (cs : List Call) (hb : ∀ c ∈ cs, c.WholeBytes) (hlen : (message cs).length < 2 ^ 64) :
    ((Obj.new sha256).calls sha256 cs).map Prod.snd = some (expected Spec.sha256 [] cs) :=
  history (Or.inl rfl) sha256 sha256_hash (allFit_of_bytes cs [] hb rfl) hlen

theorem C30_sha384 (cs : List Call) (hb : ∀ c ∈ cs, c.WholeBytes) (hlen : (message cs).length < 2 ^ 64) :
    ((Obj.new sha384).calls sha384 cs).map Prod.snd = some (expected Spec.sha384 [] cs) :=
  history (Or.inr rfl) sha384 sha384_hash (allFit_of_bytes cs [] hb rfl) hlen

theorem C30_sha512 (cs : List Call) (hb : ∀ c ∈ cs, c.WholeBytes) (hlen : (message cs).length < 2 ^ 64) :
    ((Obj.new sha512).calls sha512 cs).map Prod.snd = some (expected Spec.sha512 [] cs) :=
  history (Or.inr rfl) sha512 sha512_hash (allFit_of_bytes cs [] hb rfl) hlen

/-- the static functions agree with the stream -/
theorem digestBytes_eq (T : Traits w) (l : List Byte) :
    (((Obj.new T).calls T [.bytes l, .finalize]).map Prod.snd) = (digestBytes T l).map (fun d => [d]) := by
  simp only [Obj.calls, digestBytes]
  cases (Obj.new T).update T l with
  | none => rfl
  | some o => simp only; cases o.finalize T <;> rfl

/-- C30, the static function: for every message of bytes, `digest` is the hash. -/
theorem C30_digest (l : List Byte) (hlen : 8 * l.length < 2 ^ 64) :
    digestBytes sha1 l = some (Spec.sha1 (bitsOf l)) ∧ digestBytes sha224 l = some (Spec.sha224 (bitsOf l)) ∧
    digestBytes sha256 l = some (Spec.sha256 (bitsOf l)) ∧ digestBytes sha384 l = some (Spec.sha384 (bitsOf l)) ∧
    digestBytes sha512 l = some (Spec.sha512 (bitsOf l)) := by
  have hb : ∀ c ∈ [Call.bytes l, .finalize], c.WholeBytes := by
    intro c hc
    simp only [List.mem_cons, List.not_mem_nil, or_false] at hc
    rcases hc with rfl | rfl <;> trivial
  have hl : (message [Call.bytes l, .finalize]).length < 2 ^ 64 := by
    simpa [message, Call.content, bitsOf_length] using hlen
  have key : ∀ {w : Nat} (T : Traits w) (d : List (BitVec w)),
      ((Obj.new T).calls T [.bytes l, .finalize]).map Prod.snd = some [d] → digestBytes T l = some d := by
    intro w T d h
    rw [digestBytes_eq] at h
    cases hd : digestBytes T l with
    | none => rw [hd] at h; simp at h
    | some x => rw [hd] at h; simpa using h
  refine ⟨key sha1 _ (C30_sha1 _ hb hl), key sha224 _ (C30_sha224 _ hb hl), key sha256 _ (C30_sha256 _ hb hl), key sha384 _ (C30_sha384 _ hb hl),
    key sha512 _ (C30_sha512 _ hb hl)⟩

/-- non-vacuous: "abc" in two pieces with a `finalize` in between -/
example : ((Obj.new sha1).calls sha1 [.bytes [0x61#8], .finalize, .bits [0x62#8, 0x63#8] 16, .finalize]).map Prod.snd =
    some [[0x86f7e437#32, 0xfaa5a7fc#32, 0xe15d1ddc#32, 0xb9eaeaea#32, 0x377667b8#32],
      [0xa9993e36#32, 0x4706816a#32, 0xba3e2571#32, 0x7850c26c#32, 0x9cd0d89d#32]] := by decide +kernel
example : digestBytes sha256 [0x61#8, 0x62#8, 0x63#8] = some [0xba7816bf#32, 0x8f01cfea#32, 0x414140de#32, 0x5dae2223#32, 0xb00361a3#32,
    0x96177a9c#32, 0xb410ff61#32, 0xf20015ad#32] := by decide +kernel
example : digestBytes sha384 [] = some [0x38b060a751ac9638#64, 0x4cd9327eb1b1e36a#64, 0x21fdb71114be0743#64, 0x4c0cc7bf63f6e1da#64,
    0x274edebfe76f65fb#64, 0xd51ad2f14898b95b#64] := by decide +kernel

/-- C42 (with the restriction that the unused bits of the last byte are zero): messages that end within a byte. -/
theorem C42_bits_partial (cs : List Call) (hv : ValidBits cs) (hz : ∀ c ∈ cs, c.UnusedZero) (hlen : (message cs).length < 2 ^ 64) :
    ((Obj.new sha1).calls sha1 cs).map Prod.snd = some (expected Spec.sha1 [] cs) ∧
    ((Obj.new sha224).calls sha224 cs).map Prod.snd = some (expected Spec.sha224 [] cs) ∧
    ((Obj.new sha256).calls sha256 cs).map Prod.snd = some (expected Spec.sha256 [] cs) ∧
    ((Obj.new sha384).calls sha384 cs).map Prod.snd = some (expected Spec.sha384 [] cs) ∧
    ((Obj.new sha512).calls sha512 cs).map Prod.snd = some (expected Spec.sha512 [] cs) := by
  have hf := allFit_of_bits cs [] hv hz rfl
  exact ⟨history (Or.inl rfl) sha1 sha1_hash hf hlen, history (Or.inl rfl) sha224 sha224_hash hf hlen,
    history (Or.inl rfl) sha256 sha256_hash hf hlen, history (Or.inr rfl) sha384 sha384_hash hf hlen,
    history (Or.inr rfl) sha512 sha512_hash hf hlen⟩

/-- NIST test vector: the five bits 01100 (SHA-1), passed as the byte 0x60; and 0x98, five bits 10011 -/
example : ValidBits [.bits [0x98#8] 5, .finalize] ∧ ((Obj.new sha1).calls sha1 [.bits [0x98#8] 5, .finalize]).map Prod.snd =
    some [[0x29826b00#32, 0x3b906e66#32, 0x0eff4027#32, 0xce98af35#32, 0x31ac75ba#32]] := by
  refine ⟨⟨by decide, ?_, trivial⟩, by decide +kernel⟩
  intro _ c hc; simpa using hc

/-- C42 is false in general: bits beyond the given number of bits change the digest. -/
theorem C42_unused_bits_violated : ∃ (a b : Byte), (bitsOf [a]).take 1 = (bitsOf [b]).take 1 ∧ digestBits sha1 [a] 1 ≠ digestBits sha1 [b] 1 :=
  ⟨0x80#8, 0xff#8, by decide, by decide +kernel⟩

/-! ### C43 -/

theorem range_pairs {α : Type} (g : Nat → α) : ∀ k, (List.range k).flatMap (fun i => [g (2 * i), g (2 * i + 1)]) = (List.range (2 * k)).map g := by
  intro k
  induction k with
  | zero => rfl
  | succ k ih => rw [List.range_succ, List.flatMap_append, ih, Nat.mul_succ, List.range_succ, List.range_succ]; simp

theorem lut_spec : ∀ c : BitVec 8, lut.getD (((c.signExtend 32).sshiftRight 4) &&& 0xf#32).toNat '?' = Nat.digitChar (c.toNat / 16) ∧
    lut.getD ((c.signExtend 32) &&& 0xf#32).toNat '?' = Nat.digitChar (c.toNat % 16) := by decide +kernel

theorem byte_toNat {w : Nat} (e : BitVec w) (hw : 8 ≤ w) (s : Nat) : (((e >>> s) &&& 0xff#w).setWidth 8).toNat = e.toNat / 2 ^ s % 256 := by
  rw [BitVec.toNat_setWidth, BitVec.toNat_and, BitVec.toNat_ushiftRight, BitVec.toNat_ofNat, Nat.shiftRight_eq_div_pow]
  have h1 : 255 % 2 ^ w = 255 := Nat.mod_eq_of_lt (by
    have := Nat.pow_le_pow_right (n := 2) (by omega) hw
    omega)
  have h2 : ∀ a : Nat, a &&& 255 = a % 256 := fun a => Nat.and_two_pow_sub_one_eq_mod a 8
  rw [h1, h2]
  omega

/-- C43 (one word): `to_string` writes each word as its hexadecimal digits, most significant first, with leading zeros. -/
theorem hexElement_eq {q : Nat} (hq : 0 < q) (e : BitVec (8 * q)) : hexElement e = hexDigits (2 * q) e.toNat := by
  unfold hexElement hexDigits
  rw [Nat.mul_div_cancel_left _ (by omega), ← range_pairs]
  apply List.flatMap_congr
  intro i hi
  have hi := List.mem_range.1 hi
  simp only [(lut_spec _).1, (lut_spec _).2, byte_toNat e (show 8 ≤ 8 * q by omega)]
  have e1 : 8 * q - (i + 1) * 8 = 8 * (q - 1 - i) := by omega
  have e2 : 2 * q - 1 - 2 * i = 2 * (q - 1 - i) + 1 := by omega
  have e3 : 2 * q - 1 - (2 * i + 1) = 2 * (q - 1 - i) := by omega
  have e4 : (2 : Nat) ^ (8 * (q - 1 - i)) = 16 ^ (2 * (q - 1 - i)) := by rw [show (16 : Nat) = 2 ^ 4 by rfl, ← Nat.pow_mul]; congr 1; omega
  rw [e1, e2, e3, e4, Nat.pow_succ, ← Nat.div_div_eq_div_mul]
  generalize e.toNat / 16 ^ (2 * (q - 1 - i)) = a
  rw [show a % 256 / 16 = a / 16 % 16 by omega, show a % 256 % 16 = a % 16 by omega]

/-- C43: `to_string` of a digest. -/
theorem C43_to_string {q : Nat} (hq : 0 < q) (d : List (BitVec (8 * q))) :
    toStr false true d = d.flatMap (fun e => hexDigits (2 * q) e.toNat) ∧
    toStr true true d = ((d.map (fun e => hexDigits (2 * q) e.toNat)).intersperse [' ']).flatten := by
  have h0 : ∀ (f : Bool) (d : List (BitVec (8 * q))), toStr false f d = d.flatMap (fun e => hexDigits (2 * q) e.toNat) := by
    intro f d
    induction d generalizing f with
    | nil => rfl
    | cons e d ih => rw [toStr, ih, hexElement_eq hq]; simp
  have h1 : ∀ (d : List (BitVec (8 * q))), toStr true false d = (d.map (fun e => ' ' :: hexDigits (2 * q) e.toNat)).flatten := by
    intro d
    induction d with
    | nil => rfl
    | cons e d ih => rw [toStr, ih, hexElement_eq hq]; simp
  refine ⟨h0 true d, ?_⟩
  cases d with
  | nil => rfl
  | cons e d =>
    rw [toStr, h1, hexElement_eq hq]
    simp only [Bool.not_true, Bool.false_and, Bool.false_eq_true, if_false, List.nil_append, List.map_cons]
    induction d generalizing e with
    | nil => simp
    | cons e' d ih =>
      rw [List.map_cons, List.flatten_cons, List.map_cons, List.intersperse_cons₂, List.flatten_cons, List.flatten_cons, ← ih e']
      simp

theorem digitChar_inj : ∀ a < 16, ∀ b < 16, Nat.digitChar a = Nat.digitChar b → a = b := by decide

theorem hexDigits_succ (k n : Nat) : hexDigits (k + 1) n = hexDigits k (n / 16) ++ [Nat.digitChar (n % 16)] := by
  unfold hexDigits
  rw [List.range_succ, List.map_append]
  congr 1
  · apply List.map_congr_left
    intro i hi
    have hi := List.mem_range.1 hi
    rw [show k + 1 - 1 - i = (k - 1 - i) + 1 by omega, Nat.pow_succ, Nat.mul_comm, ← Nat.div_div_eq_div_mul]
  · simp

theorem hexDigits_inj : ∀ (k a b : Nat), a < 16 ^ k → b < 16 ^ k → hexDigits k a = hexDigits k b → a = b := by
  intro k
  induction k with
  | zero => intro a b ha hb _; simp at ha hb; omega
  | succ k ih =>
    intro a b ha hb h
    rw [hexDigits_succ, hexDigits_succ] at h
    obtain ⟨h1, h2⟩ := List.append_inj' h rfl
    rw [Nat.pow_succ] at ha hb
    have := ih (a / 16) (b / 16) (by omega) (by omega) h1
    have := digitChar_inj _ (Nat.mod_lt a (by omega)) _ (Nat.mod_lt b (by omega)) (by simpa using h2)
    omega

/-- C43: different digests have different strings. -/
theorem C43_injective {q : Nat} (hq : 0 < q) (d d' : List (BitVec (8 * q))) (h : toStr false true d = toStr false true d') : d = d' := by
  rw [(C43_to_string hq d).1, (C43_to_string hq d').1] at h
  have hl : ∀ n, (hexDigits (2 * q) n).length = 2 * q := by intro n; simp [hexDigits]
  induction d generalizing d' with
  | nil =>
    cases d' with
    | nil => rfl
    | cons e d' =>
      have := congrArg List.length h
      rw [List.flatMap_cons, List.length_append, hl] at this
      simp at this; omega
  | cons e d ih =>
    cases d' with
    | nil =>
      have := congrArg List.length h
      rw [List.flatMap_cons, List.length_append, hl] at this
      simp at this; omega
    | cons e' d' =>
      rw [List.flatMap_cons, List.flatMap_cons] at h
      obtain ⟨h1, h2⟩ := List.append_inj h (by rw [hl, hl])
      have hb : ∀ x : BitVec (8 * q), x.toNat < 16 ^ (2 * q) := by
        intro x
        have : (16 : Nat) ^ (2 * q) = 2 ^ (8 * q) := by rw [show (16 : Nat) = 2 ^ 4 by rfl, ← Nat.pow_mul]; congr 1; omega
        rw [this]; exact x.isLt
      rw [BitVec.eq_of_toNat_eq (hexDigits_inj _ _ _ (hb e) (hb e') h1), ih d' h2]

/-- the words of all variants have a width of this form; a digest printed both ways -/
example : String.ofList (toStr (w := 8 * 4) true true [0x0a9993e3#32, 0xff#32]) = "0a9993e3 000000ff" := by decide +kernel
example : String.ofList (toStr (w := 8 * 8) false true [0x0123456789abcdef#64]) = "0123456789abcdef" := by decide +kernel

end Verif.Sha
