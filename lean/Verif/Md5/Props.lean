import Verif.Md5.Lemmas
/-
C28, C29: MD5 (source/md5.cpp) is RFC 1321 for every message and every way of feeding it.
-/
namespace Verif.Md5
open Verif.Chunks

/-- C28: whatever was in memory before construction, however the message is split into `update` calls, `final` succeeds
    without leaving any buffer and returns the RFC 1321 digest of the whole message. -/
theorem C28_streaming {buffer : List Byte} (hb : buffer.length = 64) (parts : List (List Byte)) :
    ∃ s s', (St.new buffer).updates parts = some s ∧ s.final = some (s', Spec.digest parts.flatten) := by
  obtain ⟨s, e, i⟩ := updates_eq (new_inv hb) parts
  rw [List.nil_append] at i
  obtain ⟨s', e', _⟩ := final_eq i
  exact ⟨s, s', e, e'⟩

/-- C28: the one-shot function. -/
theorem C28_oneshot {buffer : List Byte} (hb : buffer.length = 64) (msg : List Byte) : md5 buffer msg = some (Spec.digest msg) := by
  obtain ⟨s, e, i⟩ := update_eq (new_inv hb) msg
  rw [List.nil_append] at i
  obtain ⟨s', e', _⟩ := final_eq i
  simp only [md5, e, e', Option.map_some]

/-- the compression function is that of RFC 1321 for every chaining value and every block -/
theorem C28_compress (st : Regs) {block : List Byte} (h : block.length = 64) :
    ∃ r, transform st block = some r ∧ (r.a, r.b, r.c, r.d) = Spec.compress (st.a, st.b, st.c, st.d) block := transform_eq h

/-- the padded message of the specification consists of whole blocks -/
theorem C28_pad_blocks (msg : List Byte) : (Spec.pad msg).length % 64 = 0 ∧ (Spec.pad msg).length ≤ msg.length + 72 := by
  simp only [Spec.pad, List.length_append, List.length_cons, List.length_replicate, leBytes_length]
  omega

/-- the byte order of the specification: `leBytes` is inverse to `leVal` -/
theorem C28_leBytes_val (k n : Nat) : Spec.leVal (Spec.leBytes k n) = n % 256 ^ k := by
  induction k generalizing n with
  | zero => simp [Spec.leBytes, Spec.leVal, Nat.mod_one]
  | succ k ih =>
    simp only [Spec.leBytes, Spec.leVal, ih, BitVec.toNat_ofNat]
    rw [Nat.pow_succ 256 k, Nat.mul_comm (256 ^ k), Nat.mod_mul]

/-- hash one message after the other with the same object -/
def St.sessions (s : St) : List (List (List Byte)) → Option (List (List Byte))
  | [] => some []
  | m :: ms =>
    match s.updates m with
    | none => none
    | some s =>
      match s.final with
      | none => none
      | some (s, d) => (s.sessions ms).map (d :: ·)

/-- C29: one object can hash any number of messages one after the other; each digest only depends on its own message. -/
theorem C29_reuse {buffer : List Byte} (hb : buffer.length = 64) (ms : List (List (List Byte))) :
    (St.new buffer).sessions ms = some (ms.map fun m => Spec.digest m.flatten) := by
  have key : ∀ (ms : List (List (List Byte))) (s : St), Inv s [] → s.sessions ms = some (ms.map fun m => Spec.digest m.flatten) := by
    intro ms
    induction ms with
    | nil => intro s _; rfl
    | cons m ms ih =>
      intro s h
      obtain ⟨s1, e1, i1⟩ := updates_eq h m
      rw [List.nil_append] at i1
      obtain ⟨s2, e2, i2⟩ := final_eq i1
      simp only [St.sessions, e1, e2, ih s2 i2, Option.map_some, List.map_cons]
  exact key ms _ (new_inv hb)

/-- C29: after `final` the members have their initial values (the buffer is as little initialised as in a new object). -/
theorem C29_reset {s s' : St} {d : List Byte} (h : s.final = some (s', d)) : s' = St.new s'.buffer := by
  unfold St.final at h
  simp only at h
  split at h
  · cases h
  · split at h
    · cases h
    · cases h; rfl

/-- the hypotheses are met, and the digest of the empty message is d41d8cd98f00b204e9800998ecf8427e -/
example : (List.replicate 64 (0xcc#8)).length = 64 ∧
    Spec.digest [] = [0xd4#8, 0x1d#8, 0x8c#8, 0xd9#8, 0x8f#8, 0x00#8, 0xb2#8, 0x04#8, 0xe9#8, 0x80#8, 0x09#8, 0x98#8, 0xec#8, 0xf8#8, 0x42#8, 0x7e#8] := by
  constructor
  · rfl
  · decide +kernel

/-- "abc" in two pieces -/
example : ∃ s s', (St.new (List.replicate 64 0xcc#8)).updates [[0x61#8], [0x62#8, 0x63#8]] = some s ∧
    s.final = some (s', [0x90#8, 0x01#8, 0x50#8, 0x98#8, 0x3c#8, 0xd2#8, 0x4f#8, 0xb0#8, 0xd6#8, 0x96#8, 0x3f#8, 0x7d#8, 0x28#8, 0xe1#8, 0x7f#8, 0x72#8]) := by
  have h : Spec.digest [0x61#8, 0x62#8, 0x63#8] =
      [0x90#8, 0x01#8, 0x50#8, 0x98#8, 0x3c#8, 0xd2#8, 0x4f#8, 0xb0#8, 0xd6#8, 0x96#8, 0x3f#8, 0x7d#8, 0x28#8, 0xe1#8, 0x7f#8, 0x72#8] := by decide +kernel
  have := C28_streaming (buffer := List.replicate 64 0xcc#8) rfl [[0x61#8], [0x62#8, 0x63#8]]
  simpa [h] using this

end Verif.Md5
