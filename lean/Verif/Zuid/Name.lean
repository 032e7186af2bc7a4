import Verif.Zuid.Spec
import Verif.Md5.Props
/-!
UUIDs from names.
-/
namespace Verif.Zuid
open Verif.Zuid.Spec

theorem swab32_bytes (x : BitVec 32) : le32 (swab32 x) = [x.extractLsb' 24 8, x.extractLsb' 16 8, x.extractLsb' 8 8, x.extractLsb' 0 8] := by
  unfold le32
  congr 1
  · ext i hi
    have : i = 0 ∨ i = 1 ∨ i = 2 ∨ i = 3 ∨ i = 4 ∨ i = 5 ∨ i = 6 ∨ i = 7 := by omega
    rcases this with h | h | h | h | h | h | h | h <;> subst h <;> simp [swab32]
  congr 1
  · ext i hi
    have : i = 0 ∨ i = 1 ∨ i = 2 ∨ i = 3 ∨ i = 4 ∨ i = 5 ∨ i = 6 ∨ i = 7 := by omega
    rcases this with h | h | h | h | h | h | h | h <;> subst h <;> simp [swab32]
  congr 1
  · ext i hi
    have : i = 0 ∨ i = 1 ∨ i = 2 ∨ i = 3 ∨ i = 4 ∨ i = 5 ∨ i = 6 ∨ i = 7 := by omega
    rcases this with h | h | h | h | h | h | h | h <;> subst h <;> simp [swab32]
  congr 1
  · ext i hi
    have : i = 0 ∨ i = 1 ∨ i = 2 ∨ i = 3 ∨ i = 4 ∨ i = 5 ∨ i = 6 ∨ i = 7 := by omega
    rcases this with h | h | h | h | h | h | h | h <;> subst h <;> simp [swab32]

theorem swab16_bytes (x : BitVec 16) : le16 (swab16 x) = [x.extractLsb' 8 8, x.extractLsb' 0 8] := by
  unfold le16
  congr 1
  · ext i hi
    have : i = 0 ∨ i = 1 ∨ i = 2 ∨ i = 3 ∨ i = 4 ∨ i = 5 ∨ i = 6 ∨ i = 7 := by omega
    rcases this with h | h | h | h | h | h | h | h <;> subst h <;> simp [swab16]
  congr 1
  · ext i hi
    have : i = 0 ∨ i = 1 ∨ i = 2 ∨ i = 3 ∨ i = 4 ∨ i = 5 ∨ i = 6 ∨ i = 7 := by omega
    rcases this with h | h | h | h | h | h | h | h <;> subst h <;> simp [swab16]

theorem join32 (a b c d : Byte) (i : Nat) : BitVec.getLsbD (w := 32) (d ++ c ++ b ++ a) i =
    if i < 8 then a.getLsbD i else if i - 8 < 8 then b.getLsbD (i - 8) else if i - 8 - 8 < 8 then c.getLsbD (i - 8 - 8) else
      d.getLsbD (i - 8 - 8 - 8) := by
  have h1 : BitVec.getLsbD (w := 32) (d ++ c ++ b ++ a) i = _ := BitVec.getLsbD_append (x := d ++ c ++ b) (y := a) (i := i)
  rw [h1, BitVec.getLsbD_append, BitVec.getLsbD_append]

theorem join16 (a b : Byte) (i : Nat) : BitVec.getLsbD (w := 16) (b ++ a) i = if i < 8 then a.getLsbD i else b.getLsbD (i - 8) := by
  have h1 : BitVec.getLsbD (w := 16) (b ++ a) i = _ := BitVec.getLsbD_append (x := b) (y := a) (i := i)
  rw [h1]

theorem swab32_join (a b c d : Byte) : let x := swab32 (d ++ c ++ b ++ a)
    x.extractLsb' 24 8 = a ∧ x.extractLsb' 16 8 = b ∧ x.extractLsb' 8 8 = c ∧ x.extractLsb' 0 8 = d := by
  have h := join32 a b c d
  revert h
  generalize (d ++ c ++ b ++ a : BitVec 32) = x
  intro h
  refine ⟨?_, ?_, ?_, ?_⟩
  all_goals
    ext i hi
    have : i = 0 ∨ i = 1 ∨ i = 2 ∨ i = 3 ∨ i = 4 ∨ i = 5 ∨ i = 6 ∨ i = 7 := by omega
    rcases this with h | h | h | h | h | h | h | h <;> subst h <;> simp [swab32, ← BitVec.getLsbD_eq_getElem, h]

theorem swab16_join (a b : Byte) : let x := swab16 (b ++ a)
    x.extractLsb' 8 8 = a ∧ x.extractLsb' 0 8 = b := by
  have h := join16 a b
  revert h
  generalize (b ++ a : BitVec 16) = x
  intro h
  refine ⟨?_, ?_⟩
  all_goals
    ext i hi
    have : i = 0 ∨ i = 1 ∨ i = 2 ∨ i = 3 ∨ i = 4 ∨ i = 5 ∨ i = 6 ∨ i = 7 := by omega
    rcases this with h | h | h | h | h | h | h | h <;> subst h <;> simp [swab16, ← BitVec.getLsbD_eq_getElem, h]

theorem version_bits (x : BitVec 16) : let y := (x &&& 0x0FFF#16) ||| (3#16 <<< 12)
    y.extractLsb' 8 8 = (x.extractLsb' 8 8 &&& 0x0F#8) ||| 0x30#8 ∧ y.extractLsb' 0 8 = x.extractLsb' 0 8 := by
  refine ⟨?_, ?_⟩
  all_goals
    ext i hi
    have : i = 0 ∨ i = 1 ∨ i = 2 ∨ i = 3 ∨ i = 4 ∨ i = 5 ∨ i = 6 ∨ i = 7 := by omega
    rcases this with h | h | h | h | h | h | h | h <;> subst h <;> simp

theorem formatV3_bytes {h : List Byte} (hl : h.length = 16) : bytes (formatV3 h) = stamp h := by
  obtain ⟨b0, b1, b2, b3, b4, b5, b6, b7, b8, b9, b10, b11, b12, b13, b14, b15, rfl⟩ :
      ∃ b0 b1 b2 b3 b4 b5 b6 b7 b8 b9 b10 b11 b12 b13 b14 b15, h = [b0, b1, b2, b3, b4, b5, b6, b7, b8, b9, b10, b11, b12, b13, b14, b15] := by
    match h, hl with
    | [b0, b1, b2, b3, b4, b5, b6, b7, b8, b9, b10, b11, b12, b13, b14, b15], _ => exact ⟨b0, b1, b2, b3, b4, b5, b6, b7, b8, b9, b10, b11, b12, b13, b14, b15, rfl⟩
  have h1 := swab32_join b0 b1 b2 b3
  have h2 := swab16_join b4 b5
  have h3 := swab16_join b6 b7
  have h4 := version_bits (swab16 (b7 ++ b6))
  dsimp only at h1 h2 h3 h4
  simp only [bytes, formatV3, ofMemory, List.getD_cons_zero, List.getD_cons_succ, h1, h2, h3, h4, stamp]
  simp

theorem leBytes_length (k n : Nat) : (Md5.Spec.leBytes k n).length = k := by
  induction k generalizing n with
  | zero => rfl
  | succ k ih => simp [Md5.Spec.leBytes, ih]

theorem digest_length (m : List Byte) : (Md5.Spec.digest m).length = 16 := by
  unfold Md5.Spec.digest
  simp [leBytes_length]

theorem memory_net (u : Uuid) : memory { u with data1 := swab32 u.data1, data2 := swab16 u.data2, data3 := swab16 u.data3 } = bytes u := by
  simp [memory, bytes, swab32_bytes, swab16_bytes]

theorem createFromName_eq {buffer : List Byte} (hb : buffer.length = 64) (ns : Uuid) (name : List Byte) (n : BitVec 16) :
    createFromName buffer ns name n = some (formatV3 (Md5.Spec.digest (bytes ns ++ name.take n.toNat))) := by
  obtain ⟨s, s', h1, h2⟩ := Md5.C28_streaming hb [bytes ns, name.take n.toNat]
  unfold createFromName
  simp only [memory_net]
  simp only [Md5.St.updates] at h1
  cases e1 : (Md5.St.new buffer).update (bytes ns) with
  | none => rw [e1] at h1; simp at h1
  | some c =>
    rw [e1] at h1
    simp only at h1
    cases e2 : c.update (name.take n.toNat) with
    | none => rw [e2] at h1; simp at h1
    | some c' =>
      rw [e2] at h1
      simp only [Option.some.injEq] at h1
      subst h1
      simp only [e1, e2, h2, Option.bind_eq_bind, Option.bind_some, List.flatten_cons, List.flatten_nil, List.append_nil]

end Verif.Zuid
