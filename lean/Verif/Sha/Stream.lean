import Verif.Sha.Lemmas
import Verif.Sha.Client
/-
The object after any calls, and `finalize`, for an arbitrary compression function.
-/
namespace Verif.Sha
open Spec Verif.Chunks

variable {w : Nat}

/-- the digest of the complete blocks of `m` -/
def absorbed (T : Traits w) (m : List Bool) : List (BitVec w) := ((chunks (16 * w) m).map (words w)).foldl T.digest T.init

/-- the bits after the complete blocks -/
def rest (w : Nat) (m : List Bool) : List Bool := m.drop (16 * w * (m.length / (16 * w)))

/-- `o` has absorbed `m` -/
structure Inv (T : Traits w) (o : Obj w) (m : List Bool) : Prop where
  stuffed : o.stuffedSize = (rest w m).length
  holds : Holds o.state (rest w m)
  digest : o.digest = absorbed T m
  size : o.messageSize = BitVec.ofNat 64 m.length

theorem rest_length (w : Nat) (m : List Bool) : (rest w m).length = m.length % (16 * w) := by
  unfold rest
  rw [List.length_drop]
  have := Nat.div_add_mod m.length (16 * w)
  omega

theorem Inv.new (T : Traits w) : Inv T (Obj.new T) [] := ⟨by simp [Obj.new, rest], by simpa [Obj.new, rest] using Holds.zero, by simp [Obj.new, absorbed, chunks], rfl⟩

theorem absorbed_cat (hw : 0 < w) (T : Traits w) (m x : List Bool) :
    absorbed T (m ++ x) = ((chunks (16 * w) (rest w m ++ x)).map (words w)).foldl T.digest (absorbed T m) := by
  unfold absorbed rest
  rw [chunks_cat (by omega) m x, List.map_append, List.foldl_append]

theorem rest_cat' (hw : 0 < w) (m x : List Bool) : rest w (m ++ x) = rest w (rest w m ++ x) := by
  unfold rest
  exact rest_cat (by omega) m x

theorem blockLoop_spec (hw : Width w) (T : Traits w) : ∀ (fuel : Nat) (o : Obj w) (m : List Bool) (src : Src), Inv T o m → m.length % 8 = 0 →
    src.Ok → src.content.length < fuel →
    ∃ o', blockLoop T fuel (16 * w - o.stuffedSize) o src = some o' ∧ Inv T o' (m ++ src.content) := by
  have hw0 := hw.low
  intro fuel
  induction fuel with
  | zero => intro o m src _ _ _ h; omega
  | succ fuel ih =>
    intro o m src hI h8 hok hf
    rw [blockLoop]
    have hrl := rest_length w m
    have hrlt : (rest w m).length < 16 * w := by rw [hrl]; exact Nat.mod_lt _ (by omega)
    have hr8 : (rest w m).length % 8 = 0 := by
      rw [hrl, Nat.mod_mod_of_dvd]
      · exact h8
      · have := hw.eight; omega
    have hlen := Src.content_length hok
    by_cases hav : src.avail > 0
    · rw [if_pos hav, hI.stuffed]
      by_cases hfull : 16 * w - (rest w m).length ≤ 8 * src.whole
      · obtain ⟨st', e, hH⟩ := stuff_full hw hI.holds hr8 (by omega) hok hfull
        rw [e]
        simp only [if_true]
        have hm : 8 * ((16 * w - (rest w m).length) / 8) = 16 * w - (rest w m).length := by have := hw.eight; omega
        have htl : (rest w m ++ src.content.take (16 * w - (rest w m).length)).length = 16 * w := by
          rw [List.length_append, List.length_take]; omega
        have hrest : rest w (m ++ src.content.take (16 * w - (rest w m).length)) = [] := by
          rw [rest_cat' (by omega)]
          have : (rest w (rest w m ++ src.content.take (16 * w - (rest w m).length))).length = 0 := by
            rw [rest_length, htl, Nat.mod_self]
          exact List.length_eq_zero_iff.1 this
        have hI' : Inv T ⟨o.messageSize + BitVec.ofNat 64 (16 * w - (rest w m).length), zeroBlock w, T.digest o.digest st', 0⟩
            (m ++ src.content.take (16 * w - (rest w m).length)) := by
          refine ⟨by rw [hrest]; rfl, by rw [hrest]; exact Holds.zero, ?_, ?_⟩
          · rw [absorbed_cat (by omega), chunks_one (by omega) htl]
            simp only [List.map_cons, List.map_nil, List.foldl_cons, List.foldl_nil]
            rw [hI.digest, state_eq_words (by omega) hH.1 htl hH.2]
          · simp only
            rw [hI.size, List.length_append, List.length_take, Nat.min_eq_left (by omega), BitVec.ofNat_add]
        obtain ⟨o', e', hI''⟩ := ih _ _ (src.skip ((16 * w - (rest w m).length) / 8)) hI'
          (by rw [List.length_append, List.length_take]
              have := hw.eight
              omega)
          (Src.ok_skip hok (by omega)) (by rw [Src.content_skip, List.length_drop, hm]; omega)
        refine ⟨o', e', ?_⟩
        rw [Src.content_skip, hm, List.append_assoc, List.take_append_drop] at hI''
        exact hI''
      · obtain ⟨st', src', e, hav', hlt, hH⟩ := stuff_part hw hI.holds hr8 (by omega) hok (by omega)
        rw [e]
        simp only
        rw [if_neg (by omega)]
        have hrest : rest w (m ++ src.content) = rest w m ++ src.content := by
          rw [rest_cat' (by omega)]
          unfold rest
          rw [Nat.div_eq_of_lt]
          · simp
          · rw [List.length_append]; exact hlt
        refine ⟨⟨o.messageSize + BitVec.ofNat 64 src.content.length, st', o.digest, (rest w m).length + src.content.length⟩, ?_, ?_⟩
        · obtain ⟨f', rfl⟩ : ∃ f', fuel = f' + 1 := by
            refine ⟨fuel - 1, ?_⟩
            have : 0 < src.content.length := by
              rw [Src.avail_eq] at hav; split at hav <;> omega
            omega
          rw [blockLoop, if_neg (by omega)]
        · refine ⟨by rw [hrest, List.length_append], by rw [hrest]; exact hH, ?_, ?_⟩
          · rw [absorbed_cat (by omega), chunks_short (by rw [List.length_append]; exact hlt)]
            exact hI.digest
          · simp only
            rw [hI.size, List.length_append, BitVec.ofNat_add]
    · rw [if_neg hav]
      have : src.content = [] := by
        apply List.length_eq_zero_iff.1
        rw [Src.avail_eq] at hav
        split at hav <;> omega
      rw [this, List.append_nil]
      exact ⟨o, rfl, hI⟩

/-! ### padding -/

theorem getD_falses (n j : Nat) : (List.replicate n false).getD j false = false := by
  rw [List.getD_eq_getElem?_getD, List.getElem?_replicate]; split <;> rfl


theorem Holds.congr {st : List (BitVec w)} {a b : List Bool} (h : Holds st a) (hab : ∀ j < 16 * w, a.getD j false = b.getD j false) : Holds st b :=
  ⟨h.1, fun j hj => (h.2 j hj).trans (hab j hj)⟩

theorem Holds.zeros {st : List (BitVec w)} {a : List Bool} (h : Holds st a) (n : Nat) : Holds st (a ++ List.replicate n false) := by
  refine h.congr fun j _ => ?_
  by_cases hj : j < a.length
  · rw [List.getD_append _ _ _ _ hj]
  · rw [List.getD_append_right _ _ _ _ (by omega), List.getD_eq_default _ _ (by omega), getD_falses]

/-- the last two words hold the length of the message -/
theorem Holds.length (hw : w = 32 ∨ w = 64) {st : List (BitVec w)} {a : List Bool} (h : Holds st a) (ha : a.length ≤ 14 * w) {n : Nat}
    (hn : n < 2 ^ 64) :
    Holds ((shiftDown st (BitVec.ofNat 64 n)).set 15 ((BitVec.ofNat 64 n).setWidth w))
      (a ++ (List.replicate (14 * w - a.length) false ++ beBits (2 * w) n)) := by
  have hw1 : 0 < w := by omega
  have hsl : (shiftDown st (BitVec.ofNat 64 n)).length = 16 := by
    unfold shiftDown; split
    · exact h.1
    · split <;> simp [h.1]
  have hb14 : ∀ j < 16 * w, blkBit (shiftDown st (BitVec.ofNat 64 n)) j =
      if j / w = 14 then n.testBit (w + (w - 1 - j % w)) else blkBit st j := by
    intro j hj
    have hz : j / w = 14 → blkBit st j = false := by
      intro hj14
      rw [h.2 j hj, List.getD_eq_default]
      have := Nat.div_mul_le_self j w
      rw [hj14] at this; omega
    have hjm : j % w < w := Nat.mod_lt _ hw1
    unfold shiftDown
    rcases hw with rfl | rfl
    · rw [if_neg (by omega)]
      split
      · rw [blkBit_set (by rw [h.1]; omega)]
        split
        · rw [BitVec.getMsbD_eq_getLsbD, BitVec.getLsbD_setWidth, BitVec.getLsbD_ushiftRight, BitVec.getLsbD_ofNat]
          have h1 : 32 - 1 - j % 32 < 32 := by omega
          have h2 : 32 + (32 - 1 - j % 32) < 64 := by omega
          simp only [h1, h2, hjm, decide_true, Bool.true_and]
        · rfl
      next hle =>
        rw [BitVec.toNat_ofNat, Nat.mod_eq_of_lt hn] at hle
        split
        next hj14 =>
          rw [hz hj14]
          symm
          apply Nat.testBit_lt_two_pow
          have := Nat.pow_le_pow_right (n := 2) (by omega) (show 32 ≤ 32 + (32 - 1 - j % 32) by omega)
          omega
        · rfl
    · rw [if_pos (by omega)]
      split
      next hj14 =>
        rw [hz hj14]
        symm
        apply Nat.testBit_lt_two_pow
        have := Nat.pow_le_pow_right (n := 2) (by omega) (show 64 ≤ 64 + (64 - 1 - j % 64) by omega)
        omega
      · rfl
  refine ⟨by simpa using hsl, ?_⟩
  intro j hj
  rw [blkBit_set (by rw [hsl]; omega)]
  have dm := Nat.div_add_mod j w
  have hjm : j % w < w := Nat.mod_lt _ hw1
  have hjd : j / w < 16 := (Nat.div_lt_iff_lt_mul hw1).2 hj
  by_cases h1 : j < a.length
  · rw [List.getD_append _ _ _ _ h1]
    have : j / w < 14 := (Nat.div_lt_iff_lt_mul hw1).2 (by omega)
    rw [if_neg (by omega), hb14 j hj, if_neg (by omega), h.2 j hj]
  · rw [List.getD_append_right _ _ _ _ (by omega)]
    by_cases h2 : j < 14 * w
    · have : j / w < 14 := (Nat.div_lt_iff_lt_mul hw1).2 (by omega)
      rw [List.getD_append _ _ _ _ (by rw [List.length_replicate]; omega), getD_falses, if_neg (by omega), hb14 j hj,
        if_neg (by omega), h.2 j hj, List.getD_eq_default _ _ (by omega)]
    · rw [List.getD_append_right _ _ _ _ (by rw [List.length_replicate]; omega), List.length_replicate, beBits_getD (by omega)]
      have h14 : 14 ≤ j / w := (Nat.le_div_iff_mul_le hw1).2 (by omega)
      split
      next h15 =>
        rw [h15] at dm
        rw [BitVec.getMsbD_eq_getLsbD, BitVec.getLsbD_setWidth, BitVec.getLsbD_ofNat]
        have g1 : w - 1 - j % w < w := by omega
        have g2 : w - 1 - j % w < 64 := by omega
        simp only [g1, g2, hjm, decide_true, Bool.true_and]
        congr 1; omega
      next h15 =>
        have e14 : j / w = 14 := by omega
        rw [hb14 j hj, if_pos e14]
        rw [e14] at dm
        congr 1; omega

theorem finalize_spec (hw : w = 32 ∨ w = 64) (T : Traits w) {o : Obj w} {m : List Bool} (hI : Inv T o m) (hn : m.length < 2 ^ 64) :
    o.finalize T = some (o, Spec.hash T.digest T.init T.outLen m) := by
  suffices h : ∃ o', finalizeImpl T o = some (o', Spec.hash T.digest T.init T.outLen m) by
    obtain ⟨o', h⟩ := h
    unfold Obj.finalize
    simp only [h]
  have hW : Width w := by rcases hw with rfl | rfl <;> exact ⟨by omega, by omega, by omega⟩
  have hw1 : 0 < w := by omega
  have hrl := rest_length w m
  have hrlt : (rest w m).length < 16 * w := by rw [hrl]; exact Nat.mod_lt _ (by omega)
  -- the one bit
  obtain ⟨st1, e1, hH1⟩ := hI.holds.put hW.low 0x80#8 (n := 1) (by omega)
    (by intro i hi
        by_cases h8 : i < 8
        · have : i = 1 ∨ i = 2 ∨ i = 3 ∨ i = 4 ∨ i = 5 ∨ i = 6 ∨ i = 7 := by omega
          rcases this with rfl | rfl | rfl | rfl | rfl | rfl | rfl <;> rfl
        · simp [BitVec.getMsbD, h8])
    (by have := Nat.mod_lt (rest w m).length hw1; omega) hrlt
  have hb : (byteBits 0x80#8).take 1 = [true] := by decide
  rw [hb] at hH1
  have hstuff : ∃ src', stuff o.state o.stuffedSize 1 (.counted [0x80#8] 1) = some (st1, (rest w m).length + 1, src', 1) := by
    rw [hI.stuffed]
    unfold stuff
    simp only [show stuffLoop (w := w) (1 + 1) ⟨o.state, (rest w m).length, (rest w m).length / w, (2 ^ 64 + w - 8 - (rest w m).length % w) % 2 ^ 64, 0, 1,
      .counted [0x80#8] 1⟩ = some ⟨o.state, (rest w m).length, (rest w m).length / w, (2 ^ 64 + w - 8 - (rest w m).length % w) % 2 ^ 64, 0, 1,
      .counted [0x80#8] 1⟩ by rw [stuffLoop, if_neg (by simp only; omega)]]
    rw [if_pos (by simp [Src.avail])]
    simp only [Src.next]
    have hpl : (if w - (rest w m).length % w < 8 then (0x80#8).setWidth w >>> (8 - (w - (rest w m).length % w))
          else if w - (rest w m).length % w > 8 then (0x80#8).setWidth w <<< (w - (rest w m).length % w - 8) else (0x80#8).setWidth w)
          = place (w := w) 0x80#8 ((rest w m).length % w) := rfl
    rw [hpl, e1]
    simp only
    have : min 1 ((Src.counted [0x80#8] 1).avail) = 1 := by decide
    refine ⟨.counted [] 0, ?_⟩
    simp only [this]
    rfl
  obtain ⟨src', e2⟩ := hstuff
  unfold finalizeImpl
  rw [e2]
  simp only [blockBits, hI.digest, hI.size]
  -- the padded message
  let z := (16 * w - (m.length + 1 + 2 * w) % (16 * w)) % (16 * w)
  have hz : ∃ q, m.length + 1 + 2 * w + z = 16 * w * q ∧ z < 16 * w := by
    refine ⟨(m.length + 1 + 2 * w + z) / (16 * w), ?_, Nat.mod_lt _ (by omega)⟩
    symm
    apply Nat.mul_div_cancel'
    show 16 * w ∣ m.length + 1 + 2 * w + (16 * w - (m.length + 1 + 2 * w) % (16 * w)) % (16 * w)
    have hlt := Nat.mod_lt (m.length + 1 + 2 * w) (show 0 < 16 * w by omega)
    generalize m.length + 1 + 2 * w = a at *
    apply Nat.dvd_of_mod_eq_zero
    rw [Nat.add_mod, Nat.mod_mod, ← Nat.add_mod]
    rw [Nat.add_mod]
    by_cases h0 : a % (16 * w) = 0
    · rw [h0]; simp
    · rw [Nat.mod_eq_of_lt (show 16 * w - a % (16 * w) < 16 * w by omega), Nat.add_sub_cancel' (by omega), Nat.mod_self]
  obtain ⟨q, hq, hzlt⟩ := hz
  have dm := Nat.div_add_mod m.length (16 * w)
  rw [← hrl] at dm
  have hhash : hash T.digest T.init T.outLen m =
      (((chunks (16 * w) (rest w m ++ true :: (List.replicate z false ++ beBits (2 * w) m.length))).map (words w)).foldl T.digest (absorbed T m)).take
        T.outLen := by
    unfold Spec.hash pad
    rw [← absorbed_cat hw1]
    rfl
  rw [hhash]
  have hlen1 : (rest w m ++ [true]).length = (rest w m).length + 1 := by simp
  have h16 : 16 * w * (m.length / (16 * w)) + ((rest w m).length + 1 + 2 * w + z) = 16 * w * q := by omega
  have hqd : ∃ p, (rest w m).length + 1 + 2 * w + z = 16 * w * p := by
    refine ⟨q - m.length / (16 * w), ?_⟩
    rw [Nat.mul_sub]; omega
  obtain ⟨p, hp⟩ := hqd
  by_cases hbig : (rest w m).length + 1 > 14 * w
  · -- two blocks
    have hz2 : z = (16 * w - ((rest w m).length + 1)) + 14 * w := by
      have : p = 2 := by
        have h1 : 16 * w * 1 < 16 * w * p := by omega
        have h2 : 16 * w * p < 16 * w * 3 := by omega
        have := Nat.lt_of_mul_lt_mul_left h1
        have := Nat.lt_of_mul_lt_mul_left h2
        omega
      subst this; omega
    have hsplit : rest w m ++ true :: (List.replicate z false ++ beBits (2 * w) m.length) =
        (rest w m ++ [true] ++ List.replicate (16 * w - ((rest w m).length + 1)) false) ++
          (List.replicate (14 * w) false ++ beBits (2 * w) m.length) := by
      rw [hz2, ← List.replicate_append_replicate]; simp only [List.append_assoc, List.cons_append, List.nil_append]
    have hl1 : (rest w m ++ [true] ++ List.replicate (16 * w - ((rest w m).length + 1)) false).length = 16 * w := by
      rw [List.length_append, hlen1, List.length_replicate]; omega
    have hl2 : (List.replicate (14 * w) false ++ beBits (2 * w) m.length).length = 16 * w := by
      rw [List.length_append, List.length_replicate, beBits_length]; omega
    rw [hsplit, chunks_append (by omega) 1 _ _ (by omega), chunks_one (by omega) hl1, chunks_one (by omega) hl2]
    simp only [List.cons_append, List.nil_append, List.map_cons, List.map_nil, List.foldl_cons, List.foldl_nil]
    have hst1 : st1 = words w (rest w m ++ [true] ++ List.replicate (16 * w - ((rest w m).length + 1)) false) :=
      let h := hH1.zeros (16 * w - ((rest w m).length + 1))
      state_eq_words hw1 h.1 hl1 h.2
    have hst2 : (shiftDown (zeroBlock w) (BitVec.ofNat 64 m.length)).set 15 ((BitVec.ofNat 64 m.length).setWidth w) =
        words w (List.replicate (14 * w) false ++ beBits (2 * w) m.length) :=
      let h := Holds.length hw Holds.zero (a := []) (by simp) hn
      state_eq_words hw1 h.1 hl2 (by simpa using h.2)
    by_cases heq : (rest w m).length + 1 = 16 * w
    · rw [if_pos heq]
      simp only
      rw [if_neg (by omega)]
      simp only
      exact ⟨_, by rw [hst2, hst1]⟩
    · rw [if_neg heq]
      simp only
      rw [if_pos (by omega)]
      simp only
      exact ⟨_, by rw [hst2, hst1]⟩
  · have hz1 : z = 14 * w - ((rest w m).length + 1) := by
      have : p = 1 := by
        have h1 : 16 * w * 0 < 16 * w * p := by omega
        have h2 : 16 * w * p < 16 * w * 2 := by omega
        have := Nat.lt_of_mul_lt_mul_left h1
        have := Nat.lt_of_mul_lt_mul_left h2
        omega
      subst this; omega
    have hsplit : rest w m ++ true :: (List.replicate z false ++ beBits (2 * w) m.length) =
        rest w m ++ [true] ++ (List.replicate (14 * w - (rest w m ++ [true]).length) false ++ beBits (2 * w) m.length) := by
      rw [hz1, hlen1]; simp
    have hl : (rest w m ++ [true] ++ (List.replicate (14 * w - (rest w m ++ [true]).length) false ++ beBits (2 * w) m.length)).length = 16 * w := by
      rw [hlen1, List.length_append, hlen1, List.length_append, List.length_replicate, beBits_length]; omega
    rw [hsplit, chunks_one (by omega) hl]
    simp only [List.map_cons, List.map_nil, List.foldl_cons, List.foldl_nil]
    have h := Holds.length hw hH1 (by rw [hlen1]; omega) hn
    have hne : ¬ ((rest w m).length + 1 = 16 * w) := by omega
    simp only [if_neg hne]
    rw [if_neg (by omega)]
    simp only
    exact ⟨_, by rw [state_eq_words hw1 h.1 hl h.2]⟩

/-- what a call needs after the message `m`: an update must start at a whole byte, have the bits it is to use, and unused bits
    of the last byte that are zero -/
def Fits (m : List Bool) : Call → Prop
  | .bytes l => m.length % 8 = 0 ∧ (Src.range l).Ok
  | .bits l n => m.length % 8 = 0 ∧ (Src.counted l n).Ok
  | .finalize => True

def AllFit : List Bool → List Call → Prop
  | _, [] => True
  | m, c :: cs => Fits m c ∧ AllFit (m ++ c.content) cs

theorem calls_spec (hw : w = 32 ∨ w = 64) (T : Traits w) : ∀ (cs : List Call) (o : Obj w) (m : List Bool), Inv T o m → AllFit m cs →
    (m ++ message cs).length < 2 ^ 64 →
    ∃ o', o.calls T cs = some (o', expected (Spec.hash T.digest T.init T.outLen) m cs) ∧ Inv T o' (m ++ message cs) := by
  have hW : Width w := by rcases hw with rfl | rfl <;> exact ⟨by omega, by omega, by omega⟩
  have hal : ∀ (o : Obj w) (m : List Bool), Inv T o m → m.length % 8 = 0 → o.stuffedSize % 8 = 0 := by
    intro o m hI h8
    rw [hI.stuffed, rest_length, Nat.mod_mod_of_dvd]
    · exact h8
    · have := hW.eight; omega
  intro cs
  induction cs with
  | nil => intro o m hI _ _; exact ⟨o, rfl, by simpa [message] using hI⟩
  | cons c cs ih =>
    intro o m hI hfit hlen
    obtain ⟨hc, hrest⟩ := hfit
    have hmsg : m ++ message (c :: cs) = (m ++ c.content) ++ message cs := by simp [message]
    rw [hmsg] at hlen ⊢
    cases c with
    | bytes l =>
      obtain ⟨o', e, hI'⟩ := blockLoop_spec hW T (8 * l.length + 1) o m (.range l) hI hc.1 hc.2 (by simp [Src.content, bitsOf_length])
      obtain ⟨o'', e', hI''⟩ := ih o' _ hI' hrest hlen
      refine ⟨o'', ?_, hI''⟩
      have hu : o.update T l = some o' := by
        unfold Obj.update blockAndDigest
        rw [if_pos (hal o m hI hc.1)]; exact e
      rw [Obj.calls, hu]
      exact e'
    | bits l n =>
      obtain ⟨o', e, hI'⟩ := blockLoop_spec hW T (n + 1) o m (.counted l n) hI hc.1 hc.2 (by simp [Src.content, bitsOf_length])
      obtain ⟨o'', e', hI''⟩ := ih o' _ hI' hrest hlen
      refine ⟨o'', ?_, hI''⟩
      have hu : o.updateBits T l n = some o' := by
        unfold Obj.updateBits blockAndDigest
        rw [if_pos (hal o m hI hc.1)]; exact e
      rw [Obj.calls, hu]
      exact e'
    | finalize =>
      simp only [Call.content, List.append_nil] at hrest hlen ⊢
      obtain ⟨o'', e', hI''⟩ := ih o m hI hrest hlen
      refine ⟨o'', ?_, hI''⟩
      have hm : m.length < 2 ^ 64 := by rw [List.length_append] at hlen; omega
      rw [Obj.calls, finalize_spec hw T hI hm]
      simp only [e', expected]

end Verif.Sha
