import Verif.Sha.Model
import Verif.Sha.Spec
import Mathlib.Data.List.GetD
import Mathlib.Data.List.Induction
import Mathlib.Tactic.Linarith
import Mathlib.Tactic.Ring
/-
Streaming: stuffing, blocks and padding.
-/
namespace Verif.Sha
open Spec Verif.Chunks

variable {w : Nat}

/-! ### bits of numbers -/

theorem beVal_concat (l : List Bool) (b : Bool) : beVal (l ++ [b]) = 2 * beVal l + b.toNat := by simp [beVal]

theorem beVal_testBit (l : List Bool) : ∀ i, i < l.length → (beVal l).testBit (l.length - 1 - i) = l.getD i false := by
  induction l using List.reverseRecOn with
  | nil => intro i h; simp at h
  | append_singleton l b ih =>
    intro i h
    simp only [List.length_append, List.length_cons, List.length_nil] at h
    rw [beVal_concat]
    by_cases hi : i = l.length
    · subst hi
      have : (l ++ [b]).length - 1 - l.length = 0 := by simp
      rw [this]
      cases b <;> simp [Nat.testBit_zero]
      
    · have hi : i < l.length := by omega
      have e : (l ++ [b]).length - 1 - i = (l.length - 1 - i) + 1 := by simp; omega
      rw [e, Nat.testBit_succ]
      have : (2 * beVal l + b.toNat) / 2 = beVal l := by cases b <;> simp <;> omega
      rw [this, ih i hi, List.getD_append _ _ _ _ hi]

theorem getMsbD_beVal {l : List Bool} (hl : l.length = w) {i : Nat} (hi : i < w) : (BitVec.ofNat w (beVal l)).getMsbD i = l.getD i false := by
  rw [BitVec.getMsbD_eq_getLsbD, BitVec.getLsbD_ofNat, ← hl, beVal_testBit l i (by omega)]
  have h1 : i < l.length := by omega
  have h2 : l.length - 1 - i < l.length := by omega
  simp [h1, h2, -Nat.sub_sub]

theorem beBits_getD {k n i : Nat} (hi : i < k) : (beBits k n).getD i false = n.testBit (k - 1 - i) := by
  simp [beBits, List.getD_eq_getElem?_getD, hi]

theorem beBits_length (k n : Nat) : (beBits k n).length = k := by simp [beBits]

theorem byteBits_length (b : Byte) : (byteBits b).length = 8 := by simp [byteBits]

theorem byteBits_getD (b : Byte) (i : Nat) : (byteBits b).getD i false = b.getMsbD i := by
  by_cases h : i < 8
  · simp [byteBits, List.getD_eq_getElem?_getD, h]
  · rw [List.getD_eq_default _ _ (by rw [byteBits_length]; omega)]
    simp [BitVec.getMsbD]; intro h'; omega

/-! ### bits of a message block -/

/-- bit `j` of a message block -/
def blkBit (st : List (BitVec w)) (j : Nat) : Bool := (st.getD (j / w) 0).getMsbD (j % w)

theorem blkBit_zero (j : Nat) : blkBit (zeroBlock w) j = false := by
  unfold blkBit zeroBlock
  by_cases h : j / w < 16
  · rw [List.getD_eq_getElem _ _ (by simpa using h), List.getElem_replicate]; simp
  · rw [List.getD_eq_default _ _ (by simp; omega)]; simp

/-- a block is determined by its bits -/
theorem state_eq_words (hw : 0 < w) {st : List (BitVec w)} (hl : st.length = 16) {c : List Bool} (hc : c.length = 16 * w)
    (h : ∀ j < 16 * w, blkBit st j = c.getD j false) : st = words w c := by
  apply List.ext_getElem
  · simp [words, hl]
  · intro i hi _
    have hi16 : i < 16 := by omega
    simp only [words, List.getElem_map, List.getElem_range]
    apply BitVec.eq_of_getMsbD_eq
    intro k hk
    have hlen : ((c.drop (w * i)).take w).length = w := by
      rw [List.length_take, List.length_drop, hc]
      have : w * i + w ≤ 16 * w := by nlinarith
      omega
    rw [getMsbD_beVal hlen hk]
    have hj : w * i + k < 16 * w := by nlinarith
    have := h (w * i + k) hj
    unfold blkBit at this
    rw [Nat.mul_add_mod, Nat.mod_eq_of_lt hk, Nat.mul_add_div hw, Nat.div_eq_of_lt hk, Nat.add_zero, List.getD_eq_getElem _ _ hi] at this
    rw [this, List.getD_eq_getElem?_getD, List.getD_eq_getElem?_getD, List.getElem?_take, if_pos hk, List.getElem?_drop]

theorem orAt_some {st : List (BitVec w)} {e : Nat} (he : e < st.length) (v : BitVec w) :
    orAt st e v = some (st.set e (st.getD e 0 ||| v)) := by
  simp [orAt, List.getElem?_eq_getElem he, List.getD_eq_getElem _ _ he]

theorem blkBit_set {st : List (BitVec w)} {e : Nat} (he : e < st.length) (v : BitVec w) (j : Nat) :
    blkBit (st.set e v) j = if j / w = e then v.getMsbD (j % w) else blkBit st j := by
  unfold blkBit
  by_cases h : j / w = e
  · rw [if_pos h, h, List.getD_eq_getElem _ _ (by simpa using he)]; simp
  · rw [if_neg h, List.getD_eq_getElem?_getD, List.getD_eq_getElem?_getD, List.getElem?_set_ne (by omega)]

/-- the word that is or-ed into the block for a byte at bit `r` of the word -/
def place (b : Byte) (r : Nat) : BitVec w :=
  if w - r < 8 then b.setWidth w >>> (8 - (w - r)) else if w - r > 8 then b.setWidth w <<< (w - r - 8) else b.setWidth w

theorem place_bit (hw : 8 ≤ w) (b : Byte) {r i : Nat} (hr : r < w) (hi : i < w) :
    (place (w := w) b r).getMsbD i = (decide (r ≤ i) && b.getMsbD (i - r)) := by
  unfold place
  split
  · simp only [BitVec.getMsbD_eq_getLsbD, BitVec.getLsbD_ushiftRight, BitVec.getLsbD_setWidth]
    by_cases h : r ≤ i
    · have : i - r < 8 := by omega
      have e : 8 - (w - r) + (w - 1 - i) = 8 - 1 - (i - r) := by omega
      rw [e]; simp [hi, h, this]; omega
    · have : 8 ≤ 8 - (w - r) + (w - 1 - i) := by omega
      simp [h, BitVec.getLsbD_of_ge b _ this]
  · split
    · simp only [BitVec.getMsbD_eq_getLsbD, BitVec.getLsbD_shiftLeft, BitVec.getLsbD_setWidth]
      by_cases h : r ≤ i
      · by_cases h8 : i - r < 8
        · have e : w - 1 - i - (w - r - 8) = 8 - 1 - (i - r) := by omega
          rw [e]
          have g1 : ¬ (w - 1 - i < w - r - 8) := by omega
          have g2 : w - 1 - i < w := by omega
          have g3 : 8 - 1 - (i - r) < w := by omega
          simp [hi, h, h8, g1, g2, g3, -Nat.sub_sub]
        · have : w - 1 - i < w - r - 8 := by omega
          simp [h8, this]
      · have : 8 ≤ w - 1 - i - (w - r - 8) := by omega
        simp [h, BitVec.getLsbD_of_ge b _ this]
    · simp only [BitVec.getMsbD_eq_getLsbD, BitVec.getLsbD_setWidth]
      by_cases h : r ≤ i
      · have h8 : i - r < 8 := by omega
        have e : w - 1 - i = 8 - 1 - (i - r) := by omega
        rw [e]; simp [hi, h, h8]; omega
      · have : 8 ≤ w - 1 - i := by omega
        simp [h, BitVec.getLsbD_of_ge b _ this]

/-- the block `st` holds exactly the bits `c`, followed by zeros -/
def Holds (st : List (BitVec w)) (c : List Bool) : Prop := st.length = 16 ∧ ∀ j < 16 * w, blkBit st j = c.getD j false

theorem Holds.zero : Holds (zeroBlock w) [] := ⟨by simp [zeroBlock], fun j _ => by simp [blkBit_zero]⟩

/-- or-ing the first `n` bits of a byte, the others being zero, appends them -/
theorem Holds.put (hw : 8 ≤ w) {st : List (BitVec w)} {c : List Bool} (h : Holds st c) (b : Byte) {n : Nat} (hn : n ≤ 8)
    (hz : ∀ i, n ≤ i → b.getMsbD i = false) (hfit : c.length % w + n ≤ w) (hc : c.length < 16 * w) :
    ∃ st', orAt st (c.length / w) (place b (c.length % w)) = some st' ∧ Holds st' (c ++ (byteBits b).take n) := by
  have he : c.length / w < st.length := by rw [h.1]; exact (Nat.div_lt_iff_lt_mul (by omega)).2 hc
  have hr : c.length % w < w := Nat.mod_lt _ (by omega)
  refine ⟨_, orAt_some he _, by simpa using h.1, ?_⟩
  intro j hj
  rw [blkBit_set he]
  have key : (st.getD (j / w) 0).getMsbD (j % w) = c.getD j false := h.2 j hj
  have hjm : j % w < w := Nat.mod_lt _ (by omega)
  have d1 := Nat.div_add_mod j w
  have d2 := Nat.div_add_mod c.length w
  by_cases hlt : j < c.length
  · rw [List.getD_append _ _ _ _ hlt]
    split
    next heq =>
      rw [BitVec.getMsbD_or, ← heq, key, place_bit hw b hr hjm]
      rw [heq] at d1
      have : ¬ c.length % w ≤ j % w := by omega
      simp [this]
    next => exact h.2 j hj
  · have hg : c.getD j false = false := List.getD_eq_default _ _ (by omega)
    rw [List.getD_append_right _ _ _ _ (by omega)]
    have hlen : ((byteBits b).take n).length = n := by rw [List.length_take, byteBits_length]; omega
    have hbit : ((byteBits b).take n).getD (j - c.length) false = b.getMsbD (j - c.length) := by
      by_cases hq : j - c.length < n
      · rw [← byteBits_getD, List.getD_eq_getElem?_getD, List.getD_eq_getElem?_getD, List.getElem?_take, if_pos hq]
      · rw [List.getD_eq_default _ _ (by omega), hz _ (by omega)]
    rw [hbit]
    split
    next heq =>
      rw [BitVec.getMsbD_or, ← heq, key, hg, place_bit hw b hr hjm, Bool.false_or]
      rw [heq] at d1
      have h1 : c.length % w ≤ j % w := by omega
      have h2 : j % w - c.length % w = j - c.length := by omega
      simp [h1, h2]
    next hne =>
      rw [show blkBit st j = c.getD j false from key, hg, hz]
      have hlt : c.length / w < j / w := by
        rcases Nat.lt_or_ge (c.length / w) (j / w) with h' | h'
        · exact h'
        · exfalso
          have hle := Nat.div_le_div_right (c := w) (show c.length ≤ j by omega)
          omega
      have := Nat.mul_le_mul_left w (show c.length / w + 1 ≤ j / w from hlt)
      rw [Nat.mul_succ] at this
      omega

/-! ### sources -/

def Src.bytes : Src → List Byte
  | .range l => l
  | .counted l _ => l

/-- number of whole bytes -/
def Src.whole : Src → Nat
  | .range l => l.length
  | .counted _ n => n / 8

def Src.skip (k : Nat) : Src → Src
  | .range l => .range (l.drop k)
  | .counted l n => .counted (l.drop k) (n - 8 * k)

/-- bits after the whole bytes -/
def Src.left : Src → Nat
  | .range _ => 0
  | .counted _ n => n % 8

def Src.content : Src → List Bool
  | .range l => bitsOf l
  | .counted l n => (bitsOf l).take n

/-- the bits that are asked for can be read, and the bits of the last byte that are not part of the message are zero -/
def Src.Ok : Src → Prop
  | .range _ => True
  | .counted l n => n ≤ 8 * l.length ∧ (n % 8 ≠ 0 → ∀ i, n % 8 ≤ i → (l.getD (n / 8) 0).getMsbD i = false)

theorem bitsOf_cons (b : Byte) (l : List Byte) : bitsOf (b :: l) = byteBits b ++ bitsOf l := by simp [bitsOf]

theorem bitsOf_length (l : List Byte) : (bitsOf l).length = 8 * l.length := by
  induction l with
  | nil => rfl
  | cons b l ih => rw [bitsOf_cons, List.length_append, ih, byteBits_length, List.length_cons]; omega

theorem bitsOf_append (a b : List Byte) : bitsOf (a ++ b) = bitsOf a ++ bitsOf b := by simp [bitsOf]

theorem bitsOf_take (l : List Byte) (k : Nat) : bitsOf (l.take k) = (bitsOf l).take (8 * k) := by
  by_cases h : k ≤ l.length
  · conv_rhs => rw [← List.take_append_drop k l, bitsOf_append]
    rw [List.take_append_of_le_length (by rw [bitsOf_length, List.length_take]; omega),
      List.take_of_length_le (l := bitsOf (l.take k)) (by rw [bitsOf_length, List.length_take]; omega)]
  · rw [List.take_of_length_le (by omega), List.take_of_length_le (by rw [bitsOf_length]; omega)]

theorem bitsOf_drop (l : List Byte) (k : Nat) : bitsOf (l.drop k) = (bitsOf l).drop (8 * k) := by
  by_cases h : k ≤ l.length
  · conv_rhs => rw [← List.take_append_drop k l, bitsOf_append]
    have e : (bitsOf (l.take k)).length = 8 * k := by rw [bitsOf_length, List.length_take]; omega
    rw [← e, List.drop_left]
  · rw [List.drop_of_length_le (by omega), List.drop_of_length_le (by rw [bitsOf_length]; omega)]; rfl

theorem Src.skip_zero (src : Src) : src.skip 0 = src := by cases src <;> simp [Src.skip]

theorem Src.skip_skip (src : Src) (a b : Nat) : (src.skip a).skip b = src.skip (a + b) := by
  cases src <;> simp [Src.skip, List.drop_drop] <;> omega

theorem Src.ok_skip {src : Src} (h : src.Ok) {k : Nat} (hk : k ≤ src.whole) : (src.skip k).Ok := by
  cases src with
  | range l => trivial
  | counted l n =>
    simp only [Src.whole] at hk
    refine ⟨by have := h.1; rw [List.length_drop]; omega, ?_⟩
    have e1 : (n - 8 * k) % 8 = n % 8 := by omega
    have e2 : k + (n - 8 * k) / 8 = n / 8 := by omega
    rw [e1, List.getD_eq_getElem?_getD, List.getElem?_drop, e2, ← List.getD_eq_getElem?_getD]
    exact h.2

theorem Src.whole_skip (src : Src) (k : Nat) : (src.skip k).whole = src.whole - k := by
  cases src <;> simp [Src.skip, Src.whole]; omega

theorem Src.content_skip (src : Src) (k : Nat) : (src.skip k).content = src.content.drop (8 * k) := by
  cases src <;> simp [Src.skip, Src.content, bitsOf_drop, List.drop_take]

theorem Src.content_length {src : Src} (h : src.Ok) : src.content.length = 8 * src.whole + src.left := by
  cases src with
  | range l => simp [Src.content, Src.whole, Src.left, bitsOf_length]
  | counted l n => have := h.1; simp [Src.content, Src.whole, Src.left, bitsOf_length]; omega

theorem Src.content_whole {src : Src} {k : Nat} (hk : k ≤ src.whole) : bitsOf (src.bytes.take k) = src.content.take (8 * k) := by
  cases src with
  | range l => simp [Src.content, Src.bytes, bitsOf_take]
  | counted l n =>
    simp only [Src.whole] at hk
    simp only [Src.content, Src.bytes, bitsOf_take, List.take_take]
    congr 1; omega

theorem Src.avail_eq {src : Src} : src.avail = if 0 < src.whole then 8 else src.left := by
  cases src with
  | range l => cases l <;> simp [Src.avail, Src.whole, Src.left]
  | counted l n =>
    simp only [Src.avail, Src.whole, Src.left]
    by_cases h1 : 8 < n <;> by_cases h2 : 0 < n / 8 <;> simp only [gt_iff_lt, h1, h2, if_true, if_false] <;> omega

theorem Src.next_whole {src : Src} (h : src.Ok) (hp : 0 < src.whole) : src.next = some (src.bytes.getD 0 0, src.skip 1) := by
  cases src with
  | range l => cases l with
    | nil => simp [Src.whole] at hp
    | cons b l => simp [Src.next, Src.bytes, Src.skip]
  | counted l n =>
    simp only [Src.whole] at hp
    cases l with
    | nil => have := h.1; simp at this; omega
    | cons b l =>
      simp only [Src.next, Src.bytes, Src.skip, List.getD_cons_zero, List.drop_succ_cons, List.drop_zero, Option.some.injEq, Prod.mk.injEq,
        true_and, Src.counted.injEq]
      split <;> omega

/-! ### stuffing -/

/-- widths that occur -/
structure Width (w : Nat) : Prop where
  eight : w % 8 = 0
  low : 8 ≤ w
  high : w ≤ 64

theorem place_aligned (_hw : Width w) (b : Byte) {r : Nat} (_hr : r + 8 ≤ w) : b.setWidth w <<< (w - 8 - r) = place (w := w) b r := by
  unfold place
  rw [if_neg (by omega)]
  split
  · congr 1; omega
  · rw [show w - 8 - r = 0 by omega]; simp

theorem aligned_fit (hw : Width w) {o : Nat} (ho : o % 8 = 0) : o % w + 8 ≤ w := by
  obtain ⟨q, hq⟩ := Nat.dvd_of_mod_eq_zero hw.eight
  obtain ⟨p, hp⟩ := Nat.dvd_of_mod_eq_zero ho
  have hlt := Nat.mod_lt o (show 0 < w by have := hw.low; omega)
  have h8 : (o % w) % 8 = 0 := by
    rw [Nat.mod_mod_of_dvd o (Nat.dvd_of_mod_eq_zero hw.eight)]; exact ho
  have := hw.eight
  omega

theorem stuffLoop_spec (hw : Width w) : ∀ (fuel : Nat) (s : Stuff w) (c : List Bool), Holds s.state c → s.offset = c.length → c.length % 8 = 0 →
    c.length + s.numBits = 16 * w → s.element = c.length / w → s.shift = w - 8 - c.length % w → s.src.Ok → s.numBits < fuel →
    ∃ s', stuffLoop fuel s = some s' ∧ (let k := min s.src.whole (s.numBits / 8)
      Holds s'.state (c ++ bitsOf (s.src.bytes.take k)) ∧ s'.offset = c.length + 8 * k ∧ s'.element = (c.length + 8 * k) / w ∧
      s'.stuffed = s.stuffed + 8 * k ∧ s'.numBits = s.numBits - 8 * k ∧ s'.src = s.src.skip k) := by
  intro fuel
  induction fuel with
  | zero => intro s c _ _ _ _ _ _ _ h; omega
  | succ fuel ih =>
    intro s c hH ho h8 hB he hs hok hf
    rw [stuffLoop]
    have hw0 := hw.low
    by_cases hcond : 8 ≤ s.numBits ∧ 0 < s.src.whole
    · have hav : 8 ≤ s.src.avail := by rw [Src.avail_eq, if_pos hcond.2]
      rw [if_pos ⟨hcond.1, hav⟩, Src.next_whole hok hcond.2]
      have hfit := aligned_fit hw h8
      simp only
      rw [if_neg (by omega), he, hs, place_aligned hw _ hfit]
      obtain ⟨st', e1, hH'⟩ := hH.put hw.low (s.src.bytes.getD 0 0) (n := 8) (Nat.le_refl _)
        (by intro i hi; simp [BitVec.getMsbD]; intro h'; omega) hfit (by omega)
      rw [List.take_of_length_le (by rw [byteBits_length])] at hH'
      rw [e1]
      simp only
      have hlen : (c ++ byteBits (s.src.bytes.getD 0 0)).length = c.length + 8 := by rw [List.length_append, byteBits_length]
      have dm := Nat.div_add_mod c.length w
      have hshift : (if w - 8 - c.length % w = 0 then w - 8 else w - 8 - c.length % w - 8) = w - 8 - (c.length + 8) % w ∧
          (if w - 8 - c.length % w = 0 then c.length / w + 1 else c.length / w) = (c.length + 8) / w := by
        by_cases hz : c.length % w + 8 = w
        · have e : c.length + 8 = w * (c.length / w + 1) := by rw [Nat.mul_succ]; omega
          rw [e, Nat.mul_mod_right, Nat.mul_div_cancel_left _ (by omega), if_pos (by omega), if_pos (by omega)]
          simp
        · have e : c.length + 8 = w * (c.length / w) + (c.length % w + 8) := by omega
          rw [e, Nat.mul_add_mod, Nat.mod_eq_of_lt (show c.length % w + 8 < w by omega), Nat.mul_add_div (by omega),
            Nat.div_eq_of_lt (show c.length % w + 8 < w by omega), if_neg (by omega), if_neg (by omega)]
          omega
      obtain ⟨s', e2, g⟩ := ih ⟨st', s.offset + 8, if w - 8 - c.length % w = 0 then c.length / w + 1 else c.length / w,
        if w - 8 - c.length % w = 0 then w - 8 else w - 8 - c.length % w - 8, s.stuffed + 8, s.numBits - 8, s.src.skip 1⟩ _ hH'
        (by rw [hlen, ← ho]) (by rw [hlen]; omega) (by rw [hlen]; simp only; omega) (by rw [hlen]; exact hshift.2)
        (by rw [hlen]; exact hshift.1) (Src.ok_skip hok hcond.2) (by simp only; omega)
      refine ⟨s', e2, ?_⟩
      simp only [Src.whole_skip, hlen] at g
      have hk : min s.src.whole (s.numBits / 8) = 1 + min (s.src.whole - 1) ((s.numBits - 8) / 8) := by omega
      simp only [hk]
      obtain ⟨g1, g2, g3, g4, g5, g6⟩ := g
      have hbytes : s.src.bytes.take (1 + min (s.src.whole - 1) ((s.numBits - 8) / 8)) =
          s.src.bytes.getD 0 0 :: (s.src.skip 1).bytes.take (min (s.src.whole - 1) ((s.numBits - 8) / 8)) := by
        have hne : s.src.bytes ≠ [] := by
          revert hok hcond; cases s.src with
          | range l => intro _ hc; simp [Src.whole, Src.bytes] at *; intro h; simp [h] at hc
          | counted l n =>
            intro hok hc hl; have := hok.1; simp only [Src.bytes] at hl; simp only [Src.whole] at hc; rw [hl] at this; simp at this; omega
        have hsk : (s.src.skip 1).bytes = s.src.bytes.drop 1 := by cases s.src <;> rfl
        rw [hsk]
        obtain ⟨b, l, hbl⟩ := List.exists_cons_of_ne_nil hne
        rw [hbl, Nat.add_comm 1]; simp
      refine ⟨?_, by omega, by rw [g3]; congr 1; omega, by omega, by omega, by rw [g6, Src.skip_skip]⟩
      rw [hbytes, bitsOf_cons, ← List.append_assoc]; exact g1
    · have hav : ¬ (8 ≤ s.numBits ∧ 8 ≤ s.src.avail) := by
        rintro ⟨a, b⟩
        rw [Src.avail_eq] at b
        split at b
        · exact hcond ⟨a, by assumption⟩
        · revert b; cases s.src <;> simp [Src.left]; omega
      rw [if_neg hav]
      have hk : min s.src.whole (s.numBits / 8) = 0 := by omega
      refine ⟨s, rfl, ?_⟩
      simp only [hk]
      refine ⟨by simpa [bitsOf] using hH, by omega, by simpa using he, by omega, by omega, by rw [Src.skip_zero]⟩

theorem shift_eq (hw : Width w) {o : Nat} (ho : o % 8 = 0) : (2 ^ 64 + w - 8 - o % w) % 2 ^ 64 = w - 8 - o % w := by
  have h := aligned_fit hw ho
  have h1 := hw.low
  have h2 := hw.high
  rw [show 2 ^ 64 + w - 8 - o % w = (w - 8 - o % w) + 2 ^ 64 by omega, Nat.add_mod_right]
  apply Nat.mod_eq_of_lt
  omega

/-- there is more than the room left -/
theorem stuff_full (hw : Width w) {st : List (BitVec w)} {c : List Bool} (hH : Holds st c) (h8 : c.length % 8 = 0) (hle : c.length ≤ 16 * w)
    {src : Src} (hok : src.Ok) (hfull : 16 * w - c.length ≤ 8 * src.whole) :
    ∃ st', stuff st c.length (16 * w - c.length) src = some (st', 16 * w, src.skip ((16 * w - c.length) / 8), 16 * w - c.length) ∧
      Holds st' (c ++ src.content.take (16 * w - c.length)) := by
  have e8 := hw.eight
  obtain ⟨s', e, h1, h2, h3, h4, h5, h6⟩ := stuffLoop_spec hw (16 * w - c.length + 1) ⟨st, c.length, c.length / w, w - 8 - c.length % w, 0,
    16 * w - c.length, src⟩ c hH rfl h8 (by simp only; omega) rfl rfl hok (by simp only; omega)
  have hk : min src.whole ((16 * w - c.length) / 8) = (16 * w - c.length) / 8 := by omega
  have hm : 8 * ((16 * w - c.length) / 8) = 16 * w - c.length := by omega
  simp only [hk, hm] at h1 h2 h3 h4 h5 h6
  unfold stuff
  simp only [shift_eq hw h8, e]
  rw [if_neg (by omega)]
  refine ⟨s'.state, by rw [h2, h4, h6, Nat.zero_add, Nat.add_sub_cancel' hle], ?_⟩
  rw [Src.content_whole (by omega), hm] at h1
  exact h1

/-- everything fits -/
theorem stuff_part (hw : Width w) {st : List (BitVec w)} {c : List Bool} (hH : Holds st c) (h8 : c.length % 8 = 0) (hle : c.length ≤ 16 * w)
    {src : Src} (hok : src.Ok) (hpart : 8 * src.whole < 16 * w - c.length) :
    ∃ st' src', stuff st c.length (16 * w - c.length) src = some (st', c.length + src.content.length, src', src.content.length) ∧
      src'.avail = 0 ∧ c.length + src.content.length < 16 * w ∧ Holds st' (c ++ src.content) := by
  have e8 := hw.eight
  obtain ⟨s', e, h1, h2, h3, h4, h5, h6⟩ := stuffLoop_spec hw (16 * w - c.length + 1) ⟨st, c.length, c.length / w, w - 8 - c.length % w, 0,
    16 * w - c.length, src⟩ c hH rfl h8 (by simp only; omega) rfl rfl hok (by simp only; omega)
  have hk : min src.whole ((16 * w - c.length) / 8) = src.whole := by omega
  simp only [hk] at h1 h2 h3 h4 h5 h6
  have hlen := Src.content_length hok
  have hleft : src.left < 8 := by cases src <;> simp [Src.left]; omega
  have havs : s'.src.avail = src.left := by
    rw [Src.avail_eq, h6, Src.whole_skip, Nat.sub_self, if_neg (by omega)]
    cases src with
    | range l => rfl
    | counted l n => simp only [Src.skip, Src.left, Src.whole]; omega
  unfold stuff
  simp only [shift_eq hw h8, e, havs]
  rw [Src.content_whole (Nat.le_refl _)] at h1
  by_cases hz : src.left = 0
  · rw [if_neg (by omega)]
    refine ⟨s'.state, s'.src, by rw [h2, h4, hlen, hz]; simp, by rw [havs, hz], by omega, ?_⟩
    rw [List.take_of_length_le (by omega)] at h1
    exact h1
  · rw [if_pos ⟨by omega, hz⟩]
    cases src with
    | range l => simp [Src.left] at hz
    | counted l n =>
      simp only [Src.left, Src.whole, Src.skip, Src.content, Src.bytes] at *
      have hn := hok.1
      have hlt : n / 8 < l.length := by omega
      rw [h6]
      have hd : l.drop (n / 8) = l.getD (n / 8) 0 :: l.drop (n / 8 + 1) := by
        rw [List.getD_eq_getElem _ _ hlt]; exact List.drop_eq_getElem_cons hlt
      rw [hd]
      simp only [Src.next]
      have hoff : s'.offset = (c ++ List.take (8 * (n / 8)) (List.take n (bitsOf l))).length := by
        rw [h2, List.length_append, List.length_take, hlen]; omega
      have hfit8 := aligned_fit hw (show s'.offset % 8 = 0 by omega)
      obtain ⟨st', e1, hH'⟩ := h1.put hw.low (l.getD (n / 8) 0) (n := n % 8) (by omega) (hok.2 hz)
        (by rw [← hoff]; omega) (by rw [← hoff]; omega)
      rw [← hoff] at e1
      have hel : s'.element = s'.offset / w := by rw [h3, h2]
      rw [hel]
      have hpl : (if w - s'.offset % w < 8 then (l.getD (n / 8) 0).setWidth w >>> (8 - (w - s'.offset % w))
          else if w - s'.offset % w > 8 then (l.getD (n / 8) 0).setWidth w <<< (w - s'.offset % w - 8) else (l.getD (n / 8) 0).setWidth w)
          = place (w := w) (l.getD (n / 8) 0) (s'.offset % w) := rfl
      rw [hpl, e1]
      simp only
      have hmin : min s'.numBits (n % 8) = n % 8 := by omega
      have hif : ∀ (x : Option (List (BitVec w) × Nat × Src × Nat)), (if min s'.numBits (n % 8) < 8 then x else none) = x := by
        intro x; rw [if_pos (by omega)]
      erw [hif, hmin]
      refine ⟨st', .counted (l.drop (n / 8 + 1)) (n - 8 * (n / 8) - (if n - 8 * (n / 8) > 8 then 8 else n - 8 * (n / 8))),
        by rw [h2, h4, hlen, Nat.add_assoc, Nat.zero_add], ?_, by omega, ?_⟩
      · have : ¬ (n - 8 * (n / 8) > 8) := by omega
        rw [if_neg this, Nat.sub_self]; rfl
      · rw [List.append_assoc] at hH'
        have : List.take (8 * (n / 8)) (List.take n (bitsOf l)) ++ List.take (n % 8) (byteBits (l.getD (n / 8) 0)) = List.take n (bitsOf l) := by
          rw [List.take_take, Nat.min_eq_left (by omega)]
          conv_rhs => rw [show n = 8 * (n / 8) + n % 8 by omega, List.take_add, ← bitsOf_drop, hd, bitsOf_cons]
          rw [List.take_append_of_le_length (by rw [byteBits_length]; omega)]
        rw [this] at hH'
        exact hH'

end Verif.Sha
