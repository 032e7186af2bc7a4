import Verif.Md5.Model
import Verif.Md5.Spec
import Mathlib.Tactic.Ring

namespace Verif.Md5
open Verif.Chunks

def toSpec (r : Regs) : Word × Word × Word × Word := (r.a, r.b, r.c, r.d)

theorem rot_eq (x : Word) (n : Nat) (h : n < 32) : rotateLeft x n = x.rotateLeft n := by
  rw [BitVec.rotateLeft_eq_rotateLeftAux_of_lt h]; rfl

/-- the call that step `i` of the specification corresponds to -/
def specCall (i : Nat) : Call :=
  ⟨(([Macro.FF, .GG, .HH, .II] : List Macro).getD (i / 16) .FF), (([Var.a, .d, .c, .b] : List Var).getD (i % 4) .a), Spec.index i, Spec.shift i, Spec.T.getD i 0⟩

theorem calls_eq : calls.flatten = (List.range 64).map specCall := by decide

/-- the registers in the order in which step `i` of the specification sees them -/
def view (i : Nat) (r : Regs) : Word × Word × Word × Word :=
  match i % 4 with
  | 0 => (r.a, r.b, r.c, r.d)
  | 1 => (r.d, r.a, r.b, r.c)
  | 2 => (r.c, r.d, r.a, r.b)
  | _ => (r.b, r.c, r.d, r.a)

theorem fn_eq (i : Nat) (h : i < 64) : (([Macro.FF, .GG, .HH, .II] : List Macro).getD (i / 16) .FF).fn = Spec.f (i / 16) := by
  have : i / 16 < 4 := by omega
  generalize i / 16 = r at this ⊢
  match r, this with
  | 0, _ => rfl
  | 1, _ => rfl
  | 2, _ => rfl
  | 3, _ => rfl

theorem shift_lt (i : Nat) (h : i < 64) : Spec.shift i < 32 := by
  revert i; decide

theorem index_lt (i : Nat) (h : i < 64) : Spec.index i < 16 := by
  revert i; decide

theorem apply_eq {i : Nat} (h : i < 64) (a b c d x : Word) :
    (([Macro.FF, .GG, .HH, .II] : List Macro).getD (i / 16) .FF).apply a b c d x (Spec.shift i) (Spec.T.getD i 0) =
      b + (a + Spec.f (i / 16) b c d + x + Spec.T.getD i 0).rotateLeft (Spec.shift i) := by
  unfold Macro.apply
  simp only
  rw [fn_eq i h, rot_eq _ _ (shift_lt i h), BitVec.add_comm]
  congr 2
  simp only [BitVec.add_assoc]

theorem run_eq {x X : Nat → Word} (hx : ∀ i < 16, x i = X i) {i : Nat} (h : i < 64) (r : Regs) :
    view (i + 1) ((specCall i).run x r) = Spec.step X (view i r) i := by
  have e := hx (Spec.index i) (index_lt i h)
  have h4 : i % 4 < 4 := Nat.mod_lt _ (by omega)
  have key : ∀ m, m = i % 4 → view (i + 1) ((specCall i).run x r) = Spec.step X (view i r) i := by
    intro m hm
    match m, hm with
    | 0, hm =>
      have hs : (i + 1) % 4 = 1 := by omega
      simp only [view, hs, ← hm, specCall, Call.run, Spec.step, List.getD_cons_zero, e]
      rw [apply_eq h]
    | 1, hm =>
      have hs : (i + 1) % 4 = 2 := by omega
      simp only [view, hs, ← hm, specCall, Call.run, Spec.step, List.getD_cons_succ, List.getD_cons_zero, e]
      rw [apply_eq h]
    | 2, hm =>
      have hs : (i + 1) % 4 = 3 := by omega
      simp only [view, hs, ← hm, specCall, Call.run, Spec.step, List.getD_cons_succ, List.getD_cons_zero, e]
      rw [apply_eq h]
    | 3, hm =>
      have hs : (i + 1) % 4 = 0 := by omega
      simp only [view, hs, ← hm, specCall, Call.run, Spec.step, List.getD_cons_succ, List.getD_cons_zero, e]
      rw [apply_eq h]
    | m + 4, hm => omega
  exact key _ rfl

theorem rounds_eq {x X : Nat → Word} (hx : ∀ i < 16, x i = X i) (r : Regs) : ∀ n ≤ 64,
    view n (((List.range n).map specCall).foldl (Call.run x) r) = (List.range n).foldl (Spec.step X) (view 0 r) := by
  intro n
  induction n with
  | zero => intro _; rfl
  | succ n ih =>
    intro hn
    rw [List.range_succ, List.map_append, List.foldl_append, List.foldl_append, ← ih (by omega)]
    exact run_eq hx (by omega) _

theorem or_bytes (a b c d : Byte) :
    (a.setWidth 32 ||| (b.setWidth 32 <<< 8) ||| (c.setWidth 32 <<< 16) ||| (d.setWidth 32 <<< 24) : Word) =
      BitVec.ofNat 32 (a.toNat + 256 * (b.toNat + 256 * (c.toNat + 256 * (d.toNat + 256 * 0)))) := by
  have ha := a.isLt
  have hb := b.isLt
  have hc := c.isLt
  have hd := d.isLt
  apply BitVec.eq_of_toNat_eq
  simp only [BitVec.toNat_or, BitVec.toNat_shiftLeft, BitVec.toNat_setWidth, BitVec.toNat_ofNat, Nat.shiftLeft_eq]
  rw [Nat.mod_eq_of_lt (a := a.toNat) (by omega), Nat.mod_eq_of_lt (a := b.toNat) (by omega), Nat.mod_eq_of_lt (a := c.toNat) (by omega),
    Nat.mod_eq_of_lt (a := d.toNat) (by omega), Nat.mod_eq_of_lt (a := b.toNat * _) (by omega), Nat.mod_eq_of_lt (a := c.toNat * _) (by omega),
    Nat.mod_eq_of_lt (a := d.toNat * _) (by omega), Nat.mod_eq_of_lt (by omega)]
  have e1 : a.toNat ||| b.toNat * 2 ^ 8 = a.toNat + b.toNat * 2 ^ 8 := by
    rw [Nat.or_comm, Nat.add_comm, Nat.mul_comm, Nat.two_pow_add_eq_or_of_lt (by omega)]
  rw [e1]
  have e2 : (a.toNat + b.toNat * 2 ^ 8) ||| c.toNat * 2 ^ 16 = a.toNat + b.toNat * 2 ^ 8 + c.toNat * 2 ^ 16 := by
    rw [Nat.or_comm, Nat.add_comm _ (c.toNat * _), Nat.mul_comm c.toNat, Nat.two_pow_add_eq_or_of_lt (by omega)]
  rw [e2]
  have e3 : (a.toNat + b.toNat * 2 ^ 8 + c.toNat * 2 ^ 16) ||| d.toNat * 2 ^ 24 = a.toNat + b.toNat * 2 ^ 8 + c.toNat * 2 ^ 16 + d.toNat * 2 ^ 24 := by
    rw [Nat.or_comm, Nat.add_comm _ (d.toNat * _), Nat.mul_comm d.toNat, Nat.two_pow_add_eq_or_of_lt (by omega)]
  rw [e3]
  omega

theorem decode_eq {block : List Byte} (h : block.length = 64) {i : Nat} (hi : i < 16) : decode (fun i => block.getD i 0) i = Spec.word block i := by
  have e : (block.drop (4 * i)).take 4 = [block.getD (4 * i) 0, block.getD (4 * i + 1) 0, block.getD (4 * i + 2) 0, block.getD (4 * i + 3) 0] := by
    apply List.ext_getElem?
    intro j
    rw [List.getElem?_take]
    split
    · rename_i hj
      have : j = 0 ∨ j = 1 ∨ j = 2 ∨ j = 3 := by omega
      rw [List.getElem?_drop]
      rcases this with rfl | rfl | rfl | rfl
      · simp [List.getElem?_eq_getElem (show 4 * i < block.length by omega)]
      · simp [List.getElem?_eq_getElem (show 4 * i + 1 < block.length by omega)]
      · simp [List.getElem?_eq_getElem (show 4 * i + 2 < block.length by omega)]
      · simp [List.getElem?_eq_getElem (show 4 * i + 3 < block.length by omega)]
    · rename_i hj
      rw [List.getElem?_eq_none]; simp; omega
  simp only [decode, Spec.word, e, Spec.leVal]
  exact or_bytes _ _ _ _

theorem transform_eq {st : Regs} {block : List Byte} (h : block.length = 64) :
    ∃ r, transform st block = some r ∧ toSpec r = Spec.compress (toSpec st) block := by
  refine ⟨_, by rw [transform, if_neg (by omega)], ?_⟩
  have := rounds_eq (x := decode (fun i => block.getD i 0)) (X := Spec.word block) (fun i hi => decode_eq h hi) st 64 (Nat.le_refl _)
  rw [← calls_eq] at this
  simp only [Spec.compress, toSpec]
  have hv : ∀ r : Regs, view 0 r = (r.a, r.b, r.c, r.d) := fun _ => rfl
  have hv' : ∀ r : Regs, view 64 r = (r.a, r.b, r.c, r.d) := fun _ => rfl
  rw [hv, hv'] at this
  rw [← this]

/-! ### encoding -/

theorem byte_eq (w : Word) (k : Nat) : ((w >>> k) &&& 0xff#32).setWidth 8 = BitVec.ofNat 8 (w.toNat / 2 ^ k) := by
  apply BitVec.eq_of_toNat_eq
  simp only [BitVec.toNat_setWidth, BitVec.toNat_and, BitVec.toNat_ushiftRight, BitVec.toNat_ofNat, Nat.shiftRight_eq_div_pow]
  have : (255 % 2 ^ 32 : Nat) = 2 ^ 8 - 1 := by decide
  rw [this, Nat.and_two_pow_sub_one_eq_mod]
  omega

theorem encode_cons (w : Word) (ws : List Word) : encode (w :: ws) = Spec.leBytes 4 w.toNat ++ encode ws := by
  have h0 := byte_eq w 0
  simp only [BitVec.ushiftRight_zero, Nat.pow_zero, Nat.div_one] at h0
  simp only [encode, Spec.leBytes, h0, byte_eq, List.cons_append, List.nil_append]
  simp only [Nat.div_div_eq_div_mul]
  rfl

theorem leBytes_length (k n : Nat) : (Spec.leBytes k n).length = k := by
  induction k generalizing n with
  | zero => rfl
  | succ k ih => simp [Spec.leBytes, ih]

theorem encode_length (ws : List Word) : (encode ws).length = 4 * ws.length := by
  induction ws with
  | nil => rfl
  | cons w ws ih => rw [encode_cons, List.length_append, leBytes_length, ih, List.length_cons]; omega

theorem leBytes_add (k m n : Nat) : Spec.leBytes (k + m) n = Spec.leBytes k n ++ Spec.leBytes m (n / 256 ^ k) := by
  induction k generalizing n with
  | zero => simp [Spec.leBytes]
  | succ k ih =>
    rw [Nat.succ_add]
    simp only [Spec.leBytes, List.cons_append, ih, Nat.div_div_eq_div_mul]
    rw [Nat.pow_succ, Nat.mul_comm]

theorem leBytes_mod (k n m : Nat) (h : 256 ^ k ∣ m) : Spec.leBytes k (n % m) = Spec.leBytes k n := by
  induction k generalizing n m with
  | zero => rfl
  | succ k ih =>
    obtain ⟨q, rfl⟩ := h
    simp only [Spec.leBytes]
    congr 1
    · apply BitVec.eq_of_toNat_eq
      simp only [BitVec.toNat_ofNat]
      rw [Nat.mod_mod_of_dvd]
      exact ⟨256 ^ k * q, by rw [Nat.pow_succ]; ring⟩
    · have e : 256 ^ (k + 1) * q = 256 * (256 ^ k * q) := by rw [Nat.pow_succ]; ring
      rw [e, Nat.mod_mul_right_div_self, ih]
      exact ⟨q, rfl⟩

/-! ### streaming -/

def init : Word × Word × Word × Word := (0x67452301#32, 0xefcdab89#32, 0x98badcfe#32, 0x10325476#32)

/-- the object has absorbed `msg` -/
structure Inv (s : St) (msg : List Byte) : Prop where
  len : s.buffer.length = 64
  state : toSpec s.state = (chunks 64 msg).foldl Spec.compress init
  buf : s.buffer.take (msg.length % 64) = msg.drop (64 * (msg.length / 64))
  count : s.count0.toNat + 2 ^ 32 * s.count1.toNat = 8 * msg.length % 2 ^ 64

theorem index_eq {s : St} {msg : List Byte} (h : Inv s msg) : ((s.count0 >>> 3) &&& 0x3f#32).toNat = msg.length % 64 := by
  simp only [BitVec.toNat_and, BitVec.toNat_ushiftRight, BitVec.toNat_ofNat, Nat.shiftRight_eq_div_pow]
  have : (63 % 2 ^ 32 : Nat) = 2 ^ 6 - 1 := by decide
  rw [this, Nat.and_two_pow_sub_one_eq_mod]
  have := h.count
  have := s.count0.isLt
  have := s.count1.isLt
  omega

theorem count_eq {c0 c1 : Word} {m n : Nat} (h : c0.toNat + 2 ^ 32 * c1.toNat = 8 * m % 2 ^ 64) :
    (c0 + BitVec.ofNat 32 (n <<< 3)).toNat + 2 ^ 32 * (c1 + (if c0 + BitVec.ofNat 32 (n <<< 3) < BitVec.ofNat 32 (n <<< 3) then (1 : Word) else 0)
      + BitVec.ofNat 32 (n >>> 29)).toNat = 8 * (m + n) % 2 ^ 64 := by
  have h0 := c0.isLt
  have h1 := c1.isLt
  have hlt : (c0 + BitVec.ofNat 32 (n <<< 3) < BitVec.ofNat 32 (n <<< 3)) ↔ 2 ^ 32 ≤ c0.toNat + n * 8 % 2 ^ 32 := by
    rw [BitVec.lt_def]
    simp only [BitVec.toNat_add, BitVec.toNat_ofNat, Nat.shiftLeft_eq]
    omega
  by_cases hc : 2 ^ 32 ≤ c0.toNat + n * 8 % 2 ^ 32
  · rw [if_pos (hlt.mpr hc)]
    simp only [BitVec.toNat_add, BitVec.toNat_ofNat, Nat.shiftLeft_eq, Nat.shiftRight_eq_div_pow]
    have : (1 : Word).toNat = 1 := rfl
    rw [this]
    omega
  · rw [if_neg (fun q => hc (hlt.mp q))]
    simp only [BitVec.toNat_add, BitVec.toNat_ofNat, Nat.shiftLeft_eq, Nat.shiftRight_eq_div_pow]
    have : (0 : Word).toNat = 0 := rfl
    rw [this]
    omega

theorem blockLoop_eq (input : List Byte) : ∀ (fuel i : Nat) (st : Regs), i ≤ input.length → input.length < fuel + i →
    ∃ j st', blockLoop input fuel i st = some (j, st') ∧ j = i + 64 * ((input.length - i) / 64) ∧
      toSpec st' = (chunks 64 (input.drop i)).foldl Spec.compress (toSpec st) := by
  intro fuel
  induction fuel with
  | zero => intro i st h1 h2; omega
  | succ fuel ih =>
    intro i st h1 h2
    unfold blockLoop
    by_cases hc : i + 63 < input.length
    · rw [if_pos hc]
      obtain ⟨r, hr, hs⟩ := transform_eq (st := st) (block := (input.drop i).take 64) (by rw [List.length_take, List.length_drop]; omega)
      rw [hr]
      obtain ⟨j, st', e1, e2, e3⟩ := ih (i + 64) r (by omega) (by omega)
      refine ⟨j, st', e1, by omega, ?_⟩
      rw [e3, hs, chunks_long (l := input.drop i) (by omega) (by rw [List.length_drop]; omega), List.foldl_cons, List.drop_drop]
    · rw [if_neg hc]
      refine ⟨i, st, rfl, by omega, ?_⟩
      rw [chunks_short (by rw [List.length_drop]; omega)]; rfl

theorem memcpy_eq {buf src : List Byte} {i : Nat} (h : i + src.length ≤ buf.length) :
    ∃ b, memcpy buf i src = some b ∧ b.length = buf.length ∧ b.take (i + src.length) = buf.take i ++ src := by
  refine ⟨_, by rw [memcpy, if_pos h], ?_, ?_⟩
  · simp only [List.length_append, List.length_take, List.length_drop]; omega
  · rw [List.take_append_of_le_length (by simp only [List.length_append, List.length_take]; omega), List.take_of_length_le]
    simp only [List.length_append, List.length_take]; omega

theorem update_eq {s : St} {msg : List Byte} (h : Inv s msg) (input : List Byte) :
    ∃ s', s.update input = some s' ∧ Inv s' (msg ++ input) := by
  have hm : msg.length % 64 < 64 := Nat.mod_lt _ (by omega)
  have hdm := Nat.div_add_mod msg.length 64
  unfold St.update
  simp only [index_eq h]
  have hcount := count_eq (n := input.length) h.count
  have hrest : (msg.drop (64 * (msg.length / 64))).length = msg.length % 64 := by rw [List.length_drop]; omega
  by_cases hc : input.length ≥ 64 - msg.length % 64
  · rw [if_pos hc]
    have hp : (input.take (64 - msg.length % 64)).length = 64 - msg.length % 64 := by rw [List.length_take]; omega
    obtain ⟨b, e1, l1, t1⟩ := memcpy_eq (buf := s.buffer) (i := msg.length % 64) (src := input.take (64 - msg.length % 64))
      (by rw [hp, h.len]; omega)
    have hb : b = msg.drop (64 * (msg.length / 64)) ++ input.take (64 - msg.length % 64) := by
      rw [← h.buf, ← t1, List.take_of_length_le]
      rw [l1, h.len, hp]; omega
    have lb : b.length = 64 := by rw [l1, h.len]
    obtain ⟨r, e2, s2⟩ := transform_eq (st := s.state) lb
    obtain ⟨j, st', e3, hj, s3⟩ := blockLoop_eq input (input.length + 1) (64 - msg.length % 64) r hc (by omega)
    obtain ⟨b', e4, l4, t4⟩ := memcpy_eq (buf := b) (i := 0) (src := input.drop j) (by rw [lb, List.length_drop]; omega)
    simp only [e1, e2, e3, e4]
    refine ⟨_, rfl, ⟨by simp only; omega, ?_, ?_, ?_⟩⟩
    · simp only
      have hcat : msg.drop (64 * (msg.length / 64)) ++ input = b ++ input.drop (64 - msg.length % 64) := by
        rw [hb, List.append_assoc, List.take_append_drop]
      rw [s3, s2, h.state, chunks_cat (by omega), hcat, chunks_append (by omega) 1 _ _ (by rw [lb]), chunks_one (by omega) lb,
        List.foldl_append, List.foldl_append]
      rfl
    · simp only
      have hlen : (input.drop j).length = (msg ++ input).length % 64 := by
        rw [List.length_drop, List.length_append]; omega
      rw [Nat.zero_add, List.take_zero, List.nil_append] at t4
      rw [← hlen, t4]
      conv_rhs => rw [List.drop_append, List.drop_of_length_le (by rw [List.length_append]; omega), List.nil_append]
      congr 1
      rw [List.length_append]; omega
    · simp only [List.length_append]; exact hcount
  · rw [if_neg hc]
    obtain ⟨b, e1, l1, t1⟩ := memcpy_eq (buf := s.buffer) (i := msg.length % 64) (src := input) (by rw [h.len]; omega)
    simp only [e1]
    have hdiv : (msg ++ input).length / 64 = msg.length / 64 := by rw [List.length_append]; omega
    have hmod : (msg ++ input).length % 64 = msg.length % 64 + input.length := by rw [List.length_append]; omega
    refine ⟨_, rfl, ⟨by simp only; rw [l1, h.len], ?_, ?_, ?_⟩⟩
    · simp only
      rw [h.state, chunks_cat (by omega), chunks_short (l := msg.drop (64 * (msg.length / 64)) ++ input), List.append_nil]
      rw [List.length_append, hrest]; omega
    · simp only
      rw [hdiv, hmod, t1, h.buf, List.drop_append_of_le_length (by omega)]
    · simp only [List.length_append]; exact hcount

theorem updates_eq {s : St} {msg : List Byte} (h : Inv s msg) (ps : List (List Byte)) :
    ∃ s', s.updates ps = some s' ∧ Inv s' (msg ++ ps.flatten) := by
  induction ps generalizing s msg with
  | nil => exact ⟨s, rfl, by simpa using h⟩
  | cons p ps ih =>
    obtain ⟨s1, e1, i1⟩ := update_eq h p
    obtain ⟨s2, e2, i2⟩ := ih i1
    refine ⟨s2, by simp only [St.updates, e1, e2], ?_⟩
    simpa [List.append_assoc] using i2

theorem new_inv {buffer : List Byte} (h : buffer.length = 64) : Inv (St.new buffer) [] := by
  refine ⟨h, ?_, ?_, ?_⟩
  · rfl
  · simp
  · rfl

theorem encode_count {s : St} {msg : List Byte} (h : Inv s msg) : encode [s.count0, s.count1] = Spec.leBytes 8 (8 * msg.length) := by
  have h0 := s.count0.isLt
  have h1 := s.count1.isLt
  have := h.count
  rw [encode_cons, encode_cons]
  simp only [encode, List.append_nil]
  rw [← leBytes_mod 8 _ (2 ^ 64) (by exact ⟨1, by norm_num⟩), ← h.count, leBytes_add 4 4]
  congr 1
  · rw [← leBytes_mod 4 (s.count0.toNat + _) (2 ^ 32) (by exact ⟨1, by norm_num⟩)]
    congr 1
    omega
  · congr 1
    norm_num
    omega

theorem final_eq {s : St} {msg : List Byte} (h : Inv s msg) : ∃ s', s.final = some (s', Spec.digest msg) ∧ Inv s' [] := by
  have hm : msg.length % 64 < 64 := Nat.mod_lt _ (by omega)
  unfold St.final
  simp only [index_eq h, encode_count h]
  have hpad : padding.take (if msg.length % 64 < 56 then 56 - msg.length % 64 else 120 - msg.length % 64) =
      0x80#8 :: List.replicate ((119 - msg.length % 64) % 64) 0#8 := by
    obtain ⟨k, hk1, hk2⟩ : ∃ k, (if msg.length % 64 < 56 then 56 - msg.length % 64 else 120 - msg.length % 64) = k + 1 ∧
        k = (119 - msg.length % 64) % 64 := by
      split
      · exact ⟨55 - msg.length % 64, by omega, by omega⟩
      · exact ⟨119 - msg.length % 64, by omega, by omega⟩
    rw [hk1, padding, List.take_succ_cons, List.take_replicate, ← hk2]
    congr 2
    omega
  rw [hpad]
  obtain ⟨s1, e1, i1⟩ := update_eq h (0x80#8 :: List.replicate ((119 - msg.length % 64) % 64) 0#8)
  rw [e1]
  obtain ⟨s2, e2, i2⟩ := update_eq i1 (Spec.leBytes 8 (8 * msg.length))
  simp only [e2]
  refine ⟨s2.reset, ?_, ⟨i2.len, rfl, by simp, rfl⟩⟩
  congr 2
  have hs := i2.state
  have hp : msg ++ 0x80#8 :: List.replicate ((119 - msg.length % 64) % 64) 0#8 ++ Spec.leBytes 8 (8 * msg.length) = Spec.pad msg := by
    simp [Spec.pad]
  rw [hp] at hs
  have hd : Spec.digest msg = Spec.leBytes 4 (toSpec s2.state).1.toNat ++ Spec.leBytes 4 (toSpec s2.state).2.1.toNat ++
      Spec.leBytes 4 (toSpec s2.state).2.2.1.toNat ++ Spec.leBytes 4 (toSpec s2.state).2.2.2.toNat := by
    rw [hs]; rfl
  rw [hd]
  simp only [toSpec, encode_cons]
  simp [encode]

end Verif.Md5
