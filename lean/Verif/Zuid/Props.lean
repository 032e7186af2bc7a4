import Verif.Zuid.Order
import Verif.Zuid.Name
import Verif.Zuid.Frozen
/-!
C98-C101: `zuid_t`.
-/
namespace Verif.Zuid
open Verif.Zuid.Spec

/-! ### C98: text -/

/-- C98: the text has 36 characters: five groups of lower case digits, the fields of the UUID. -/
theorem C98_text (u : Uuid) : str u = text u ∧ (str u).length = 36 ∧ IsText (str u) := by
  refine ⟨str_eq u, by rw [str_eq, text_length], ?_⟩
  rw [str_eq, text_eq]
  refine ⟨hex 8 u.data1.toNat, hex 4 u.data2.toNat, hex 4 u.data3.toNat, hex 2 u.data4[0].toNat ++ hex 2 u.data4[1].toNat, hex 2 u.data4[2].toNat ++ hex 2 u.data4[3].toNat ++
    hex 2 u.data4[4].toNat ++ hex 2 u.data4[5].toNat ++ hex 2 u.data4[6].toNat ++ hex 2 u.data4[7].toNat,
    by simp, hex_length 8 _, hex_length 4 _, hex_length 4 _, by simp [hex_length], by simp [hex_length], ?_⟩
  intro x hx
  simp only [List.mem_append] at hx
  rcases hx with (((h | h) | h) | h | h) | ((((h | h) | h) | h) | h) | h
  all_goals exact hex_isHex _ _ _ h

/-- C98: what was printed is read back as the same UUID. -/
theorem C98_round_trip (u : Uuid) : ofString (str u) = some u ∧ ofCString (str u) = some u := by
  have h : ofString (str u) = some u := by
    rw [str_eq, text_eq, ofCString_groups (hex_length _ _) (hex_length _ _) (hex_length _ _) (hex_length _ _) (hex_length _ _)
      (hex_length _ _) (hex_length _ _) (hex_length _ _) (hex_length _ _) (hex_length _ _) (hex_length _ _)]
    · simp only [ofHex_hex (lt32 _), ofHex_hex (lt16 _), ofHex_hex (lt8 _), BitVec.ofNat_toNat, BitVec.setWidth_eq]
      congr 2
      rw [← Vector.toList_inj, vector8 u.data4]
      rfl
    · intro x hx
      simp only [List.mem_append] at hx
      rcases hx with (((((((((h | h) | h) | h) | h) | h) | h) | h) | h) | h) | h
      all_goals exact hex_isHex _ _ _ h
  refine ⟨h, ?_⟩
  rw [← h, ofString, List.take_of_length_le]
  rw [str_eq, text_length]

/-- C98: different UUIDs have different texts. -/
theorem C98_injective {u v : Uuid} (h : str u = str v) : u = v := by
  have := (C98_round_trip u).1
  rw [h, (C98_round_trip v).1] at this
  exact (Option.some.inj this).symm

/-- C98: every text of a UUID is read, whatever the case of its digits, as the UUID with this text. -/
theorem C98_reads {s : Str} (h : IsText s) : ∃ u, ofString s = some u ∧ str u = s.map lower := by
  obtain ⟨a, b, c, d, e, rfl, ha, hb, hc, hd, he, hx⟩ := h
  obtain ⟨d0, d1, rfl, hd0, hd1⟩ : ∃ x y, d = x ++ y ∧ x.length = 2 ∧ y.length = 2 :=
    ⟨d.take 2, d.drop 2, by simp, by simp; omega, by simp; omega⟩
  obtain ⟨e0, e1, e2, e3, e4, e5, rfl, he0, he1, he2, he3, he4, he5⟩ : ∃ e0 e1 e2 e3 e4 e5, e = e0 ++ e1 ++ e2 ++ e3 ++ e4 ++ e5 ∧
      e0.length = 2 ∧ e1.length = 2 ∧ e2.length = 2 ∧ e3.length = 2 ∧ e4.length = 2 ∧ e5.length = 2 := by
    match e, he with
    | [x0, x1, x2, x3, x4, x5, x6, x7, x8, x9, x10, x11], _ =>
      exact ⟨[x0, x1], [x2, x3], [x4, x5], [x6, x7], [x8, x9], [x10, x11], rfl, rfl, rfl, rfl, rfl, rfl, rfl⟩
  have hx' : ∀ x ∈ a ++ b ++ c ++ d0 ++ d1 ++ e0 ++ e1 ++ e2 ++ e3 ++ e4 ++ e5, IsHexDigit x := by
    intro x h
    apply hx
    simpa using h
  have e' := ofCString_groups ha hb hc hd0 hd1 he0 he1 he2 he3 he4 he5 hx'
  simp only [List.mem_append] at hx'
  have e : a ++ "-".toList ++ b ++ "-".toList ++ c ++ "-".toList ++ (d0 ++ d1) ++ "-".toList ++ (e0 ++ e1 ++ e2 ++ e3 ++ e4 ++ e5) =
      a ++ ['-'] ++ b ++ ['-'] ++ c ++ ['-'] ++ d0 ++ d1 ++ ['-'] ++ e0 ++ e1 ++ e2 ++ e3 ++ e4 ++ e5 := by
    simp
  rw [e]
  refine ⟨_, e', ?_⟩
  have key : ∀ (s : Str) (w n : Nat), s.length = w → 16 ^ w = 2 ^ n → (∀ x ∈ s, IsHexDigit x) →
      hex w (BitVec.ofNat n (ofHex s)).toNat = s.map lower := by
    intro s w n hw hp hs
    obtain ⟨h1, h2⟩ := hex_ofHex hs
    rw [BitVec.toNat_ofNat, Nat.mod_eq_of_lt (by rw [← hp, ← hw]; exact h2), ← hw, h1]
  rw [str_eq, text_eq]
  simp only [Vector.getElem_mk, List.getElem_toArray, List.getElem_cons_zero, List.getElem_cons_succ]
  rw [key a 8 32 ha (by decide) fun x hx => hx' x (by simp [hx]), key b 4 16 hb (by decide) fun x hx => hx' x (by simp [hx]),
    key c 4 16 hc (by decide) fun x hx => hx' x (by simp [hx]), key d0 2 8 hd0 (by decide) fun x hx => hx' x (by simp [hx]),
    key d1 2 8 hd1 (by decide) fun x hx => hx' x (by simp [hx]), key e0 2 8 he0 (by decide) fun x hx => hx' x (by simp [hx]),
    key e1 2 8 he1 (by decide) fun x hx => hx' x (by simp [hx]), key e2 2 8 he2 (by decide) fun x hx => hx' x (by simp [hx]),
    key e3 2 8 he3 (by decide) fun x hx => hx' x (by simp [hx]), key e4 2 8 he4 (by decide) fun x hx => hx' x (by simp [hx]),
    key e5 2 8 he5 (by decide) fun x hx => hx' x (by simp [hx])]
  simp [lower]

/-- C98, violated: the result of `sscanf` is not examined.  From a string that is no UUID an indeterminate value is read... -/
theorem C98_unchecked_violated : ofString "".toList = none ∧ ofString "not a uuid".toList = none ∧
    ofString "0123456789abcdef0123456789abcdef".toList = none := by decide +kernel

/-- C98, violated: ...or the string is taken for a different UUID: a character is missing at the end, or there are signs, blanks and
prefixes. -/
theorem C98_accepts_violated :
    (¬ IsText "00112233-4455-6677-8899-aabbccddeef".toList ∧
      (ofString "00112233-4455-6677-8899-aabbccddeef".toList).map str = some "00112233-4455-6677-8899-aabbccddee0f".toList) ∧
    (¬ IsText "   -1-0x1- +2-  3 4- 5 6 7 8 9 a".toList ∧
      (ofString "   -1-0x1- +2-  3 4- 5 6 7 8 9 a".toList).map str = some "ffffffff-0001-0002-0304-05060708090a".toList) := by
  have len : ∀ s : Str, IsText s → s.length = 36 := by
    rintro s ⟨a, b, c, d, e, rfl, ha, hb, hc, hd, he, _⟩
    simp [ha, hb, hc, hd, he]
  refine ⟨⟨fun h => absurd (len _ h) (by decide), by decide +kernel⟩, ⟨fun h => absurd (len _ h) (by decide), by decide +kernel⟩⟩

/-! ### C99: order -/

/-- C99: `==` is equality. -/
theorem C99_eq (a b : Uuid) : eq a b = true ↔ a = b := eq_iff a b

/-- C99: `<` is the order of the texts. -/
theorem C99_lt_text (a b : Uuid) : lt a b = true ↔ str a < str b := by rw [str_eq, str_eq]; exact lt_iff_text a b

/-- C99: `<` is a strict total order. -/
theorem C99_total : (∀ a, lt a a = false) ∧ (∀ a b c, lt a b = true → lt b c = true → lt a c = true) ∧
    (∀ a b, lt a b = true ∨ a = b ∨ lt b a = true) ∧ (∀ a b, lt a b = true → lt b a = false) := by
  have irr : ∀ a, lt a a = false := by
    intro a
    rw [Bool.eq_false_iff, ne_eq, C99_lt_text]
    exact List.lt_irrefl _
  have tr : ∀ a b c, lt a b = true → lt b c = true → lt a c = true := by
    intro a b c
    rw [C99_lt_text, C99_lt_text, C99_lt_text]
    exact List.lt_trans
  refine ⟨irr, tr, ?_, ?_⟩
  · intro a b
    rw [C99_lt_text, C99_lt_text]
    by_cases h : str a < str b
    · exact .inl h
    · by_cases h' : str b < str a
      · exact .inr (.inr h')
      · exact .inr (.inl (C98_injective (List.le_antisymm h' h)))
  · intro a b h
    by_contra h'
    rw [Bool.not_eq_false] at h'
    have := tr a b a h h'
    rw [irr] at this
    exact absurd this (by decide)

/-- C99: the order is also that of the 16 bytes in network order. -/
theorem C99_lt_fields (a b : Uuid) : lt a b = true ↔
    a.data1 < b.data1 ∨ (a.data1 = b.data1 ∧ (a.data2 < b.data2 ∨ (a.data2 = b.data2 ∧ (a.data3 < b.data3 ∨ (a.data3 = b.data3 ∧
      a.data4.toList < b.data4.toList))))) := by
  have bl : ∀ as bs : List Byte, as.length = bs.length → (compareBytes as bs = -1 ↔ as < bs) := by
    intro as
    induction as with
    | nil => intro bs h; cases bs with
      | nil => simp [compareBytes]
      | cons _ _ => simp at h
    | cons x as ih => intro bs h; cases bs with
      | nil => simp at h
      | cons y bs =>
        rw [compareBytes, check_neg, ih bs (by simpa using h), List.cons_lt_cons_iff, BitVec.lt_def, BitVec.toNat_inj]
  unfold lt uuidCompare
  rw [beq_iff_eq, check_neg, check_neg, check_neg, bl _ _ (by simp)]
  simp only [BitVec.lt_def, BitVec.toNat_inj]

/-! ### C100: names -/

/-- C100: the UUID of a name in a name space is the MD5 hash of the bytes of the name space in network order and the name, with the
version and the variant put in, whatever is in memory, if the name has fewer than 65536 bytes. -/
theorem C100_name_partial {buffer : List Byte} (hb : buffer.length = 64) (ns : Uuid) {name : List Byte} (h : name.length < 65536) :
    ∃ u, ofName buffer ns name = some u ∧ bytes u = stamp (Md5.Spec.digest (bytes ns ++ name)) := by
  unfold ofName
  rw [createFromName_eq hb]
  refine ⟨_, rfl, ?_⟩
  rw [formatV3_bytes (digest_length _), BitVec.toNat_ofNat, Nat.mod_eq_of_lt h, List.take_length]

/-- The bytes determine the UUID. -/
theorem C100_bytes_injective {u v : Uuid} (h : bytes u = bytes v) : u = v := by
  obtain ⟨u1, u2, u3, u4⟩ := u
  obtain ⟨v1, v2, v3, v4⟩ := v
  simp only [bytes, List.cons_append, List.nil_append, List.cons.injEq, Vector.toList_inj] at h
  obtain ⟨a1, a2, a3, a4, b1, b2, c1, c2, h4⟩ := h
  have bit : ∀ {n : Nat} {x y : BitVec n} {k : Nat}, x.extractLsb' k 8 = y.extractLsb' k 8 → ∀ i, k ≤ i → i < k + 8 → x.getLsbD i = y.getLsbD i := by
    intro n x y k h i h1 h2
    have := bit_eq h (i - k)
    simp only [BitVec.getLsbD_extractLsb', show i - k < 8 by omega, show k + (i - k) = i by omega, decide_true, Bool.true_and] at this
    exact this
  have e1 : u1 = v1 := by
    apply BitVec.eq_of_getLsbD_eq
    intro i hi
    by_cases c1 : i < 8
    · exact bit a4 i (by omega) (by omega)
    by_cases c2 : i < 16
    · exact bit a3 i (by omega) (by omega)
    by_cases c3 : i < 24
    · exact bit a2 i (by omega) (by omega)
    · exact bit a1 i (by omega) (by omega)
  have e2 : u2 = v2 := by
    apply BitVec.eq_of_getLsbD_eq
    intro i hi
    by_cases c1 : i < 8
    · exact bit b2 i (by omega) (by omega)
    · exact bit b1 i (by omega) (by omega)
  have e3 : u3 = v3 := by
    apply BitVec.eq_of_getLsbD_eq
    intro i hi
    by_cases d1 : i < 8
    · exact bit c2 i (by omega) (by omega)
    · exact bit c1 i (by omega) (by omega)
  rw [e1, e2, e3, h4]

/-- C100: two names give the same UUID only if the hashes collide (in the 122 bits that are kept). -/
theorem C100_collision_partial {buffer buffer' : List Byte} (hb : buffer.length = 64) (hb' : buffer'.length = 64) (ns ns' : Uuid)
    {name name' : List Byte} (h : name.length < 65536) (h' : name'.length < 65536) : ofName buffer ns name = ofName buffer' ns' name' ↔
      stamp (Md5.Spec.digest (bytes ns ++ name)) = stamp (Md5.Spec.digest (bytes ns' ++ name')) := by
  obtain ⟨u, e, b⟩ := C100_name_partial hb ns h
  obtain ⟨u', e', b'⟩ := C100_name_partial hb' ns' h'
  rw [e, e', ← b, ← b', Option.some.injEq]
  exact ⟨fun h => by rw [h], C100_bytes_injective⟩

/-- C100: version 3 and the variant of RFC 4122, for every name. -/
theorem C100_version {buffer : List Byte} (hb : buffer.length = 64) (ns : Uuid) (name : List Byte) :
    ∃ u, ofName buffer ns name = some u ∧ version u = 3 ∧ Variant u := by
  unfold ofName
  rw [createFromName_eq hb]
  refine ⟨_, rfl, ?_⟩
  generalize Md5.Spec.digest _ = h
  constructor
  · unfold version
    have : (formatV3 h).data3 >>> 12 = 3#16 := by
      apply BitVec.eq_of_getLsbD_eq
      intro i hi
      interval_cases i <;> simp [formatV3]
    have := congrArg BitVec.toNat this
    rw [BitVec.toNat_ushiftRight, Nat.shiftRight_eq_div_pow] at this
    exact this
  · unfold Variant
    have : (formatV3 h).data4[0] >>> 6 = 2#8 := by
      apply BitVec.eq_of_getLsbD_eq
      intro i hi
      interval_cases i <;> simp [formatV3]
    have := congrArg BitVec.toNat this
    rw [BitVec.toNat_ushiftRight, Nat.shiftRight_eq_div_pow] at this
    exact this

/-- C100, violated: the length of the name is cut to 16 bits.  All names of 65536 bytes get the UUID of the empty name. -/
theorem C100_long_name_violated {buffer : List Byte} (hb : buffer.length = 64) (ns : Uuid) (name : List Byte) :
    ofName buffer ns name = ofName buffer ns (name.take (name.length % 65536)) ∧
      (name.length = 65536 → ofName buffer ns name = ofName buffer ns []) := by
  have key : ofName buffer ns name = ofName buffer ns (name.take (name.length % 65536)) := by
    unfold ofName
    rw [createFromName_eq hb, createFromName_eq hb]
    simp only [BitVec.toNat_ofNat, List.length_take, List.take_take]
    congr 5
    omega
  refine ⟨key, fun h => ?_⟩
  rw [key, h]
  rfl

/-! ### C101: time -/

/-- C101: the UUIDs made by the only thread of a process are different from each other, whatever the clock does (it may stand still or go
backwards), if they are fewer than `2 ^ 30`. -/
theorem C101_one_thread_partial (is : List Input) (hc : ∀ i ∈ is, i.now.toNat < 2 ^ 60 - 2 ^ 16) (hn : is.length < 2 ^ 30) :
    (creates .start .start is).2.2.Pairwise (· ≠ ·) ∧ (creates .start .start is).2.2.length = is.length := by
  have len : ∀ (is : List Input) (g : Clock) (t : Thread), (creates g t is).2.2.length = is.length := by
    intro is
    induction is with
    | nil => intro _ _; rfl
    | cons i is ih => intro g t; simp only [creates, List.length_cons]; rw [ih]
  refine ⟨?_, len is _ _⟩
  cases is with
  | nil => simp [creates]
  | cons i is =>
    simp only [List.length_cons] at hn
    obtain ⟨k1, k2⟩ := create_first (hc i (by simp))
    obtain ⟨m1, m2⟩ := creates_ok is k1 (fun j hj => hc j (by simp [hj])) (by omega)
    have eq : (creates .start .start (i :: is)).2.2 =
      (create .start .start i).2.2 :: (creates (create .start .start i).1 (create .start .start i).2.1 is).2.2 := rfl
    rw [eq]
    refine List.pairwise_cons.mpr ⟨?_, m2⟩
    intro u hu eu
    obtain ⟨f, ts, l1, l2, l3, l4⟩ := m1 u hu
    rw [k2, l1] at eu
    have b2 : (create .start .start i).1.time.toNat < 2 ^ 60 := by
      rw [time_toNat k1.clock]
      have := k1.clock.last
      have := (create .start .start i).1.tick.isLt
      omega
    have e2 := formatV1_ts eu b2 l3
    have e1 : 0 = f := formatV1_epoch (c := i.random.setWidth 16) (by decide) l2 (by rw [BitVec.add_zero]; exact eu)
    rcases l4 with l4 | ⟨_, l4⟩
    · omega
    · rw [BitVec.lt_def, e2] at l4
      omega

/-- C101: the UUIDs made by any number of threads, in any order of their calls, are different from each other, even if the threads have
the same node, if all together they are fewer than 65536. -/
theorem C101_threads_partial (is : List (Nat × Input)) (hc : ∀ i ∈ is, i.2.now.toNat < 2 ^ 60 - 2 ^ 16) (hn : is.length < 2 ^ 16) :
    (run .start (fun _ => .start) is).Pairwise (· ≠ ·) ∧ (run .start (fun _ => .start) is).length = is.length := by
  have len : ∀ (is : List (Nat × Input)) (g : Clock) (ts : Nat → Thread), (run g ts is).length = is.length := by
    intro is
    induction is with
    | nil => intro _ _; rfl
    | cons i is ih => intro g t; simp only [run, List.length_cons]; rw [ih]
  refine ⟨?_, len is _ _⟩
  cases is with
  | nil => simp [run]
  | cons i is =>
    obtain ⟨k, i⟩ := i
    simp only [List.length_cons] at hn
    obtain ⟨k1, k2⟩ := create_first (hc (k, i) (by simp))
    have tick : (create .start .start (k, i).2).1.tick.toNat = 1 := rfl
    obtain ⟨m1, m2⟩ := run_ok is (ts := fun j => if j = k then (create .start .start i).2.1 else .start) k1.clock
      (fun j hj => hc j (by simp [hj])) (by omega)
    simp only [run]
    refine List.pairwise_cons.mpr ⟨?_, m2⟩
    intro u hu eu
    obtain ⟨cs, t, node, l1, l2, l3⟩ := m1 u hu
    rw [k2, l1] at eu
    have b2 : (create .start .start i).1.time.toNat < 2 ^ 60 := by
      rw [time_toNat k1.clock]
      have := k1.clock.last
      have := (create .start .start i).1.tick.isLt
      omega
    have e2 := formatV1_ts eu b2 l2
    rw [BitVec.lt_def, e2] at l3
    omega

/-- C101: UUIDs made with different nodes are different, whatever the states of the clocks. -/
theorem C101_nodes (g g' : Clock) (t t' : Thread) (i i' : Input) (h : t.node.getD i.node ≠ t'.node.getD i'.node) :
    (create g t i).2.2 ≠ (create g' t' i').2.2 := fun e => h (formatV1_node e)

/-- C101: a thread keeps its node; the UUIDs carry it. -/
theorem C101_node_kept (g : Clock) (t : Thread) (i : Input) : (create g t i).2.1.node = some (t.node.getD i.node) ∧
    (create g t i).2.2.data4.toList.drop 2 = (t.node.getD i.node).toList := by
  refine ⟨rfl, ?_⟩
  obtain ⟨cs, e⟩ : ∃ cs, (create g t i).2.2 = formatV1 cs (currentTime g i.now).2 (t.node.getD i.node) := ⟨_, rfl⟩
  rw [e]
  generalize t.node.getD i.node = n
  apply List.ext_getElem
  · simp
  · intro k h1 h2
    simp at h2
    simp only [formatV1, Vector.toList_mk, List.drop_succ_cons, List.drop_zero]
    interval_cases k <;> simp

/-- C101: version 1 and the variant of RFC 4122, in every state. -/
theorem C101_version (g : Clock) (t : Thread) (i : Input) : version (create g t i).2.2 = 1 ∧ Variant (create g t i).2.2 :=
  formatV1_stamp _ _ _

/-- C101, violated: with two threads and a clock that stands still a thread makes the same UUID again, if the other has made 65535 in
between: the counter is common to the threads, the clock sequence is not, and is only incremented if the time is less than the last one,
not if it is the same. -/
theorem C101_threads_violated {i : Input} (h : i.now.toNat < 2 ^ 60 - 2 ^ 16) {m : Nat} (hm : 1 + m = 65536) :
    ¬ (run .start (fun _ => .start) ((0, i) :: (List.replicate m (1, i) ++ [(0, i)]))).Pairwise (· ≠ ·) := by
  obtain ⟨u, us, e, _⟩ := frozen_threads h hm
  rw [e]
  intro hp
  exact (List.pairwise_cons.mp hp).1 u (by simp) rfl

/-- C101, violated: after `2 ^ 30` UUIDs from a clock that stands still they come again (the clock sequence has 14 bits). -/
theorem C101_period_violated {i : Input} (h : i.now.toNat < 2 ^ 60 - 2 ^ 16) {n k p : Nat} (hp : p = 2 ^ 30) (hk : k + p < n) :
    (creates .start .start (List.replicate n i)).2.2[k]? = (creates .start .start (List.replicate n i)).2.2[k + p]? ∧
      k + p < (creates .start .start (List.replicate n i)).2.2.length := frozen_wrap h hp hk

end Verif.Zuid
