import Verif.Zuid.Spec
import Mathlib.Tactic.IntervalCases
/-!
UUIDs from the clock.
-/
namespace Verif.Zuid
open Verif.Zuid.Spec

/-! ### The fields -/

theorem formatV1_node {cs cs' : BitVec 16} {ts ts' : BitVec 64} {n n' : Vector Byte 6} (h : formatV1 cs ts n = formatV1 cs' ts' n') :
    n = n' := by
  simp only [formatV1, Uuid.mk.injEq] at h
  have h4 := h.2.2.2
  rw [← Vector.toList_inj] at h4
  simp at h4
  obtain ⟨_, _, h0, h1, h2, h3, h4, h5⟩ := h4
  ext i hi
  have : i = 0 ∨ i = 1 ∨ i = 2 ∨ i = 3 ∨ i = 4 ∨ i = 5 := by omega
  rcases this with h | h | h | h | h | h <;> subst h <;> simp [*]

theorem bit_eq {n : Nat} {a b : BitVec n} (h : a = b) (i : Nat) : a.getLsbD i = b.getLsbD i := by rw [h]

theorem formatV1_ts {cs cs' : BitVec 16} {ts ts' : BitVec 64} {n n' : Vector Byte 6} (h : formatV1 cs ts n = formatV1 cs' ts' n')
    (ht : ts.toNat < 2 ^ 60) (ht' : ts'.toNat < 2 ^ 60) : ts = ts' := by
  simp only [formatV1, Uuid.mk.injEq] at h
  obtain ⟨h1, h2, h3, _⟩ := h
  have k1 : ∀ i < 32, ts.getLsbD i = ts'.getLsbD i := by
    intro i hi
    have := bit_eq h1 i
    interval_cases i <;> simpa using this
  have k2 : ∀ i < 16, ts.getLsbD (32 + i) = ts'.getLsbD (32 + i) := by
    intro i hi
    have := bit_eq h2 i
    interval_cases i <;> simpa using this
  have k3 : ∀ i < 12, ts.getLsbD (48 + i) = ts'.getLsbD (48 + i) := by
    intro i hi
    have := bit_eq h3 i
    interval_cases i <;> simpa using this
  have k4 : ∀ (x : BitVec 64), x.toNat < 2 ^ 60 → ∀ i, 60 ≤ i → x.getLsbD i = false := by
    intro x hx i hi
    rw [BitVec.getLsbD]
    exact Nat.testBit_lt_two_pow (Nat.lt_of_lt_of_le hx (Nat.pow_le_pow_right (by omega) hi))
  apply BitVec.eq_of_getLsbD_eq
  intro i hi
  by_cases c : i < 32
  · exact k1 i c
  by_cases c2 : i < 48
  · have := k2 (i - 32) (by omega)
    rwa [show 32 + (i - 32) = i by omega] at this
  by_cases c3 : i < 60
  · have := k3 (i - 48) (by omega)
    rwa [show 48 + (i - 48) = i by omega] at this
  rw [k4 _ ht i (by omega), k4 _ ht' i (by omega)]

theorem formatV1_cs {cs cs' : BitVec 16} {ts ts' : BitVec 64} {n n' : Vector Byte 6} (h : formatV1 cs ts n = formatV1 cs' ts' n') :
    cs.setWidth 14 = cs'.setWidth 14 := by
  simp only [formatV1, Uuid.mk.injEq] at h
  have h4 := h.2.2.2
  rw [← Vector.toList_inj] at h4
  simp only [Vector.toList_mk, List.cons.injEq] at h4
  obtain ⟨h0, h1, _⟩ := h4
  have k0 : ∀ i < 6, cs.getLsbD (8 + i) = cs'.getLsbD (8 + i) := by
    intro i hi
    have := bit_eq h0 i
    interval_cases i <;> simpa using this
  have k1 : ∀ i < 8, cs.getLsbD i = cs'.getLsbD i := by
    intro i hi
    have := bit_eq h1 i
    interval_cases i <;> simpa using this
  apply BitVec.eq_of_getLsbD_eq
  intro i hi
  simp only [BitVec.getLsbD_setWidth, hi, decide_true, Bool.true_and]
  by_cases c : i < 8
  · exact k1 i c
  · have := k0 (i - 8) (by omega)
    rwa [show 8 + (i - 8) = i by omega] at this

theorem formatV1_cs_only {cs cs' : BitVec 16} {ts : BitVec 64} {n : Vector Byte 6} (h : cs.setWidth 14 = cs'.setWidth 14) :
    formatV1 cs ts n = formatV1 cs' ts n := by
  have k : ∀ i < 14, cs.getLsbD i = cs'.getLsbD i := by
    intro i hi
    have := bit_eq h i
    simpa [hi] using this
  have e1 : cs &&& 0x3F00#16 = cs' &&& 0x3F00#16 := by
    apply BitVec.eq_of_getLsbD_eq
    intro i hi
    rw [BitVec.getLsbD_and, BitVec.getLsbD_and]
    by_cases c : i < 14
    · rw [k i c]
    · have : i = 14 ∨ i = 15 := by omega
      rcases this with rfl | rfl <;> simp
  have e2 : cs &&& 0xFF#16 = cs' &&& 0xFF#16 := by
    apply BitVec.eq_of_getLsbD_eq
    intro i hi
    rw [BitVec.getLsbD_and, BitVec.getLsbD_and]
    by_cases c : i < 14
    · rw [k i c]
    · have : i = 14 ∨ i = 15 := by omega
      rcases this with rfl | rfl <;> simp
  simp only [formatV1, e1, e2]

/-- The clock sequence, the number of times it has been incremented. -/
theorem formatV1_epoch {c : BitVec 16} {e e' : Nat} (he : e < 2 ^ 14) (he' : e' < 2 ^ 14) {ts ts' : BitVec 64} {n n' : Vector Byte 6}
    (h : formatV1 (c + BitVec.ofNat 16 e) ts n = formatV1 (c + BitVec.ofNat 16 e') ts' n') : e = e' := by
  have h := congrArg BitVec.toNat (formatV1_cs h)
  simp only [BitVec.toNat_setWidth, BitVec.toNat_add, BitVec.toNat_ofNat] at h
  omega

theorem formatV1_stamp (cs : BitVec 16) (ts : BitVec 64) (n : Vector Byte 6) :
    version (formatV1 cs ts n) = 1 ∧ Variant (formatV1 cs ts n) := by
  constructor
  · unfold version
    have : (formatV1 cs ts n).data3 >>> 12 = 1#16 := by
      apply BitVec.eq_of_getLsbD_eq
      intro i hi
      interval_cases i <;> simp [formatV1]
    have := congrArg BitVec.toNat this
    rw [BitVec.toNat_ushiftRight, Nat.shiftRight_eq_div_pow] at this
    exact this
  · unfold Variant
    have : (formatV1 cs ts n).data4[0] >>> 6 = 2#8 := by
      apply BitVec.eq_of_getLsbD_eq
      intro i hi
      interval_cases i <;> simp [formatV1]
    have := congrArg BitVec.toNat this
    rw [BitVec.toNat_ushiftRight, Nat.shiftRight_eq_div_pow] at this
    exact this

/-! ### One call -/

/-- The clock readings: they never leave the 60 bits of a time, not even with a counter of 16 bits added. -/
def Good (i : Input) : Prop := i.now.toNat < 2 ^ 60 - 2 ^ 16

/-- The clock after some call. -/
structure ClockOk (g : Clock) : Prop where
  inited : g.inited = true
  last : g.timeLast.toNat < 2 ^ 60 - 2 ^ 16

def Clock.time (g : Clock) : BitVec 64 := g.timeLast + g.tick.setWidth 64

theorem time_toNat {g : Clock} (h : ClockOk g) : g.time.toNat = g.timeLast.toNat + g.tick.toNat := by
  have := h.last
  have := g.tick.isLt
  simp only [Clock.time, BitVec.toNat_add, BitVec.toNat_setWidth]
  omega

theorem currentTime_first {now : BitVec 64} (h : now.toNat < 2 ^ 60 - 2 ^ 16) : ClockOk (currentTime .start now).1 ∧
    (currentTime .start now).1.tick = 1 ∧ (currentTime .start now).2 = (currentTime .start now).1.time := by
  refine ⟨⟨rfl, h⟩, rfl, rfl⟩

/-- Either the time goes on, or the counter overflows. -/
theorem currentTime_next {g : Clock} (hg : ClockOk g) {now : BitVec 64} (h : now.toNat < 2 ^ 60 - 2 ^ 16) :
    let r := currentTime g now
    ClockOk r.1 ∧ r.2 = r.1.time ∧
      ((g.time < r.2 ∧ r.1.tick.toNat ≤ g.tick.toNat + 1) ∨ (r.1.timeLast = g.timeLast ∧ g.tick.toNat = 65535 ∧ r.1.tick.toNat = 0)) := by
  have hl := hg.last
  have ht := g.tick.isLt
  have htime := time_toNat hg
  intro r
  have e : r = currentTime g now := rfl
  clear_value r
  unfold currentTime at e
  simp only [hg.inited, if_true] at e
  have inc : ∀ g' : Clock, g' = ⟨g.timeLast, g.tick + 1, true⟩ → r = (g', g'.time) →
      ClockOk r.1 ∧ r.2 = r.1.time ∧
      ((g.time < r.2 ∧ r.1.tick.toNat ≤ g.tick.toNat + 1) ∨ (r.1.timeLast = g.timeLast ∧ g.tick.toNat = 65535 ∧ r.1.tick.toNat = 0)) := by
    rintro g' hg' rfl
    have ok : ClockOk g' := by subst hg'; exact ⟨rfl, hl⟩
    have htick : g'.tick.toNat = (g.tick.toNat + 1) % 65536 := by subst hg'; simp
    have hlast : g'.timeLast = g.timeLast := by subst hg'; rfl
    refine ⟨ok, rfl, ?_⟩
    simp only [BitVec.lt_def, time_toNat hg, time_toNat ok, hlast]
    by_cases c : g.tick.toNat = 65535
    · right; exact ⟨trivial, c, by omega⟩
    · left; constructor <;> omega
  by_cases c1 : g.tick < 10#16
  · exact inc _ rfl (by rw [e]; simp only [c1, if_true]; rfl)
  · by_cases c2 : now > g.timeLast + g.tick.setWidth 64
    · simp only [c1, if_false, c2, if_true] at e
      subst e
      refine ⟨⟨rfl, h⟩, rfl, ?_⟩
      left
      refine ⟨?_, by simp⟩
      change g.timeLast + g.tick.setWidth 64 < now + BitVec.setWidth 64 0#16
      simpa using c2
    · exact inc _ rfl (by rw [e]; simp only [c1, c2, if_false]; rfl)

/-! ### One thread -/

/-- After `n` calls of the only thread; the clock sequence has been incremented `e` times. -/
structure Inv (g : Clock) (t : Thread) (node : Vector Byte 6) (c : BitVec 16) (e n : Nat) : Prop where
  clock : ClockOk g
  hnode : t.node = some node
  state : t.state = some ⟨g.time, node, c + BitVec.ofNat 16 e⟩
  count : 65536 * e + g.tick.toNat ≤ n

theorem create_first {i : Input} (h : Good i) : let r := create .start .start i
    Inv r.1 r.2.1 i.node (i.random.setWidth 16) 0 1 ∧ r.2.2 = formatV1 (i.random.setWidth 16) r.1.time i.node :=
  ⟨⟨⟨rfl, h⟩, rfl, by simp only [BitVec.ofNat_eq_ofNat, BitVec.add_zero]; rfl, Nat.le_refl 1⟩, rfl⟩

theorem create_next {g : Clock} {t : Thread} {node : Vector Byte 6} {c : BitVec 16} {e n : Nat} (h : Inv g t node c e n) {i : Input}
    (hi : Good i) : let r := create g t i
    ∃ e', Inv r.1 r.2.1 node c e' (n + 1) ∧ r.2.2 = formatV1 (c + BitVec.ofNat 16 e') r.1.time node ∧
      ((e' = e ∧ g.time < r.1.time) ∨ e' = e + 1) := by
  intro r
  have er : r = create g t i := rfl
  clear_value r
  unfold create at er
  obtain ⟨k1, k2, k3⟩ := currentTime_next h.clock hi
  revert k1 k2 k3 er
  generalize currentTime g i.now = q
  rintro er k1 k2 k3
  obtain ⟨g', ts⟩ := q
  simp only at k1 k2 k3 er
  subst k2
  simp only [h.hnode, h.state, Option.getD_some, ne_eq, not_true_eq_false, if_false] at er
  have hc := h.count
  rcases k3 with ⟨k3, k4⟩ | ⟨k3, k4, k5⟩
  · have : ¬ g'.time < g.time := by rw [BitVec.lt_def] at k3 ⊢; omega
    simp only [this, if_false] at er
    subst er
    exact ⟨e, ⟨k1, rfl, rfl, by simp only; omega⟩, rfl, .inl ⟨rfl, k3⟩⟩
  · have : g'.time < g.time := by rw [BitVec.lt_def, time_toNat h.clock, time_toNat k1, k3]; omega
    simp only [this, if_true] at er
    have ec : c + BitVec.ofNat 16 e + 1 = c + BitVec.ofNat 16 (e + 1) := by
      rw [BitVec.ofNat_add, BitVec.add_assoc]; rfl
    rw [ec] at er
    subst er
    exact ⟨e + 1, ⟨k1, rfl, rfl, by simp only; omega⟩, rfl, .inr rfl⟩

theorem creates_ok (is : List Input) : ∀ {g : Clock} {t : Thread} {node : Vector Byte 6} {c : BitVec 16} {e n : Nat}, Inv g t node c e n →
    (∀ i ∈ is, Good i) → n + is.length < 2 ^ 30 →
    (∀ u ∈ (creates g t is).2.2, ∃ e' ts, u = formatV1 (c + BitVec.ofNat 16 e') ts node ∧ e' < 2 ^ 14 ∧ ts.toNat < 2 ^ 60 ∧
      (e < e' ∨ (e = e' ∧ g.time < ts))) ∧ (creates g t is).2.2.Pairwise (· ≠ ·) := by
  induction is with
  | nil => intro _ _ _ _ _ _ _ _ _; exact ⟨by simp [creates], by simp [creates]⟩
  | cons i is ih =>
    intro g t node c e n h hi hn
    obtain ⟨e', k1, k2, k3⟩ := create_next h (hi i (by simp))
    simp only [List.length_cons] at hn
    obtain ⟨m1, m2⟩ := ih k1 (fun j hj => hi j (by simp [hj])) (by omega)
    have eq : (creates g t (i :: is)).2.2 = (create g t i).2.2 :: (creates (create g t i).1 (create g t i).2.1 is).2.2 := rfl
    rw [eq]
    have b1 : e' < 2 ^ 14 := by have := k1.count; omega
    have b2 : (create g t i).1.time.toNat < 2 ^ 60 := by
      rw [time_toNat k1.clock]
      have := k1.clock.last
      have := (create g t i).1.tick.isLt
      omega
    constructor
    · intro u hu
      rcases List.mem_cons.mp hu with rfl | hu
      · refine ⟨e', _, k2, b1, b2, ?_⟩
        rcases k3 with ⟨rfl, k3⟩ | rfl
        · exact .inr ⟨rfl, k3⟩
        · exact .inl (by omega)
      · obtain ⟨f, ts, l1, l2, l3, l4⟩ := m1 u hu
        refine ⟨f, ts, l1, l2, l3, ?_⟩
        rcases l4 with l4 | ⟨rfl, l4⟩ <;> rcases k3 with ⟨rfl, k3⟩ | rfl
        · exact .inl l4
        · exact .inl (by omega)
        · exact .inr ⟨rfl, by rw [BitVec.lt_def] at *; omega⟩
        · exact .inl (by omega)
    · refine List.pairwise_cons.mpr ⟨?_, m2⟩
      intro u hu eu
      obtain ⟨f, ts, l1, l2, l3, l4⟩ := m1 u hu
      rw [k2, l1] at eu
      have e1 := formatV1_epoch b1 l2 eu
      have e2 := formatV1_ts eu b2 l3
      rcases l4 with l4 | ⟨_, l4⟩
      · omega
      · rw [BitVec.lt_def, e2] at l4
        omega

/-! ### Several threads -/

theorem create_uuid (g : Clock) (t : Thread) (i : Input) : ∃ cs node, (create g t i).2.2 = formatV1 cs (currentTime g i.now).2 node :=
  ⟨_, _, rfl⟩

theorem create_clock (g : Clock) (t : Thread) (i : Input) : (create g t i).1 = (currentTime g i.now).1 := rfl

theorem run_ok (is : List (Nat × Input)) : ∀ {g : Clock} {ts : Nat → Thread}, ClockOk g → (∀ i ∈ is, Good i.2) →
    g.tick.toNat + is.length < 2 ^ 16 →
    (∀ u ∈ run g ts is, ∃ cs t node, u = formatV1 cs t node ∧ t.toNat < 2 ^ 60 ∧ g.time < t) ∧ (run g ts is).Pairwise (· ≠ ·) := by
  induction is with
  | nil => intro _ _ _ _ _; exact ⟨by simp [run], by simp [run]⟩
  | cons i is ih =>
    intro g ts h hi hn
    obtain ⟨k, i⟩ := i
    simp only [List.length_cons] at hn
    obtain ⟨k1, k2, k3⟩ := currentTime_next h (hi (k, i) (by simp))
    obtain ⟨cs, node, ku⟩ := create_uuid g (ts k) i
    rw [← create_clock g (ts k) i] at k1 k2 k3
    simp only [run]
    rw [k2] at ku k3
    have k4 : g.time < (create g (ts k) i).1.time ∧ (create g (ts k) i).1.tick.toNat ≤ g.tick.toNat + 1 := by
      rcases k3 with k3 | ⟨_, k3, _⟩
      · exact k3
      · omega
    obtain ⟨m1, m2⟩ := ih (ts := fun j => if j = k then (create g (ts k) i).2.1 else ts j) k1 (fun j hj => hi j (by simp [hj])) (by omega)
    have b2 : (create g (ts k) i).1.time.toNat < 2 ^ 60 := by
      rw [time_toNat k1]
      have := k1.last
      have := (create g (ts k) i).1.tick.isLt
      omega
    constructor
    · intro u hu
      rcases List.mem_cons.mp hu with rfl | hu
      · exact ⟨cs, _, node, ku, b2, k4.1⟩
      · obtain ⟨cs', t, node', l1, l2, l3⟩ := m1 u hu
        exact ⟨cs', t, node', l1, l2, by have := k4.1; rw [BitVec.lt_def] at *; omega⟩
    · refine List.pairwise_cons.mpr ⟨?_, m2⟩
      intro u hu eu
      obtain ⟨cs', t, node', l1, l2, l3⟩ := m1 u hu
      rw [ku, l1] at eu
      have := formatV1_ts eu b2 l2
      rw [BitVec.lt_def, this] at l3
      omega

end Verif.Zuid
