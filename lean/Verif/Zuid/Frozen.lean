import Verif.Zuid.Time
/-!
UUIDs from a clock that stands still.
-/
namespace Verif.Zuid
open Verif.Zuid.Spec

/-! ### A clock that stands still -/

theorem frozen_time {now : BitVec 64} (h : now.toNat < 2 ^ 60 - 2 ^ 16) (k : Nat) :
    currentTime ⟨now, BitVec.ofNat 16 k, true⟩ now =
      (⟨now, BitVec.ofNat 16 (k + 1), true⟩, now + (BitVec.ofNat 16 (k + 1)).setWidth 64) := by
  unfold currentTime
  have c : ¬ now > now + (BitVec.ofNat 16 k).setWidth 64 := by
    intro c
    have c : (now + (BitVec.ofNat 16 k).setWidth 64).toNat < now.toNat := BitVec.lt_def.mp c
    simp only [BitVec.toNat_add, BitVec.toNat_setWidth, BitVec.toNat_ofNat] at c
    omega
  simp only [if_true, c, if_false, ite_self]
  have : BitVec.ofNat 16 k + 1 = BitVec.ofNat 16 (k + 1) := by simp [BitVec.ofNat_add]
  rw [this]

/-- One thread after `k` calls. -/
def frozenThread (now : BitVec 64) (node : Vector Byte 6) (c : BitVec 16) (k : Nat) : Thread :=
  ⟨some ⟨now + (BitVec.ofNat 16 k).setWidth 64, node, c + BitVec.ofNat 16 (k / 65536)⟩, some node⟩

theorem frozen_create {i : Input} (h : Good i) (node : Vector Byte 6) (c : BitVec 16) (k : Nat) :
    create ⟨i.now, BitVec.ofNat 16 k, true⟩ (frozenThread i.now node c k) i =
      (⟨i.now, BitVec.ofNat 16 (k + 1), true⟩, frozenThread i.now node c (k + 1),
        formatV1 (c + BitVec.ofNat 16 ((k + 1) / 65536)) (i.now + (BitVec.ofNat 16 (k + 1)).setWidth 64) node) := by
  have hn : i.now.toNat < 2 ^ 60 - 2 ^ 16 := h
  unfold create
  rw [frozen_time h]
  simp only [frozenThread, Option.getD_some, ne_eq, not_true_eq_false, if_false]
  have key : (if i.now + (BitVec.ofNat 16 (k + 1)).setWidth 64 < i.now + (BitVec.ofNat 16 k).setWidth 64 then
      c + BitVec.ofNat 16 (k / 65536) + 1 else c + BitVec.ofNat 16 (k / 65536)) = c + BitVec.ofNat 16 ((k + 1) / 65536) := by
    have iff : i.now + (BitVec.ofNat 16 (k + 1)).setWidth 64 < i.now + (BitVec.ofNat 16 k).setWidth 64 ↔ k % 65536 = 65535 := by
      rw [BitVec.lt_def]
      simp only [BitVec.toNat_add, BitVec.toNat_setWidth, BitVec.toNat_ofNat]
      omega
    by_cases d : k % 65536 = 65535
    · rw [if_pos (iff.mpr d), show (k + 1) / 65536 = k / 65536 + 1 by omega, BitVec.ofNat_add, BitVec.add_assoc]
      rfl
    · rw [if_neg (fun x => d (iff.mp x)), show (k + 1) / 65536 = k / 65536 by omega]
  rw [key]

theorem frozen_creates {i : Input} (h : Good i) (node : Vector Byte 6) (c : BitVec 16) (m : Nat) : ∀ k j, j < m →
    (creates ⟨i.now, BitVec.ofNat 16 k, true⟩ (frozenThread i.now node c k) (List.replicate m i)).2.2[j]? =
      some (formatV1 (c + BitVec.ofNat 16 ((k + 1 + j) / 65536)) (i.now + (BitVec.ofNat 16 (k + 1 + j)).setWidth 64) node) := by
  induction m with
  | zero => intro k j hj; omega
  | succ m ih =>
    intro k j hj
    rw [List.replicate_succ]
    simp only [creates]
    rw [frozen_create h]
    simp only
    cases j with
    | zero => rfl
    | succ j =>
      rw [List.getElem?_cons_succ, ih (k + 1) j (by omega), show k + 1 + 1 + j = k + 1 + (j + 1) by omega]

theorem frozen_first {i : Input} : create .start .start i = (⟨i.now, BitVec.ofNat 16 1, true⟩,
    frozenThread i.now i.node (i.random.setWidth 16) 1,
      formatV1 (i.random.setWidth 16) (i.now + (BitVec.ofNat 16 1).setWidth 64) i.node) := by
  simp only [frozenThread, show 1 / 65536 = 0 by decide, BitVec.ofNat_eq_ofNat, BitVec.add_zero]
  rfl

/-- After `2 ^ 30` calls everything is the same again. -/
theorem frozen_wrap {i : Input} (h : Good i) {n k p : Nat} (hp : p = 2 ^ 30) (hk : k + p < n) :
    (creates .start .start (List.replicate n i)).2.2[k]? = (creates .start .start (List.replicate n i)).2.2[k + p]? ∧
      k + p < (creates .start .start (List.replicate n i)).2.2.length := by
  obtain ⟨n, rfl⟩ : ∃ m, n = m + 1 := ⟨n - 1, by omega⟩
  have e : (creates .start .start (List.replicate (n + 1) i)).2.2 =
      formatV1 (i.random.setWidth 16) (i.now + (BitVec.ofNat 16 1).setWidth 64) i.node ::
        (creates ⟨i.now, BitVec.ofNat 16 1, true⟩ (frozenThread i.now i.node (i.random.setWidth 16) 1) (List.replicate n i)).2.2 := by
    rw [List.replicate_succ]
    simp only [creates]
    rw [frozen_first]
  have at' : ∀ j, j < n + 1 → (creates .start .start (List.replicate (n + 1) i)).2.2[j]? =
      some (formatV1 (i.random.setWidth 16 + BitVec.ofNat 16 ((j + 1) / 65536)) (i.now + (BitVec.ofNat 16 (j + 1)).setWidth 64) i.node) := by
    intro j hj
    rw [e]
    cases j with
    | zero => simp
    | succ j =>
      rw [List.getElem?_cons_succ, frozen_creates h _ _ n 1 j (by omega), show 1 + 1 + j = j + 1 + 1 by omega]
  refine ⟨?_, ?_⟩
  · rw [at' k (by omega), at' (k + p) hk]
    have e1 : BitVec.ofNat 16 (k + p + 1) = BitVec.ofNat 16 (k + 1) := by
      apply BitVec.eq_of_toNat_eq
      simp only [BitVec.toNat_ofNat]
      omega
    rw [e1]
    congr 1
    apply formatV1_cs_only
    apply BitVec.eq_of_toNat_eq
    simp only [BitVec.toNat_setWidth, BitVec.toNat_add, BitVec.toNat_ofNat]
    omega
  · have := at' (k + p) hk
    exact (List.getElem?_eq_some_iff.mp this).1

/-- Calls of another thread leave the variables of this one as they are. -/
theorem frozen_other {i : Input} (h : Good i) (rest : List (Nat × Input)) (m : Nat) : ∀ (k : Nat) (ts : Nat → Thread), ∃ (us : List Uuid) (ts' : Nat → Thread),
    run ⟨i.now, BitVec.ofNat 16 k, true⟩ ts (List.replicate m (1, i) ++ rest) = us ++ run ⟨i.now, BitVec.ofNat 16 (k + m), true⟩ ts' rest ∧
      ts' 0 = ts 0 ∧ us.length = m := by
  induction m with
  | zero => intro k ts; exact ⟨[], ts, by simp, rfl, rfl⟩
  | succ m ih =>
    intro k ts
    have ec : (create ⟨i.now, BitVec.ofNat 16 k, true⟩ (ts 1) i).1 = ⟨i.now, BitVec.ofNat 16 (k + 1), true⟩ := by
      rw [create_clock, frozen_time h]
    obtain ⟨us, ts', h1, h2, h3⟩ := ih (k + 1) (fun j => if j = 1 then (create ⟨i.now, BitVec.ofNat 16 k, true⟩ (ts 1) i).2.1 else ts j)
    refine ⟨(create ⟨i.now, BitVec.ofNat 16 k, true⟩ (ts 1) i).2.2 :: us, ts', ?_, h2, by simp [h3]⟩
    rw [List.replicate_succ, List.cons_append, run]
    rw [ec, h1, show k + 1 + m = k + (m + 1) by omega]
    rfl

theorem frozen_threads {i : Input} (h : Good i) {m : Nat} (hm : 1 + m = 65536) : ∃ u us,
    run .start (fun _ => .start) ((0, i) :: (List.replicate m (1, i) ++ [(0, i)])) = u :: (us ++ [u]) ∧ us.length = m := by
  obtain ⟨us, ts', h1, h2, h3⟩ := frozen_other h [(0, i)] m 1
    (fun j => if j = 0 then frozenThread i.now i.node (i.random.setWidth 16) 1 else .start)
  refine ⟨formatV1 (i.random.setWidth 16) (i.now + (BitVec.ofNat 16 1).setWidth 64) i.node, us, ?_, h3⟩
  rw [run]
  rw [frozen_first]
  simp only
  rw [h1]
  congr 2
  simp only [run, h2, if_true]
  rw [hm]
  have : (create ⟨i.now, BitVec.ofNat 16 65536, true⟩ (frozenThread i.now i.node (i.random.setWidth 16) 1) i).2.2 =
      formatV1 (i.random.setWidth 16) (i.now + (BitVec.ofNat 16 1).setWidth 64) i.node := by
    unfold create
    rw [frozen_time h]
    have e1 : BitVec.ofNat 16 (65536 + 1) = BitVec.ofNat 16 1 := by apply BitVec.eq_of_toNat_eq; simp only [BitVec.toNat_ofNat]
    rw [e1]
    simp only [frozenThread, Option.getD_some, ne_eq, not_true_eq_false, if_false, BitVec.lt_irrefl]
    simp
  rw [this]

end Verif.Zuid
