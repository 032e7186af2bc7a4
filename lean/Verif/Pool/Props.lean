import Verif.Pool.Lemmas
/-!
C104: the string pool.
-/
namespace Verif.Pool
open Spec

/-- Any call that keeps to the rules writes only to the memory of the pool and gives a result, unless an allocation throws. -/
theorem C104_total {poolSize empty pt s log str x e} (h : Hist poolSize empty pt s log) (hc : Call poolSize empty s str x e) :
    (∃ q s', add poolSize empty s str x.length e = .ok q s') ∨
    ((e.base = none ∨ e.pushThrows = true ∨ e.insertThrows = true) ∧ x ≠ [] ∧ (∀ q, (x, q) ∉ log) ∧
      ∃ s', add poolSize empty s str x.length e = .throw s') := by
  have I := hist_inv h
  rcases add_ok I hc with ⟨q, s', h1, _⟩ | ⟨hb, hn, s', h1, _⟩
  · exact .inl ⟨q, s', h1⟩
  · refine .inr ⟨hb, fun hx => hn (.inr hx), fun q hq => ?_, s', h1⟩
    rcases I.log _ hq with ⟨h2, _⟩ | ⟨_, h3, h4⟩
    · exact hn (.inr h2)
    · exact hn (.inl ⟨q, h3, h4⟩)

/-- The pointers that the pool has given out keep pointing to the strings they were given out for. -/
theorem C104_stable {poolSize empty pt s log x q} (h : Hist poolSize empty pt s log) (hq : (x, q) ∈ log) : CStr s.mem q x := by
  have I := hist_inv h
  rcases I.log _ hq with ⟨h1, h2⟩ | ⟨_, _, h4⟩
  · simp only at h1 h2
    subst h1 h2
    exact Spec.CStr.mk' (by simp) (by simp) (by simpa using I.me)
  · exact h4

/-- Two results are the same pointer if and only if they are for equal strings. -/
theorem C104_unique {poolSize empty pt s log x q y r} (h : Hist poolSize empty pt s log) (hq : (x, q) ∈ log) (hr : (y, r) ∈ log) :
    q = r ↔ x = y := by
  have I := hist_inv h
  constructor
  · rintro rfl
    exact (C104_stable h hq).unique (C104_stable h hr)
  · rintro rfl
    rcases I.log _ hq with ⟨h1, h2⟩ | ⟨h1, h2, h3⟩
    · rcases I.log _ hr with ⟨h4, h5⟩ | ⟨h4, _⟩
      · exact h2.trans h5.symm
      · exact absurd h1 h4
    · rcases I.log _ hr with ⟨h4, h5⟩ | ⟨h4, h5, h6⟩
      · exact absurd h4 h1
      · by_contra hne
        rcases pair_of I.uniq h2 h5 hne with hh | hh
        · exact hh.1 x h3 h6
        · exact hh.1 x h6 h3

/-- Different strings do not share memory. -/
theorem C104_disjoint {poolSize empty pt s log x q y r} (h : Hist poolSize empty pt s log) (hq : (x, q) ∈ log) (hr : (y, r) ∈ log)
    (hne : x ≠ y) : q + x.length < r ∨ r + y.length < q := by
  have I := hist_inv h
  have hqr : q ≠ r := fun hh => hne ((C104_unique h hq hr).1 hh)
  have aux : ∀ {y r}, y ≠ [] → r ∈ s.store → CStr s.mem r y → empty < r ∨ r + y.length < empty := by
    intro y r h4 h5 h6
    by_contra hcon
    obtain ⟨z, _, hz, ⟨k, hk, hb⟩, _⟩ := I.store r h5
    obtain rfl := hz.unique h6
    refine I.noempty ⟨k, hk, ?_⟩
    have := hb (empty - r) (by omega)
    rwa [show r + (empty - r) = empty by omega] at this
  rcases I.log _ hq with ⟨h1, h2⟩ | ⟨h1, h2, h3⟩
  · rcases I.log _ hr with ⟨h4, h5⟩ | ⟨h4, h5, h6⟩
    · exact absurd (h2.trans h5.symm) hqr
    · simp only at h1 h2; subst h1 h2
      exact aux h4 h5 h6
  · rcases I.log _ hr with ⟨h4, h5⟩ | ⟨h4, h5, h6⟩
    · simp only at h4 h5; subst h4 h5
      exact (aux h1 h2 h3).symm
    · rcases pair_of I.uniq h2 h5 hqr with hh | hh
      · exact hh.2 x y h3 h6
      · exact (hh.2 y x h6 h3).symm

/-- A string, with its NUL, is in one block of the pool and not in the part that is not used yet. -/
theorem C104_owned {poolSize empty pt s log x q} (h : Hist poolSize empty pt s log) (hq : (x, q) ∈ log) :
    (x = [] ∧ q = empty) ∨ (x ≠ [] ∧ (∃ b ∈ s.blocks, ∀ i ≤ x.length, inBlock (q + i) b) ∧ ∀ i ≤ x.length, ¬ Unused s (q + i)) := by
  have I := hist_inv h
  rcases I.log _ hq with h1 | ⟨h1, h2, h3⟩
  · exact .inl h1
  · obtain ⟨z, _, hz, hb, hu⟩ := I.store q h2
    obtain rfl := hz.unique h3
    exact .inr ⟨h1, hb, hu⟩

/-- A string that has been added before gives the same pointer, allocates nothing and changes nothing, whatever the allocator would do,
also when the argument is the pointer that the pool gave. -/
theorem C104_again {poolSize empty pt s log x q str} (h : Hist poolSize empty pt s log) (hq : (x, q) ∈ log) (ha : Arg s.mem str x)
    (e : Env) : add poolSize empty s str x.length e = .ok q s := by
  have I := hist_inv h
  unfold add
  rcases I.log _ hq with ⟨h1, h2⟩ | ⟨h1, h2, h3⟩
  · simp only at h1 h2; subst h1 h2
    rcases ha with ⟨h0, _⟩ | ⟨h0, hs⟩
    · rw [if_pos (.inl h0)]
    · rw [if_pos (.inr (hs.head.2 rfl))]
  · rcases ha with ⟨h0, h5⟩ | ⟨h0, hs⟩
    · exact absurd h5 h1
    · have hm : s.mem str ≠ 0 := fun hh => h1 (hs.head.1 hh)
      rw [if_neg (by simp [h0, hm])]
      cases hf : s.store.find? fun q => same s.mem q str x.length with
      | none => exact absurd ((same_iff hs).2 h3) (List.find?_eq_none.1 hf q h2)
      | some r =>
        simp only
        have hr' := List.find?_some hf
        have hr := (same_iff hs).1 hr'
        have hm := List.mem_of_find?_eq_some hf
        by_cases hqr : r = q
        · rw [hqr]
        · rcases pair_of I.uniq hm h2 hqr with hh | hh
          · exact absurd h3 (hh.1 x hr)
          · exact absurd hr (hh.1 x h3)

/-- A call touches nothing outside of its own unused memory and the new block. -/
theorem C104_frame {poolSize empty pt s log str x e q s'} (h : Hist poolSize empty pt s log) (hc : Call poolSize empty s str x e)
    (ha : add poolSize empty s str x.length e = .ok q s') (a : Nat) (hn : ¬ Unused s a) (ho : Owned s' a → Owned s a) :
    s'.mem a = s.mem a := by
  have I := hist_inv h
  unfold add at ha
  split at ha
  · cases ha; rfl
  · rename_i hcond
    have hs : CStr s.mem str x := by
      rcases hc.arg with ⟨h0, _⟩ | ⟨_, hs⟩
      · exact absurd (.inl h0) hcond
      · exact hs
    split at ha
    · cases ha; rfl
    · rcases poolAdd_ok I hc hs with ⟨q1, s1, h1, A⟩ | ⟨_, s1, h1, _⟩
      · rw [h1] at ha
        simp only at ha
        split at ha
        · cases ha
        · cases ha
          simp only
          by_cases hin : a < q ∨ q + x.length < a
          · exact A.other a hin
          · exfalso
            exact A.fresh a (by omega) (by omega) hn ho
      · rw [h1] at ha; cases ha

/-- What the destructor of the pool gives back is what the pool has been given, each block once. -/
theorem C104_freed {poolSize empty s log} (h : Hist poolSize empty False s log) : s.freed.Perm s.news ∧ s.freed.Nodup :=
  ⟨hist_news h, inv_nodup (hist_inv h)⟩

/-- Each block is given back at most once, and nothing else is, also when allocations have thrown. -/
theorem C104_freed_once {poolSize empty pt s log} (h : Hist poolSize empty pt s log) : s.freed.Nodup ∧ ∀ a ∈ s.freed, a ∈ s.news :=
  ⟨inv_nodup (hist_inv h), (hist_inv h).freed⟩

end Verif.Pool
