import Verif.Adam.Settled
/-! `touch` and `set`. -/
namespace Verif.Adam
variable {N V : Type} [DecidableEq N] [DecidableEq V] [Values V]

theorem raiseAll_ok : ∀ (l : List Nat) (s : Sheet N V), ∃ s', raiseAll l s = (.ok (), s') ∧
    s'.priorityHigh = s.priorityHigh + l.length ∧
    (∃ p : Nat → Int, s' = { s with priorityHigh := s'.priorityHigh, cell := fun i => { s.cell i with priority := p i } }) ∧
    (∀ i, i ∉ l → (s'.cell i).priority = (s.cell i).priority) ∧
    (∀ i ∈ l, s.priorityHigh < (s'.cell i).priority ∧ (s'.cell i).priority ≤ s'.priorityHigh) ∧
    ∀ key : Nat → Int, l.Pairwise (fun a b => key a ≤ key b) → ∀ i ∈ l, ∀ j ∈ l, key i < key j → (s'.cell i).priority < (s'.cell j).priority
  | [], s => ⟨s, rfl, by simp, ⟨fun i => (s.cell i).priority, rfl⟩, fun _ _ => rfl, by simp, by simp⟩
  | a :: l, s => by
      obtain ⟨s1, hs1⟩ : ∃ s1 : Sheet N V, s1 = { (s.modCell a fun c => { c with priority := s.priorityHigh + 1 }) with priorityHigh := s.priorityHigh + 1 } :=
        ⟨_, rfl⟩
      obtain ⟨s', h1, h2, ⟨p, hp⟩, h3, h4, h5⟩ := raiseAll_ok l s1
      have hhigh : s1.priorityHigh = s.priorityHigh + 1 := by rw [hs1]
      have hpr : ∀ i, (s1.cell i).priority = if i = a then s.priorityHigh + 1 else (s.cell i).priority := by
        intro i; rw [hs1]; simp only [Sheet.modCell]; split <;> rfl
      have hrun : raiseAll (a :: l) s = (.ok (), s') := by
        unfold raiseAll raise
        rw [bind_modify, ← hs1]
        exact h1
      refine ⟨s', hrun, ?_, ?_, ?_, ?_, ?_⟩
      · rw [h2, hhigh, List.length_cons]; push_cast; omega
      · refine ⟨p, ?_⟩
        rw [hp, hs1]
        unfold Sheet.modCell
        congr 1
        funext i
        dsimp only
        split <;> rfl
      · intro i hi
        rw [List.mem_cons, not_or] at hi
        rw [h3 i hi.2, hpr, if_neg hi.1]
      · intro i hi
        by_cases hil : i ∈ l
        · have := h4 i hil; rw [hhigh] at this; omega
        · have hia : i = a := (List.mem_cons.mp hi).resolve_right hil
          rw [h3 i hil, hpr, if_pos hia]
          omega
      · intro key hs i hi j hj hij
        obtain ⟨hs1', hs2'⟩ := List.pairwise_cons.mp hs
        by_cases hil : i ∈ l
        · by_cases hjl : j ∈ l
          · exact h5 key hs2' i hil j hjl hij
          · have hja : j = a := (List.mem_cons.mp hj).resolve_right hjl
            have := hs1' i hil
            rw [← hja] at this
            omega
        · have hia : i = a := (List.mem_cons.mp hi).resolve_right hil
          have hjl : j ∈ l := by
            rcases List.mem_cons.mp hj with h | h
            · rw [hia, h] at hij; omega
            · exact h
          rw [h3 i hil, hpr, if_pos hia]
          have := h4 j hjl
          omega

/-- What `set` does to an interface cell or an input. -/
theorem set_ok {s s' : Sheet N V} {n : N} {v : V} (h : set n v s = (.ok (), s')) :
    ∃ j, s.inputIndex.find n = some j ∧ (s'.cell j).state = v ∧ (s'.cell j).priority = s.priorityHigh + 1 ∧
      (∀ i, i ≠ j → s'.cell i = s.cell i) ∧ s'.nameIndex = s.nameIndex ∧ s'.outputIndex = s.outputIndex ∧ s'.inputIndex = s.inputIndex ∧
      s'.nrel = s.nrel ∧ s'.rel = s.rel ∧ s'.priorityHigh = s.priorityHigh + 1 ∧
      (s'.cell j) = { s.cell j with state := v, priority := s.priorityHigh + 1 } := by
  unfold set at h
  simp only [bind_gets, id] at h
  cases hj : s.inputIndex.find n with
  | none => rw [hj] at h; cases h
  | some j =>
      rw [hj] at h
      have := (Prod.mk.inj h).2
      subst this
      refine ⟨j, rfl, ?_, ?_, ?_, ?_, ?_, ?_, ?_, ?_, ?_, ?_⟩
      · dsimp only; split <;> simp [Sheet.modCell]
      · dsimp only; split <;> simp [Sheet.modCell]
      · intro i hi; dsimp only; split <;> simp [Sheet.modCell, hi]
      · dsimp only; split <;> rfl
      · dsimp only; split <;> rfl
      · dsimp only; split <;> rfl
      · dsimp only; split <;> rfl
      · dsimp only; split <;> rfl
      · dsimp only; split <;> rfl
      · dsimp only; split <;> simp [Sheet.modCell]

/-- The interface cell set last is not derived. -/
theorem set_top {s s1 : Sheet N V} (hs : Reachable s) {n : N} {v : V} (h : set n v s = (.ok (), s1)) {i : Nat} (hn : s.nameIndex.find n = some i)
    (hi : (s.cell i).spec = .interfaceOutput) (hcond : CondOk (startUpdate s1)) {srt : Sorter} (hsrt : SortOk srt) :
    ((∀ ord, ∃ s', update srt ord s1 = (.error .overConstrained, s')) ∧ ∃ s', prepare srt s1 = (.error .overConstrained, s')) ∨
      ((settled srt s1).cell i).term = none ∧ Computes srt s1 (settled srt s1) := by
  have hs1 : Reachable s1 := hs.set h
  rcases update_settled hs1.good hs1.proper hcond hsrt with h' | ⟨ch, rk, -, hd, -, -, htop, hcomp⟩
  · exact Or.inl h'
  · refine Or.inr ⟨?_, hcomp⟩
    obtain ⟨j, h1, h2, h3, h4, h5, h6, h7, h8, h9, h10, h11⟩ := set_ok h
    have hwf := hs.good.fit.wf
    obtain ⟨j', hj', hjlt, hjsp, hji, hjn⟩ := hwf.iface n i hn hi
    rw [h1] at hji
    cases hji
    have hij : i ≠ j := by
      rintro rfl; rw [hi] at hjsp; cases hjsp
    have hin1 : (s1.cell i).input = some j := by rw [h4 i hij]; exact hj'
    by_cases hact : ∃ r ∈ (s1.cell i).relations, Active s1 r
    · apply htop i hact
      intro k hk hk'
      have hwf1 := hs1.good.fit.wf
      have hrel1 := hs1.good.fit.rel
      obtain ⟨r, hr, hra⟩ := hk'
      obtain ⟨hrn, hre⟩ := (hrel1.rels k r).mp hr
      obtain ⟨t, ht, m, hm, hmk⟩ := (hrel1.edges r hrn k).mp hre
      obtain ⟨o, ho, hoi⟩ := hrel1.names r hrn t ht m hm
      rw [hmk] at ho; cases ho
      obtain ⟨jk, hjk⟩ := Option.isSome_iff_exists.mp hoi
      have hmn := out_named hs1.good.fit hmk
      have hjkj : jk ≠ j := by
        rintro rfl
        refine hk (hwf1.ifaceInj m n k i jk hmn ?_ hjk hin1)
        rw [h5]; exact hn
      unfold Sheet.priority
      rw [hin1, hjk]
      show (s1.cell jk).priority < (s1.cell j).priority
      rw [h3, h4 jk hjkj]
      have := hs.good.fit.prio.le jk
      omega
    · cases hterm : ((settled srt s1).cell i).term with
      | none => rfl
      | some x =>
          exfalso
          obtain ⟨r, t, p, m, hr, ht, hp, hm, -⟩ := hd.only i x hterm
          have hrel1 := hs1.good.fit.rel
          exact hact ⟨r, (hrel1.rels i r).mpr ⟨hr.1, (hrel1.edges r hr.1 i).mpr ⟨t, List.mem_of_getElem? ht, m, List.mem_of_getElem? hp, hm⟩⟩, hr⟩

end Verif.Adam
