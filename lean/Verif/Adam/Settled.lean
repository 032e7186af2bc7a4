import Verif.Adam.Indep
/-! The directed sheet, made explicit. -/
namespace Verif.Adam
variable {N V : Type} [DecidableEq N] [DecidableEq V] [Values V]

/-- The sheet `s` with the terms that the first half of `update` has attached to the derived cells.  That this is one term for each
active relation is `C52`. -/
def settled (srt : Sorter) (s : Sheet N V) : Sheet N V :=
  { s with
    condContributing := (prepare srt s).2.condContributing
    cell := fun i => { s.cell i with count := 0, term := ((prepare srt s).2.cell i).term } }

theorem den_same {d d' : Sheet N V} (h : SameEqs (fun _ => False) d d') (h' : SameEqs (fun _ => False) d' d) (k : Nat) (n : N) : den d k n = den d' k n := by
  cases hd : den d k n with
  | some w => exact (den_agree h k n w.1 w.2 hd (fun _ h => h.elim)).symm
  | none =>
      cases hd' : den d' k n with
      | none => rfl
      | some w => rw [den_agree h' k n w.1 w.2 hd' (fun _ h => h.elim)] at hd; cases hd

/-- `update` in terms of the directed sheet. -/
theorem update_settled {s : Sheet N V} (hg : Good s) (hP : Proper s) (hcond : CondOk (startUpdate s)) {srt : Sorter} (hsrt : SortOk srt) :
    ((∀ ord, ∃ s', update srt ord s = (.error .overConstrained, s')) ∧ ∃ s', prepare srt s = (.error .overConstrained, s')) ∨
    ∃ ch rk, (∃ pa, (prepare srt s).1 = .ok pa) ∧ Directed s (settled srt s) ch ∧ Ranked s (settled srt s) ch rk ∧
      (∀ r, r < s.nrel → CondBits (startUpdate s) r (settled srt s).condContributing) ∧
      (∀ i, (∃ r ∈ (s.cell i).relations, Active s r) → (∀ j, j ≠ i → (∃ r ∈ (s.cell j).relations, Active s r) → s.priority j < s.priority i) →
        ((settled srt s).cell i).term = none) ∧
      Computes srt s (settled srt s) := by
  rcases prepare_ok hg.fit.wf hg.fit.rel hP hg.stack hcond hsrt with ⟨s', h⟩ | ⟨pa, s', d, ch, rk, h1, h2, h3, h4, h5, h6, h7, h8, h9, h10, h11, -, h13, h14⟩
  · left
    refine ⟨fun ord => ⟨s', ?_⟩, s', h⟩
    rw [update_split, bind_err h]
  · right
    have ht : ∀ i, ((settled srt s).cell i).term = (d.cell i).term := by
      intro i
      show ((prepare srt s).2.cell i).term = _
      rw [h1]; exact stat_term h5.stat i
    have hcc : (settled srt s).condContributing = d.condContributing := by
      show (prepare srt s).2.condContributing = _
      rw [h1]; exact stat_cond h5.stat
    have hA : SameEqs (fun _ => False) d (settled srt s) := by
      refine ⟨h3.nameIndex.symm, fun i => ?_, fun i _ => ?_, fun n i j _ _ v b h _ => ?_⟩
      · obtain ⟨a1, a2, a3, a4, a5, a6, a7⟩ := h3.cell i
        exact ⟨a1.symm, (h3.free i).symm, a4.symm, a3.symm, ht i⟩
      · obtain ⟨a1, a2, a3, a4, a5, a6, a7⟩ := h3.cell i
        exact ⟨a6.symm, a7.symm⟩
      · obtain ⟨a1, a2, a3, a4, a5, a6, a7⟩ := h3.cell j
        rw [a6, a7] at h
        exact h
    have hB : SameEqs (fun _ => False) (settled srt s) d := by
      refine ⟨h3.nameIndex, fun i => ?_, fun i _ => ?_, fun n i j _ _ v b h _ => ?_⟩
      · obtain ⟨a1, a2, a3, a4, a5, a6, a7⟩ := h3.cell i
        exact ⟨a1, h3.free i, a4, a3, (ht i).symm⟩
      · obtain ⟨a1, a2, a3, a4, a5, a6, a7⟩ := h3.cell i
        exact ⟨a6, a7⟩
      · obtain ⟨a1, a2, a3, a4, a5, a6, a7⟩ := h3.cell j
        rw [a6, a7]
        exact h
    have hden : ∀ k n, den (settled srt s) k n = den d k n := fun k n => den_same hB hA k n
    refine ⟨ch, rk, ⟨pa, by rw [h1]⟩, ⟨rfl, rfl, fun i => ⟨rfl, rfl, rfl, rfl, rfl, rfl, rfl⟩, fun i => rfl, ?_, ?_⟩, ?_, ?_, ?_, ?_⟩
    · intro r hr
      obtain ⟨t, g1, g2⟩ := h3.applied r hr
      exact ⟨t, g1, fun p n i hp hi => by rw [ht]; exact g2 p n i hp hi⟩
    · intro i x hx
      rw [ht] at hx
      exact h3.only i x hx
    · intro r t hr ht' k' t' hk' ht''
      obtain ⟨n, hn, i, hi, ho⟩ := h4 r t hr ht' k' t' hk' ht''
      exact ⟨n, hn, i, hi, fun n' hn' o ho' => by rw [ht]; exact ho n' hn' o ho'⟩
    · rw [hcc]; exact h11
    · intro i hi hj; rw [ht]; exact h13 i hi hj
    · intro ord hord hdef hb
      obtain ⟨ev, s'', hu, hU⟩ := finishUpdate_ok hg.fit h2 h3 h1 h5 h6 h7 h8 h9 h10 h14 hord
        (fun n i hn => by obtain ⟨k, w, hk⟩ := hdef n i hn; exact ⟨k, w, by rw [← hden]; exact hk⟩)
        (fun n i k v b hn hs hk => hb n i k v b hn hs (by rw [hden]; exact hk))
      refine ⟨ev, s'', hu, hU.fit, hU.struct, hU.stack, fun n i k v b hn hk => ?_, hU.base, hU.own, hU.linked, hU.invariant, hU.events, hU.pa, hU.active⟩
      rw [hcc]
      exact hU.value n i k v b hn (by rw [← hden]; exact hk)

/-- Independence in terms of the directed sheets. -/
theorem settled_indep {s : Sheet N V} (hg : Good s) (hcond : CondOk (startUpdate s)) {srt : Sorter} {f : Nat → V}
    (hf : ∀ i, ((s.cell i).spec = .input ∨ (s.cell i).spec = .constant) → f i = (s.cell i).state) (hc : CondFree f s) :
    (prepare srt (reval f s)).1 = (prepare srt s).1 ∧ (∀ i, ((settled srt (reval f s)).cell i).term = ((settled srt s).cell i).term) ∧
    ∀ n k v b, den (settled srt s) k n = some (v, b) → (∀ j, Changed f s j → b.testBit j = false) → den (settled srt (reval f s)) k n = some (v, b) := by
  have hg' := reval_good hg f
  have hcond' := condOk_agree hg hf hc hcond
  obtain ⟨sD, p1, p2⟩ := prepare_sieve hg.fit.wf hg.fit.rel hg.stack hcond srt
  obtain ⟨sD', p1', p2'⟩ := prepare_sieve hg'.fit.wf hg'.fit.rel hg'.stack hcond' srt
  have hvis : sD'.vis = sD.vis := by rw [p2, p2', sieve_vis (active_agree hg hf hc hcond)]
  obtain ⟨q1, q2⟩ := flow_same (srt := srt) hvis
  rw [← p1, ← p1'] at q1 q2
  have ht : ∀ i, ((settled srt (reval f s)).cell i).term = ((settled srt s).cell i).term := by
    intro i
    have := congrArg Cell.term (congrFun (congrArg Sheet.cell q2) i)
    exact this
  refine ⟨q1, ht, fun n k v b hd hb => ?_⟩
  exact den_agree (sameEqs_of (d := settled srt s) (d' := settled srt (reval f s)) hg hf rfl rfl (fun _ => ⟨rfl, rfl, rfl, rfl, rfl⟩) (fun _ => ⟨rfl, rfl, rfl, rfl, rfl⟩) (fun _ => rfl) ht) k n v b hd hb

end Verif.Adam
