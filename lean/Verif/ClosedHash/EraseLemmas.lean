import Verif.ClosedHash.InsertLemmas

namespace Verif.ClosedHash
open Verif.Ring

variable {α K : Type} {hash : K → Nat} {keq : K → K → Bool} {key : α → K} {h : Hdr α} {free : List Nat} {gs : List (Nat × List Nat)}

theorem split_unique {A B A' B' : List Nat} {x : Nat} (e : A ++ x :: B = A' ++ x :: B') (h : x ∉ A) (h' : x ∉ A') :
    A = A' ∧ B = B' := by
  induction A generalizing A' with
  | nil =>
    cases A' with
    | nil => simpa using e
    | cons a A' => simp at e; simp [e.1] at h'
  | cons a A ih =>
    cases A' with
    | nil => simp at e; simp [e.1] at h
    | cons a' A' =>
      simp only [List.cons_append, List.cons.injEq] at e
      simp only [List.mem_cons, not_or] at h h'
      obtain ⟨h1, h2⟩ := ih e.2 h.2 h'.2
      exact ⟨by rw [e.1, h1], h2⟩

theorem unlink_spec {A B : List Nat} {n : Nat} {v : α} (r : R h free (A ++ n :: B)) (hv : h.val n = some v) :
    ∃ h', (h.skipNode n).eraseRaw n = some h' ∧ R h' (n :: free) (A ++ B) ∧ h'.val = upd h.val n none ∧
      h'.state = upd h.state n 0 ∧ h'.cap = h.cap ∧ h'.size = h.size := by
  have r1 := r.skip_used
  have hd : (h.skipNode n).destroy n = some { h.skipNode n with val := upd h.val n none } := by
    have : (h.skipNode n).val n = some v := hv
    simp only [Hdr.destroy, this]; rfl
  have r2 : R (({ h.skipNode n with val := upd h.val n none } : Hdr α).setState n 0) free (A ++ B) := r1.congr rfl rfl rfl
  have hp : (h.F :: h.U :: (free ++ (A ++ n :: B))).Perm (n :: h.F :: h.U :: (free ++ (A ++ B))) := by
    have e1 : h.F :: h.U :: (free ++ (A ++ n :: B)) = (h.F :: h.U :: (free ++ A)) ++ n :: B := by simp
    have e2 : h.F :: h.U :: (free ++ (A ++ B)) = (h.F :: h.U :: (free ++ A)) ++ B := by simp
    rw [e1, e2]; exact List.perm_middle
  have hn := (List.nodup_cons.1 (hp.nodup_iff.1 r.nd)).1
  have r3 := r2.splice_free (x := n) hn
  refine ⟨_, by rw [Hdr.eraseRaw, hd]; rfl, r3, rfl, rfl, rfl, rfl⟩

theorem remove_inv {A B : List Nat} {n : Nat} {v : α} {gs' : List (Nat × List Nat)} (r : R h free (A ++ n :: B))
    (hv : h.val n = some v) (hu : used gs' = A ++ B) (hlt : ∀ m, m ∈ free ++ (A ++ n :: B) ↔ m < h.cap)
    (hsz : h.size = (A ++ n :: B).length) (hcap : 0 < h.cap) (hsf : ∀ m ∈ free, h.state m = 0 ∧ h.val m = none)
    (hgrp : ∀ g ∈ gs', h.state g.1 = 1 ∧ (∀ m ∈ g.2, h.state m = 2) ∧ ∀ m ∈ g.1 :: g.2, ∃ w, h.val m = some w ∧ hash (key w) % h.cap = g.1)
    (hkeys : ((A ++ B).filterMap h.val).Pairwise (Diff keq key)) :
    ∃ h', ((h.skipNode n).eraseRaw n) = some h' ∧ Inv hash keq key { h' with size := h'.size - 1 } (n :: free) gs' ∧
      h'.cap = h.cap ∧ (∀ l : List Nat, n ∉ l → l.filterMap h'.val = l.filterMap h.val) := by
  obtain ⟨h', e, r', e1, e2, e3, e4⟩ := unlink_spec r hv
  have nd : (A ++ n :: B).Nodup := (List.nodup_cons.1 r.ndU).2
  have hnAB : n ∉ A ++ B := by
    have hp : (A ++ n :: B).Perm (n :: (A ++ B)) := List.perm_middle
    exact (List.nodup_cons.1 (hp.nodup_iff.1 nd)).1
  refine ⟨h', e, ⟨?_, ?_, ?_, ?_, ?_, ?_, ?_⟩, e3, ?_⟩
  · rw [hu]; exact r'.congr rfl rfl rfl
  · intro m
    have := hlt m
    show _ ↔ m < h'.cap
    rw [e3, ← this, hu]
    simp only [List.mem_append, List.mem_cons]; tauto
  · show h'.size - 1 = _
    rw [e4, hsz, hu]; simp
  · show 0 < h'.cap
    rw [e3]; exact hcap
  · intro m hm
    show h'.state m = 0 ∧ h'.val m = none
    rw [e1, e2]
    by_cases hmn : m = n
    · subst hmn; simp
    · rw [upd_ne _ _ _ _ hmn, upd_ne _ _ _ _ hmn]
      simp only [List.mem_cons] at hm
      exact hsf m (by tauto)
  · intro g hg
    show h'.state g.1 = 1 ∧ (∀ m ∈ g.2, h'.state m = 2) ∧ ∀ m ∈ g.1 :: g.2, ∃ w, h'.val m = some w ∧ hash (key w) % h'.cap = g.1
    rw [e1, e2, e3]
    obtain ⟨q1, q2, q3⟩ := hgrp g hg
    have hne : ∀ m ∈ g.1 :: g.2, m ≠ n := by
      intro m hm e'; subst e'; apply hnAB; rw [← hu]; exact mem_used.2 ⟨g, hg, hm⟩
    refine ⟨?_, ?_, ?_⟩
    · rw [upd_ne _ _ _ _ (hne _ (by simp))]; exact q1
    · intro m hm; rw [upd_ne _ _ _ _ (hne m (by simp [hm]))]; exact q2 m hm
    · intro m hm; rw [upd_ne _ _ _ _ (hne m hm)]; exact q3 m hm
  · show ((used gs').filterMap h'.val).Pairwise _
    rw [e1, hu, filterMap_upd _ _ _ _ hnAB]; exact hkeys
  · intro l hl
    rw [e1, filterMap_upd _ _ _ _ hl]

/-- `erase(iterator)` -/
theorem Inv.erase (ok : KeyOk hash keq) (i : Inv hash keq key h free gs) {A B : List Nat} {loc : Nat} (e : used gs = A ++ loc :: B) :
    ∃ h' it free' gs' B', h.erase loc = some (h', it) ∧ Inv hash keq key h' free' gs' ∧ h'.cap = h.cap ∧
      used gs' = A ++ B' ∧ it = firstOf B' h.U ∧ A.filterMap h'.val = A.filterMap h.val ∧
      B'.filterMap h'.val = B.filterMap h.val := by
  have hloc : loc ∈ used gs := by rw [e]; simp
  have nd : (used gs).Nodup := (List.nodup_cons.1 i.r.ndU).2
  have hAB : loc ∉ A ++ B := by
    rw [e] at nd
    have hp : (A ++ loc :: B).Perm (loc :: (A ++ B)) := List.perm_middle
    exact (List.nodup_cons.1 (hp.nodup_iff.1 nd)).1
  have hlA : loc ∉ A := fun hh => hAB (by simp [hh])
  have hlB : loc ∉ B := fun hh => hAB (by simp [hh])
  have hnext : h.next loc = firstOf B h.U := by
    have := i.r.ru; rw [e] at this; exact (ring_mid this).2
  obtain ⟨v, hv⟩ := i.used_val loc hloc
  have hkeys := i.keys
  have hU : h.U ∉ used gs := (List.nodup_cons.1 i.r.ndU).1
  rw [e, List.filterMap_append, List.filterMap_cons_some hv] at hkeys
  have hkeys' : (A.filterMap h.val ++ B.filterMap h.val).Pairwise (Diff keq key) :=
    (List.pairwise_cons.1 (pairwise_perm ok List.perm_middle hkeys)).2
  simp only [Hdr.erase]
  by_cases hsw : h.state loc = 1 ∧ h.next loc ≠ h.U ∧ h.state (h.next loc) = 2
  · rw [if_pos hsw]
    obtain ⟨s1, s2, s3⟩ := hsw
    obtain ⟨G1, ms, G2, eg⟩ := i.home_split hloc s1
    have eu : used gs = used G1 ++ loc :: (ms ++ used G2) := by rw [eg]; simp
    have hl1 : loc ∉ used G1 := by
      rw [eu, List.nodup_append] at nd
      intro hh; exact nd.2.2 loc hh loc (by simp) rfl
    obtain ⟨rfl, rfl⟩ := split_unique (e.symm.trans eu) hlA hl1
    cases ms with
    | nil =>
      exfalso
      have hge : firstOf (used G2) h.U = h.U ∨ h.state (firstOf (used G2) h.U) = 1 := by
        have : G1 ++ (loc, []) :: G2 = (G1 ++ [(loc, [])]) ++ G2 := by simp
        rw [eg, this] at i
        exact group_end' i
      rw [hnext] at s2 s3
      simp only [List.nil_append] at s2 s3
      rcases hge with hh | hh
      · exact s2 hh
      · omega
    | cons m ms =>
      have hnm : h.next loc = m := by rw [hnext]; rfl
      rw [hnm]
      have hmu : m ∈ used gs := by rw [eu]; simp
      obtain ⟨w, hw⟩ := i.used_val m hmu
      rw [hw, hv]
      simp only
      have hml : m ≠ loc := by intro e'; apply hlB; simp [e']
      -- split around m
      have eu2 : used gs = (used G1 ++ [loc]) ++ m :: (ms ++ used G2) := by rw [eu]; simp
      have hmn : m ∉ used G1 ++ [loc] ++ (ms ++ used G2) := by
        rw [eu2] at nd
        have hp : ((used G1 ++ [loc]) ++ m :: (ms ++ used G2)).Perm (m :: ((used G1 ++ [loc]) ++ (ms ++ used G2))) := List.perm_middle
        exact (List.nodup_cons.1 (hp.nodup_iff.1 nd)).1
      have hmA : m ∉ used G1 := fun hh => hmn (by simp [hh])
      have hmB : m ∉ ms ++ used G2 := fun hh => hmn (by simp only [List.mem_append] at hh ⊢; tauto)
      have hlB2 : loc ∉ ms ++ used G2 := fun hh => hlB (by simp only [List.cons_append, List.mem_cons]; exact Or.inr hh)
      obtain ⟨hsv, hhsv⟩ : ∃ hs : Hdr α, hs = { h with val := upd (upd h.val m (some v)) loc (some w) } := ⟨_, rfl⟩
      have vl : hsv.val loc = some w := by rw [hhsv]; simp
      have vm : hsv.val m = some v := by
        rw [hhsv]; show upd (upd h.val m (some v)) loc (some w) m = some v
        rw [upd_ne _ _ _ _ hml]; simp
      have vo : ∀ n, n ≠ loc → n ≠ m → hsv.val n = h.val n := by
        intro n h1 h2; rw [hhsv]
        show upd (upd h.val m (some v)) loc (some w) n = _
        rw [upd_ne _ _ _ _ h1, upd_ne _ _ _ _ h2]
      have vf : ∀ l : List Nat, loc ∉ l → m ∉ l → l.filterMap hsv.val = l.filterMap h.val := by
        intro l h1 h2; rw [hhsv]
        show l.filterMap (upd (upd h.val m (some v)) loc (some w)) = _
        rw [filterMap_upd _ _ _ _ h1, filterMap_upd _ _ _ _ h2]
      have hBc : (m :: (ms ++ used G2)).filterMap h.val = w :: (ms ++ used G2).filterMap h.val := List.filterMap_cons_some hw
      have hbk : hash (key w) % h.cap = loc := by
        obtain ⟨w', hw', he⟩ := (i.grp (loc, m :: ms) (by rw [eg]; simp)).2.2 m (by simp)
        rw [hw] at hw'; cases hw'; exact he
      obtain ⟨h', e1, inv, e2, e3⟩ := remove_inv (hash := hash) (keq := keq) (key := key) (h := hsv) (free := free)
        (A := used G1 ++ [loc]) (B := ms ++ used G2) (n := m) (v := v) (gs' := G1 ++ (loc, ms) :: G2)
        (by rw [← eu2, hhsv]; exact i.r.congr rfl rfl rfl) vm (by simp) (by rw [← eu2, hhsv]; exact i.lt)
        (by rw [← eu2, hhsv]; exact i.size) (by rw [hhsv]; exact i.cap)
        (by
          intro n hn
          have hnu : n ∉ used gs := by intro hh; exact i.r.disj n (by simp [hn]) (by simp [hh])
          rw [vo n (fun e' => hnu (e' ▸ hloc)) (fun e' => hnu (e' ▸ hmu))]
          rw [hhsv]; exact i.sf n hn)
        (by
          intro g hg
          have hst : hsv.state = h.state := by rw [hhsv]
          have hcp : hsv.cap = h.cap := by rw [hhsv]
          rw [hst, hcp]
          simp only [List.mem_append, List.mem_cons] at hg
          have other : ∀ g ∈ gs, loc ∉ g.1 :: g.2 → m ∉ g.1 :: g.2 →
              h.state g.1 = 1 ∧ (∀ m ∈ g.2, h.state m = 2) ∧ ∀ n ∈ g.1 :: g.2, ∃ w, hsv.val n = some w ∧ hash (key w) % h.cap = g.1 := by
            intro g hg n1 n2
            obtain ⟨q1, q2, q3⟩ := i.grp g hg
            refine ⟨q1, q2, fun n hn => ?_⟩
            rw [vo n (fun e' => n1 (e' ▸ hn)) (fun e' => n2 (e' ▸ hn))]; exact q3 n hn
          rcases hg with hg | rfl | hg
          · exact other g (by rw [eg]; simp [hg]) (fun hh => hl1 (mem_used.2 ⟨g, hg, hh⟩)) (fun hh => hmA (mem_used.2 ⟨g, hg, hh⟩))
          · obtain ⟨q1, q2, q3⟩ := i.grp (loc, m :: ms) (by rw [eg]; simp)
            refine ⟨q1, fun n hn => q2 n (by simp [hn]), fun n hn => ?_⟩
            by_cases hnl : n = loc
            · subst hnl; exact ⟨w, vl, hbk⟩
            · have hnm' : n ∈ ms := by simp only [List.mem_cons] at hn; tauto
              have : n ≠ m := fun e' => hmB (by simp [← e', hnm'])
              rw [vo n hnl this]; exact q3 n (by simp [hnm'])
          · refine other g (by rw [eg]; simp [hg]) ?_ ?_
            · intro hh; exact hlB2 (List.mem_append.2 (Or.inr (mem_used.2 ⟨g, hg, hh⟩)))
            · intro hh; exact hmB (List.mem_append.2 (Or.inr (mem_used.2 ⟨g, hg, hh⟩))))
        (by
          rw [List.append_assoc, List.singleton_append, List.filterMap_append, List.filterMap_cons_some vl, vf _ hl1 hmA, vf _ hlB2 hmB]
          rw [List.cons_append, hBc] at hkeys'
          exact hkeys')
      rw [← hhsv, e1]
      refine ⟨_, _, _, _, loc :: (ms ++ used G2), rfl, inv, ?_, by simp, rfl, ?_, ?_⟩
      · show h'.cap = h.cap
        rw [e2, hhsv]
      · show (used G1).filterMap h'.val = _
        rw [e3 _ hmA, vf _ hl1 hmA]
      · show (loc :: (ms ++ used G2)).filterMap h'.val = _
        rw [e3 _ (by simp only [List.mem_cons, not_or]; exact ⟨hml, hmB⟩), List.filterMap_cons_some vl, vf _ hlB2 hmB,
          List.cons_append, hBc]
  · rw [if_neg hsw]
    have key2 : ∃ gs', used gs' = A ++ B ∧ ∀ g ∈ gs', h.state g.1 = 1 ∧ (∀ m ∈ g.2, h.state m = 2) ∧
        ∀ m ∈ g.1 :: g.2, ∃ w, h.val m = some w ∧ hash (key w) % h.cap = g.1 := by
      by_cases s1 : h.state loc = 1
      · obtain ⟨G1, ms, G2, eg⟩ := i.home_split hloc s1
        have eu : used gs = used G1 ++ loc :: (ms ++ used G2) := by rw [eg]; simp
        have hl1 : loc ∉ used G1 := by
          rw [eu, List.nodup_append] at nd
          intro hh; exact nd.2.2 loc hh loc (by simp) rfl
        obtain ⟨eA, eB⟩ := split_unique (e.symm.trans eu) hlA hl1
        cases ms with
        | nil =>
          refine ⟨G1 ++ G2, by rw [eA, eB]; simp, fun g hg => i.grp g ?_⟩
          rw [eg]; simp only [List.mem_append, List.mem_cons] at hg ⊢; tauto
        | cons m ms =>
          exfalso
          apply hsw
          have : h.next loc = m := by rw [hnext, eB]; rfl
          rw [this]
          refine ⟨s1, ?_, ?_⟩
          · intro e'; apply hU; rw [← e', eu]; simp
          · exact (i.grp (loc, m :: ms) (by rw [eg]; simp)).2.1 m (by simp)
      · obtain ⟨G1, g, m1, m2, G2, eg⟩ := i.mis_split hloc s1
        have eu : used gs = (used G1 ++ g :: m1) ++ loc :: (m2 ++ used G2) := by rw [eg]; simp
        have hl1 : loc ∉ used G1 ++ g :: m1 := by
          rw [eu, List.nodup_append] at nd
          intro hh; exact nd.2.2 loc hh loc (by simp) rfl
        obtain ⟨eA, eB⟩ := split_unique (e.symm.trans eu) hlA hl1
        refine ⟨G1 ++ (g, m1 ++ m2) :: G2, by rw [eA, eB]; simp, fun g' hg' => ?_⟩
        simp only [List.mem_append, List.mem_cons] at hg'
        rcases hg' with hg' | rfl | hg'
        · exact i.grp g' (by rw [eg]; simp [hg'])
        · obtain ⟨q1, q2, q3⟩ := i.grp (g, m1 ++ loc :: m2) (by rw [eg]; simp)
          refine ⟨q1, fun m hm => q2 m ?_, fun m hm => q3 m ?_⟩
          · simp only [List.mem_append, List.mem_cons] at hm ⊢; tauto
          · simp only [List.mem_append, List.mem_cons] at hm ⊢; tauto
        · exact i.grp g' (by rw [eg]; simp [hg'])
    obtain ⟨gs', hu', hg'⟩ := key2
    obtain ⟨h', e1, inv, e2, e3⟩ := remove_inv (hash := hash) (keq := keq) (key := key) (gs' := gs') (by rw [← e]; exact i.r) hv hu'
      (by rw [← e]; exact i.lt) (by rw [← e]; exact i.size) i.cap i.sf hg' (by rw [List.filterMap_append]; exact hkeys')
    rw [e1]
    exact ⟨_, _, _, gs', B, rfl, inv, e2, hu', hnext, e3 _ hlA, e3 _ hlB⟩

end Verif.ClosedHash
