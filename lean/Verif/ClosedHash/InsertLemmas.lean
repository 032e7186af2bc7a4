import Verif.ClosedHash.OpLemmas

namespace Verif.ClosedHash
open Verif.Ring

variable {α K : Type} {hash : K → Nat} {keq : K → K → Bool} {key : α → K} {h : Hdr α} {free : List Nat} {gs : List (Nat × List Nat)}

theorem filterMap_upd (f : Nat → Option α) (n : Nat) (v : Option α) (l : List Nat) (hn : n ∉ l) :
    l.filterMap (upd f n v) = l.filterMap f := by
  induction l with
  | nil => rfl
  | cons a l ih =>
    simp only [List.mem_cons, not_or] at hn
    rw [List.filterMap_cons, List.filterMap_cons, upd_ne _ _ _ _ (fun e => hn.1 e.symm), ih hn.2]

theorem Diff.symm' (ok : KeyOk hash keq) {a b : α} (h : Diff keq key a b) : Diff keq key b a := by
  unfold Diff at *
  cases hq : keq (key b) (key a) with
  | false => rfl
  | true => rw [ok.symm _ _ hq] at h; cases h

theorem pairwise_perm (ok : KeyOk hash keq) {l l' : List α} (p : l.Perm l') (h : l.Pairwise (Diff keq key)) :
    l'.Pairwise (Diff keq key) := (p.pairwise_iff (fun h => Diff.symm' ok h)).1 h

/-- storing in a free home bucket -/
theorem placeHome_spec (ok : KeyOk hash keq) (i : Inv hash keq key h free gs) (x : α) (hb : h.bucket hash (key x) ∈ free)
    (hnew : ∀ n ∈ used gs, ∀ v, h.val n = some v → keq (key x) (key v) = false) :
    ∃ h' free', ((h.insertRaw (h.bucket hash (key x)) x 1).map (fun h1 =>
        let h2 := h1.splice h1.U (h.bucket hash (key x)) (h.bucket hash (key x))
        ({ h2 with size := h2.size + 1 }, h.bucket hash (key x), true))) = some (h', h.bucket hash (key x), true) ∧
      Inv hash keq key h' free' ((h.bucket hash (key x), []) :: gs) ∧ h'.cap = h.cap ∧
      h'.val (h.bucket hash (key x)) = some x ∧
      (used ((h.bucket hash (key x), []) :: gs)).filterMap h'.val = x :: (used gs).filterMap h.val := by
  generalize hbe : h.bucket hash (key x) = b at *
  have hbc : hash (key x) % h.cap = b := hbe
  have hlt : b < h.cap := by rw [← hbc]; exact Nat.mod_lt _ i.cap
  obtain ⟨A, B, e⟩ := List.append_of_mem hb
  have hval := (i.sf b hb).2
  have hc : h.construct b x = some { h with val := upd h.val b (some x) } := by
    simp [Hdr.construct, hlt, hval]
  have r1 : R (({ h with val := upd h.val b (some x) } : Hdr α).setState b 1) (A ++ b :: B) (used gs) := by
    rw [← e]; exact i.r.congr rfl rfl rfl
  have r2 := r1.skip_free
  have nd0 := i.r.nd
  rw [e] at nd0
  have hbU : b ∉ used gs := by
    intro hh; exact i.r.disj b (by rw [e]; simp) (by simp [hh])
  have hb2 : b ∉ h.F :: h.U :: ((A ++ B) ++ used gs) := by
    have hp : (h.F :: h.U :: ((A ++ b :: B) ++ used gs)).Perm (b :: h.F :: h.U :: ((A ++ B) ++ used gs)) := by
      have : (h.F :: h.U :: ((A ++ b :: B) ++ used gs)) = (h.F :: h.U :: A) ++ b :: (B ++ used gs) := by simp
      rw [this]
      have h2 : h.F :: h.U :: ((A ++ B) ++ used gs) = (h.F :: h.U :: A) ++ (B ++ used gs) := by simp
      rw [h2]; exact List.perm_middle
    exact (List.nodup_cons.1 (hp.nodup_iff.1 nd0)).1
  have r3 := r2.splice_used (A := []) (B := used gs) (x := b) hb2
  simp only [List.nil_append, lastOf_nil] at r3
  have hcont : (b :: used gs).filterMap (upd h.val b (some x)) = x :: (used gs).filterMap h.val := by
    rw [List.filterMap_cons_some (upd_same _ _ _), filterMap_upd _ _ _ _ hbU]
  let h3 : Hdr α := ((({ h with val := upd h.val b (some x) } : Hdr α).setState b 1).skipNode b).splice
    ((({ h with val := upd h.val b (some x) } : Hdr α).setState b 1).skipNode b).U b b
  refine ⟨{ h3 with size := h3.size + 1 }, A ++ B, ?_, ⟨?_, ?_, ?_, ?_, ?_, ?_, ?_⟩, ?_, ?_, ?_⟩
  · simp only [Hdr.insertRaw, hc, Option.map_some]; rfl
  · rw [used_cons]
    simp only [List.nil_append]
    exact R.congr (h := h3) r3 rfl rfl rfl
  · intro n
    have := i.lt n
    rw [e] at this
    simp only [used_cons, List.mem_append, List.mem_cons, List.nil_append] at this ⊢
    show _ ↔ n < h.cap
    rw [← this]; tauto
  · show h.size + 1 = _
    rw [i.size]; simp
  · exact i.cap
  · intro n hn
    have hn' : n ∈ free := by rw [e]; simp only [List.mem_append, List.mem_cons] at hn ⊢; tauto
    have hne : n ≠ b := by
      intro e'; subst e'; apply hb2; simp only [List.mem_cons, List.mem_append] at hn ⊢; tauto
    refine ⟨?_, ?_⟩
    · show upd h.state b 1 n = 0
      rw [upd_ne _ _ _ _ hne]; exact (i.sf n hn').1
    · show upd h.val b (some x) n = none
      rw [upd_ne _ _ _ _ hne]; exact (i.sf n hn').2
  · intro g hg
    simp only [List.mem_cons] at hg
    show upd h.state b 1 g.1 = 1 ∧ (∀ m ∈ g.2, upd h.state b 1 m = 2) ∧
      ∀ n ∈ g.1 :: g.2, ∃ v, upd h.val b (some x) n = some v ∧ hash (key v) % h.cap = g.1
    rcases hg with rfl | hg
    · refine ⟨by simp, by simp, ?_⟩
      intro n hn
      simp only [List.mem_cons, List.not_mem_nil, or_false] at hn
      subst hn
      exact ⟨x, by simp, hbc⟩
    · obtain ⟨g1, g2, g3⟩ := i.grp g hg
      have hne : ∀ n ∈ g.1 :: g.2, n ≠ b := by
        intro n hn e'; subst e'; exact hbU (mem_used.2 ⟨g, hg, hn⟩)
      refine ⟨?_, ?_, ?_⟩
      · rw [upd_ne _ _ _ _ (hne _ (by simp))]; exact g1
      · intro m hm; rw [upd_ne _ _ _ _ (hne _ (by simp [hm]))]; exact g2 m hm
      · intro n hn; rw [upd_ne _ _ _ _ (hne _ hn)]; exact g3 n hn
  · show ((used ((b, []) :: gs)).filterMap (upd h.val b (some x))).Pairwise _
    rw [used_cons]
    simp only [List.nil_append]
    rw [hcont, List.pairwise_cons]
    refine ⟨?_, i.keys⟩
    intro v hv
    obtain ⟨n, hn, hnv⟩ := List.mem_filterMap.1 hv
    exact hnew n hn v hnv
  · rfl
  · show upd h.val b (some x) b = some x
    simp
  · show (used ((b, []) :: gs)).filterMap (upd h.val b (some x)) = _
    rw [used_cons]; simpa using hcont

/-- moving a misplaced element out of the way -/
theorem relocate_spec (i : Inv hash keq key h free gs) (b : Nat) (hb : b ∈ used gs) (hst : h.state b = 2) (hs : h.cap ≠ h.size)
    (v : α) (hv : h.val b = some v) :
    ∃ h1 h' free' gs', h.insertRaw (h.next h.F) v 2 = some h1 ∧
      ((h1.setNext (h1.prior b) (h.next h.F)).setNext (h.next h.F) ((h1.setNext (h1.prior b) (h.next h.F)).next b)).eraseRaw b = some h' ∧
      Inv hash keq key h' free' gs' ∧ b ∈ free' ∧ h'.cap = h.cap ∧
      (used gs').filterMap h'.val = (used gs).filterMap h.val ∧ h'.state b = 0 := by
  obtain ⟨f, free1, rfl⟩ : ∃ f l, free = f :: l := by
    cases free with
    | nil => exact absurd rfl (i.free_ne hs)
    | cons f l => exact ⟨f, l, rfl⟩
  have hf : h.next h.F = f := by rw [(ring_ends i.r.rf).1]; rfl
  rw [hf]
  have hflt : f < h.cap := (i.lt f).1 (by simp)
  have hfv := (i.sf f (by simp)).2
  obtain ⟨G1, g, m1, m2, G2, e⟩ := i.mis_split hb (by omega)
  -- insert_raw(free, *node)
  have hc : h.construct f v = some { h with val := upd h.val f (some v) } := by
    simp [Hdr.construct, hflt, hfv]
  have r1 : R (({ h with val := upd h.val f (some v) } : Hdr α).setState f 2) ([] ++ f :: free1) (used gs) :=
    i.r.congr rfl rfl rfl
  have r2 := r1.skip_free
  simp only [List.nil_append] at r2
  have nd0 := i.r.nd
  have hf2 : f ∉ h.F :: h.U :: (free1 ++ used gs) := by
    have hp : (h.F :: h.U :: ((f :: free1) ++ used gs)).Perm (f :: h.F :: h.U :: (free1 ++ used gs)) := by
      have : (h.F :: h.U :: ((f :: free1) ++ used gs)) = [h.F, h.U] ++ f :: (free1 ++ used gs) := by simp
      rw [this]; exact List.perm_middle
    exact (List.nodup_cons.1 (hp.nodup_iff.1 nd0)).1
  have hfU : f ∉ used gs := by intro hh; apply hf2; simp [hh]
  have hbf : b ≠ f := by intro e'; subst e'; exact hfU hb
  obtain ⟨A, hA⟩ : ∃ A, A = used G1 ++ g :: m1 := ⟨_, rfl⟩
  obtain ⟨B, hB⟩ : ∃ B, B = m2 ++ used G2 := ⟨_, rfl⟩
  have eu : used gs = A ++ b :: B := by rw [e]; simp [hA, hB]
  rw [eu] at r2
  have r3 := r2.replace_used (y := f) (by rw [← eu]; exact hf2)
  have ndU : (h.U :: (A ++ b :: B)).Nodup := by rw [← eu]; exact i.r.ndU
  have hbAB : b ∉ A ++ B := by
    have hp : (A ++ b :: B).Perm (b :: (A ++ B)) := List.perm_middle
    have := (hp.nodup_iff.1 (List.nodup_cons.1 ndU).2)
    exact (List.nodup_cons.1 this).1
  have hbF : b ∉ h.F :: (f :: free1) := by
    intro hh; exact i.r.disj b hh (by simp [hb])
  have hbfresh : b ∉ h.F :: h.U :: (free1 ++ (A ++ f :: B)) := by
    have h1 : b ≠ h.U := by
      intro e'; rw [← e'] at ndU; exact (List.nodup_cons.1 ndU).1 (by simp)
    simp only [List.mem_cons, List.mem_append, not_or] at hbAB hbF ⊢
    exact ⟨hbF.1, h1, hbF.2.2, hbAB.1, hbf, hbAB.2⟩
  generalize hh1 : (({ h with val := upd h.val f (some v) } : Hdr α).setState f 2).skipNode f = h1 at r2 r3
  have e1v : h1.val = upd h.val f (some v) := by rw [← hh1]; rfl
  have e1s : h1.state = upd h.state f 2 := by rw [← hh1]; rfl
  have e1c : h1.cap = h.cap := by rw [← hh1]; rfl
  have e1z : h1.size = h.size := by rw [← hh1]; rfl
  simp only at r3
  generalize hh2 : (h1.setNext (h1.prior b) f).setNext f ((h1.setNext (h1.prior b) f).next b) = h2 at r3
  have e2v : h2.val = upd h.val f (some v) := by rw [← hh2]; exact e1v
  have e2s : h2.state = upd h.state f 2 := by rw [← hh2]; exact e1s
  have e2c : h2.cap = h.cap := by rw [← hh2]; exact e1c
  have e2z : h2.size = h.size := by rw [← hh2]; exact e1z
  have hd : h2.destroy b = some { h2 with val := upd h2.val b none } := by
    have : h2.val b = some v := by rw [e2v, upd_ne _ _ _ _ hbf]; exact hv
    simp [Hdr.destroy, this]
  have r4 : R (({ h2 with val := upd h2.val b none } : Hdr α).setState b 0) free1 (A ++ f :: B) := r3.congr rfl rfl rfl
  have r5 := r4.splice_free (x := b) (by
    have hF : (({ h2 with val := upd h2.val b none } : Hdr α).setState b 0).F = h.F := e2c
    have hU : (({ h2 with val := upd h2.val b none } : Hdr α).setState b 0).U = h.U := by
      show h2.cap + 1 = h.cap + 1; rw [e2c]
    rw [hF, hU]; exact hbfresh)
  have eu' : used (G1 ++ (g, m1 ++ f :: m2) :: G2) = A ++ f :: B := by simp [hA, hB]
  have hfAB : f ∉ A ++ B := by
    intro hh; apply hfU; rw [eu]; simp only [List.mem_append, List.mem_cons] at hh ⊢; tauto
  have hcont : (A ++ f :: B).filterMap (upd (upd h.val f (some v)) b none) = (A ++ b :: B).filterMap h.val := by
    have hbA : b ∉ A := fun hh => hbAB (by simp [hh])
    have hbB : b ∉ B := fun hh => hbAB (by simp [hh])
    have hfA : f ∉ A := fun hh => hfAB (by simp [hh])
    have hfB : f ∉ B := fun hh => hfAB (by simp [hh])
    have hfv' : upd (upd h.val f (some v)) b none f = some v := by rw [upd_ne _ _ _ _ (Ne.symm hbf)]; simp
    rw [List.filterMap_append, List.filterMap_append, List.filterMap_cons_some hfv', List.filterMap_cons_some hv,
      filterMap_upd _ _ _ _ hbA, filterMap_upd _ _ _ _ hfA, filterMap_upd _ _ _ _ hbB, filterMap_upd _ _ _ _ hfB]
  let h3 : Hdr α := (({ h2 with val := upd h2.val b none } : Hdr α).setState b 0).splice
    (({ h2 with val := upd h2.val b none } : Hdr α).setState b 0).F b b
  refine ⟨h1, h3, b :: free1, G1 ++ (g, m1 ++ f :: m2) :: G2, ?_, ?_, ⟨?_, ?_, ?_, ?_, ?_, ?_, ?_⟩, by simp, ?_, ?_, ?_⟩
  · rw [Hdr.insertRaw, hc, ← hh1]; rfl
  · rw [hh2, Hdr.eraseRaw, hd]; rfl
  · rw [eu']
    exact R.congr r5 rfl rfl rfl
  · intro n
    have := i.lt n
    rw [eu] at this
    rw [eu']
    show _ ↔ n < h2.cap
    rw [e2c, ← this]
    simp only [List.mem_append, List.mem_cons]; tauto
  · show h2.size = _
    rw [e2z, i.size, eu, eu']; simp
  · show 0 < h2.cap
    rw [e2c]; exact i.cap
  · intro n hn
    show upd h2.state b 0 n = 0 ∧ upd h2.val b none n = none
    by_cases hnb : n = b
    · subst hnb; simp
    · rw [upd_ne _ _ _ _ hnb, upd_ne _ _ _ _ hnb]
      simp only [List.mem_cons] at hn
      have hn' : n ∈ free1 := by tauto
      have hnf : n ≠ f := by intro e'; subst e'; apply hf2; simp [hn']
      rw [e2s, e2v, upd_ne _ _ _ _ hnf, upd_ne _ _ _ _ hnf]
      exact i.sf n (by simp [hn'])
  · intro g' hg'
    show upd h2.state b 0 g'.1 = 1 ∧ (∀ m ∈ g'.2, upd h2.state b 0 m = 2) ∧
      ∀ n ∈ g'.1 :: g'.2, ∃ w, upd h2.val b none n = some w ∧ hash (key w) % h2.cap = g'.1
    rw [e2s, e2v, e2c]
    have same : ∀ n, n ≠ b → n ≠ f → upd (upd h.state f 2) b 0 n = h.state n ∧ upd (upd h.val f (some v)) b none n = h.val n := by
      intro n h1 h2
      rw [upd_ne _ _ _ _ h1, upd_ne _ _ _ _ h2, upd_ne _ _ _ _ h1, upd_ne _ _ _ _ h2]
      exact ⟨rfl, rfl⟩
    have fval : upd (upd h.state f 2) b 0 f = 2 ∧ upd (upd h.val f (some v)) b none f = some v := by
      rw [upd_ne _ _ _ _ (Ne.symm hbf), upd_ne _ _ _ _ (Ne.symm hbf)]; simp
    have other : ∀ g' ∈ gs, (b ∉ g'.1 :: g'.2) → upd (upd h.state f 2) b 0 g'.1 = 1 ∧ (∀ m ∈ g'.2, upd (upd h.state f 2) b 0 m = 2) ∧
        ∀ n ∈ g'.1 :: g'.2, ∃ w, upd (upd h.val f (some v)) b none n = some w ∧ hash (key w) % h.cap = g'.1 := by
      intro g' hg' hbn
      obtain ⟨q1, q2, q3⟩ := i.grp g' hg'
      have hne : ∀ n ∈ g'.1 :: g'.2, n ≠ b ∧ n ≠ f := by
        intro n hn
        exact ⟨fun e' => hbn (e' ▸ hn), fun e' => hfU (mem_used.2 ⟨g', hg', e' ▸ hn⟩)⟩
      refine ⟨?_, ?_, ?_⟩
      · rw [(same _ (hne _ (by simp)).1 (hne _ (by simp)).2).1]; exact q1
      · intro m hm
        rw [(same _ (hne m (by simp [hm])).1 (hne m (by simp [hm])).2).1]; exact q2 m hm
      · intro n hn
        rw [(same _ (hne n hn).1 (hne n hn).2).2]; exact q3 n hn
    simp only [List.mem_append, List.mem_cons] at hg'
    rcases hg' with hg' | rfl | hg'
    · refine other g' (by rw [e]; simp [hg']) ?_
      intro hh
      apply hbAB
      simp only [hA, List.mem_append, List.mem_cons]
      exact Or.inl (Or.inl (mem_used.2 ⟨g', hg', hh⟩))
    · obtain ⟨q1, q2, q3⟩ := i.grp (g, m1 ++ b :: m2) (by rw [e]; simp)
      have hgb : g ≠ b := by intro e'; apply hbAB; simp [hA, e']
      have hgf : g ≠ f := by intro e'; apply hfAB; simp [hA, e']
      have hm1 : ∀ m ∈ m1 ++ m2, m ≠ b ∧ m ≠ f := by
        intro m hm
        have hAB : m ∈ A ++ B := by
          simp only [hA, hB, List.mem_append, List.mem_cons] at hm ⊢; tauto
        exact ⟨fun e' => hbAB (e' ▸ hAB), fun e' => hfAB (e' ▸ hAB)⟩
      refine ⟨?_, ?_, ?_⟩
      · rw [(same _ hgb hgf).1]; exact q1
      · intro m hm
        simp only [List.mem_append, List.mem_cons] at hm
        by_cases hmf : m = f
        · rw [hmf]; exact fval.1
        · have hm' : m ∈ m1 ++ m2 := by simp only [List.mem_append]; tauto
          rw [(same m (hm1 m hm').1 (hm1 m hm').2).1]
          exact q2 m (by simp only [List.mem_append, List.mem_cons] at hm' ⊢; tauto)
      · intro n hn
        simp only [List.mem_cons, List.mem_append] at hn
        by_cases hmf : n = f
        · obtain ⟨w, hw, he⟩ := q3 b (by simp)
          rw [hv] at hw; cases hw
          exact ⟨v, by rw [hmf]; exact fval.2, he⟩
        · by_cases hng : n = g
          · rw [hng, (same _ hgb hgf).2]; exact q3 g (by simp)
          · have hm' : n ∈ m1 ++ m2 := by simp only [List.mem_append]; tauto
            rw [(same n (hm1 n hm').1 (hm1 n hm').2).2]
            exact q3 n (by simp only [List.mem_append, List.mem_cons] at hm' ⊢; tauto)
    · refine other g' (by rw [e]; simp [hg']) ?_
      intro hh
      apply hbAB
      simp only [hB, List.mem_append, List.mem_cons]
      exact Or.inr (Or.inr (mem_used.2 ⟨g', hg', hh⟩))
  · rw [eu']
    show ((A ++ f :: B).filterMap (upd h2.val b none)).Pairwise _
    rw [e2v, hcont, ← eu]; exact i.keys
  · exact e2c
  · rw [eu', eu]
    show (A ++ f :: B).filterMap (upd h2.val b none) = _
    rw [e2v, hcont]
  · show upd h2.state b 0 b = 0
    simp

/-- appending to the chain of an occupied home bucket -/
theorem chain_insert_spec (ok : KeyOk hash keq) (i : Inv hash keq key h free gs) (x : α) (b : Nat) {G1 ms G2}
    (e : gs = G1 ++ (b, ms) :: G2) (hbk : hash (key x) % h.cap = b) (hs : h.cap ≠ h.size)
    (hnew : ∀ n ∈ used gs, ∀ v, h.val n = some v → keq (key x) (key v) = false) :
    ∃ h' f free' gs', ((h.insertRaw (h.next h.F) x 2).map (fun h1 =>
        let h2 := h1.splice b (h.next h.F) (h.next h.F)
        ({ h2 with size := h2.size + 1 }, h.next h.F, true))) = some (h', f, true) ∧
      Inv hash keq key h' free' gs' ∧ h'.cap = h.cap ∧ h'.val f = some x ∧ f ∈ used gs' ∧
      ((used gs').filterMap h'.val).Perm (x :: (used gs).filterMap h.val) := by
  obtain ⟨f, free1, rfl⟩ : ∃ f l, free = f :: l := by
    cases free with
    | nil => exact absurd rfl (i.free_ne hs)
    | cons f l => exact ⟨f, l, rfl⟩
  have hf : h.next h.F = f := by rw [(ring_ends i.r.rf).1]; rfl
  rw [hf]
  have hflt : f < h.cap := (i.lt f).1 (by simp)
  have hfv := (i.sf f (by simp)).2
  have hc : h.construct f x = some { h with val := upd h.val f (some x) } := by
    simp [Hdr.construct, hflt, hfv]
  have r1 : R (({ h with val := upd h.val f (some x) } : Hdr α).setState f 2) ([] ++ f :: free1) (used gs) :=
    i.r.congr rfl rfl rfl
  have r2 := r1.skip_free
  simp only [List.nil_append] at r2
  have nd0 := i.r.nd
  have hf2 : f ∉ h.F :: h.U :: (free1 ++ used gs) := by
    have hp : (h.F :: h.U :: ((f :: free1) ++ used gs)).Perm (f :: h.F :: h.U :: (free1 ++ used gs)) := by
      have : (h.F :: h.U :: ((f :: free1) ++ used gs)) = [h.F, h.U] ++ f :: (free1 ++ used gs) := by simp
      rw [this]; exact List.perm_middle
    exact (List.nodup_cons.1 (hp.nodup_iff.1 nd0)).1
  have hfU : f ∉ used gs := by intro hh; apply hf2; simp [hh]
  obtain ⟨A, hA⟩ : ∃ A, A = used G1 ++ [b] := ⟨_, rfl⟩
  obtain ⟨B, hB⟩ : ∃ B, B = ms ++ used G2 := ⟨_, rfl⟩
  have eu : used gs = A ++ B := by rw [e]; simp [hA, hB]
  have eu' : used (G1 ++ (b, f :: ms) :: G2) = A ++ f :: B := by simp [hA, hB]
  rw [eu] at r2
  have r3 := r2.splice_used (x := f) (by rw [← eu]; exact hf2)
  have hl : ∀ s, lastOf s A = b := fun s => by simp [hA]
  rw [hl] at r3
  have hperm : (A ++ f :: B).Perm (f :: (A ++ B)) := List.perm_middle
  have hcont : ((A ++ f :: B).filterMap (upd h.val f (some x))).Perm (x :: (used gs).filterMap h.val) := by
    refine (hperm.filterMap _).trans ?_
    rw [List.filterMap_cons_some (upd_same _ _ _), ← eu, filterMap_upd _ _ _ _ hfU]
  let h3 : Hdr α := ((({ h with val := upd h.val f (some x) } : Hdr α).setState f 2).skipNode f).splice b f f
  refine ⟨{ h3 with size := h3.size + 1 }, f, free1, G1 ++ (b, f :: ms) :: G2, ?_, ⟨?_, ?_, ?_, ?_, ?_, ?_, ?_⟩, ?_, ?_, ?_, ?_⟩
  · simp only [Hdr.insertRaw, hc, Option.map_some]; rfl
  · rw [eu']; exact R.congr r3 rfl rfl rfl
  · intro n
    have := i.lt n
    rw [eu] at this
    rw [eu']
    show _ ↔ n < h.cap
    rw [← this]
    simp only [List.mem_append, List.mem_cons]; tauto
  · show h.size + 1 = _
    rw [i.size, eu, eu']; simp; omega
  · exact i.cap
  · intro n hn
    have hnf : n ≠ f := by intro e'; subst e'; apply hf2; simp [hn]
    show upd h.state f 2 n = 0 ∧ upd h.val f (some x) n = none
    rw [upd_ne _ _ _ _ hnf, upd_ne _ _ _ _ hnf]
    exact i.sf n (by simp [hn])
  · intro g' hg'
    show upd h.state f 2 g'.1 = 1 ∧ (∀ m ∈ g'.2, upd h.state f 2 m = 2) ∧
      ∀ n ∈ g'.1 :: g'.2, ∃ w, upd h.val f (some x) n = some w ∧ hash (key w) % h.cap = g'.1
    have other : ∀ g' ∈ gs, upd h.state f 2 g'.1 = 1 ∧ (∀ m ∈ g'.2, upd h.state f 2 m = 2) ∧
        ∀ n ∈ g'.1 :: g'.2, ∃ w, upd h.val f (some x) n = some w ∧ hash (key w) % h.cap = g'.1 := by
      intro g' hg'
      obtain ⟨q1, q2, q3⟩ := i.grp g' hg'
      have hne : ∀ n ∈ g'.1 :: g'.2, n ≠ f := by
        intro n hn e'; exact hfU (mem_used.2 ⟨g', hg', e' ▸ hn⟩)
      refine ⟨?_, ?_, ?_⟩
      · rw [upd_ne _ _ _ _ (hne _ (by simp))]; exact q1
      · intro m hm; rw [upd_ne _ _ _ _ (hne m (by simp [hm]))]; exact q2 m hm
      · intro n hn; rw [upd_ne _ _ _ _ (hne n hn)]; exact q3 n hn
    simp only [List.mem_append, List.mem_cons] at hg'
    rcases hg' with hg' | rfl | hg'
    · exact other g' (by rw [e]; simp [hg'])
    · obtain ⟨q1, q2, q3⟩ := other (b, ms) (by rw [e]; simp)
      refine ⟨q1, ?_, ?_⟩
      · intro m hm
        simp only [List.mem_cons] at hm
        rcases hm with rfl | hm
        · simp
        · exact q2 m hm
      · intro n hn
        simp only [List.mem_cons] at hn
        by_cases hnf : n = f
        · subst hnf; exact ⟨x, by simp, hbk⟩
        · exact q3 n (by simp only [List.mem_cons]; tauto)
    · exact other g' (by rw [e]; simp [hg'])
  · rw [eu']
    show ((A ++ f :: B).filterMap (upd h.val f (some x))).Pairwise _
    apply pairwise_perm ok hcont.symm
    rw [List.pairwise_cons]
    refine ⟨?_, i.keys⟩
    intro v hv
    obtain ⟨n, hn, hnv⟩ := List.mem_filterMap.1 hv
    exact hnew n hn v hnv
  · rfl
  · show upd h.val f (some x) f = some x
    simp
  · rw [eu']; simp
  · rw [eu']; exact hcont

/-- assigning over an element with an equivalent key -/
theorem overwrite_spec (ok : KeyOk hash keq) (i : Inv hash keq key h free gs) (x : α) (n : Nat) (hn : n ∈ used gs) (v : α)
    (hv : h.val n = some v) (hk : keq (key x) (key v) = true) :
    Inv hash keq key { h with val := upd h.val n (some x) } free gs ∧
    ((used gs).filterMap (upd h.val n (some x))).Perm (specInsert keq key ((used gs).filterMap h.val) x) := by
  obtain ⟨A, B, e⟩ := List.append_of_mem hn
  have nd : (used gs).Nodup := (List.nodup_cons.1 i.r.ndU).2
  have hnAB : n ∉ A ++ B := by
    rw [e] at nd
    have hp : (A ++ n :: B).Perm (n :: (A ++ B)) := List.perm_middle
    exact (List.nodup_cons.1 (hp.nodup_iff.1 nd)).1
  have hnA : n ∉ A := fun hh => hnAB (by simp [hh])
  have hnB : n ∉ B := fun hh => hnAB (by simp [hh])
  have c0 : (used gs).filterMap h.val = A.filterMap h.val ++ v :: B.filterMap h.val := by
    rw [e, List.filterMap_append, List.filterMap_cons_some hv]
  have c1 : (used gs).filterMap (upd h.val n (some x)) = A.filterMap h.val ++ x :: B.filterMap h.val := by
    rw [e, List.filterMap_append, List.filterMap_cons_some (upd_same _ _ _), filterMap_upd _ _ _ _ hnA, filterMap_upd _ _ _ _ hnB]
  have hkeys := i.keys
  rw [c0] at hkeys
  have hkeys' : (v :: (A.filterMap h.val ++ B.filterMap h.val)).Pairwise (Diff keq key) :=
    pairwise_perm ok List.perm_middle hkeys
  rw [List.pairwise_cons] at hkeys'
  have hdx : ∀ w ∈ A.filterMap h.val ++ B.filterMap h.val, keq (key x) (key w) = false := by
    intro w hw
    have := hkeys'.1 w hw
    unfold Diff at this
    cases hq : keq (key x) (key w) with
    | false => rfl
    | true =>
      rw [ok.trans _ _ _ (ok.symm _ _ hk) hq] at this; cases this
  refine ⟨⟨i.r.congr rfl rfl rfl, i.lt, i.size, i.cap, ?_, ?_, ?_⟩, ?_⟩
  · intro m hm
    have hne : m ≠ n := by
      intro e'; subst e'; exact i.r.disj m (by simp [hm]) (by simp [hn])
    show h.state m = 0 ∧ upd h.val n (some x) m = none
    rw [upd_ne _ _ _ _ hne]; exact i.sf m hm
  · intro g hg
    obtain ⟨q1, q2, q3⟩ := i.grp g hg
    refine ⟨q1, q2, ?_⟩
    intro m hm
    show ∃ w, upd h.val n (some x) m = some w ∧ hash (key w) % h.cap = g.1
    by_cases hmn : m = n
    · subst hmn
      obtain ⟨w, hw, he⟩ := q3 m hm
      rw [hv] at hw; cases hw
      refine ⟨x, by simp, ?_⟩
      rw [ok.hash _ _ hk]; exact he
    · rw [upd_ne _ _ _ _ hmn]; exact q3 m hm
  · show ((used gs).filterMap (upd h.val n (some x))).Pairwise _
    rw [c1]
    apply pairwise_perm ok List.perm_middle.symm
    rw [List.pairwise_cons]
    exact ⟨hdx, hkeys'.2⟩
  · rw [c1]
    unfold specInsert specErase
    rw [c0, List.filter_append, List.filter_cons_of_neg (by simp [hk])]
    have f1 : (A.filterMap h.val).filter (fun w => !keq (key x) (key w)) = A.filterMap h.val := by
      rw [List.filter_eq_self]; intro w hw; rw [hdx w (by simp only [List.mem_append]; exact Or.inl hw)]; rfl
    have f2 : (B.filterMap h.val).filter (fun w => !keq (key x) (key w)) = B.filterMap h.val := by
      rw [List.filter_eq_self]; intro w hw; rw [hdx w (by simp only [List.mem_append]; exact Or.inr hw)]; rfl
    rw [f1, f2]
    exact List.perm_middle

/-- `insert` on a table with a free node -/
theorem Inv.insertCore (ok : KeyOk hash keq) (i : Inv hash keq key h free gs) (hs : h.cap ≠ h.size) (x : α) :
    ∃ h' n b free' gs', h.insertCore hash keq key x = some (h', n, b) ∧ Inv hash keq key h' free' gs' ∧ h'.cap = h.cap ∧
      h'.val n = some x ∧ n ∈ used gs' ∧
      ((used gs').filterMap h'.val).Perm (specInsert keq key ((used gs).filterMap h.val) x) ∧
      (b = true ↔ ∀ v ∈ (used gs).filterMap h.val, keq (key x) (key v) = false) := by
  have hlt : h.bucket hash (key x) < h.cap := Nat.mod_lt _ i.cap
  have erase_new : (∀ n ∈ used gs, ∀ v, h.val n = some v → keq (key x) (key v) = false) →
      specErase keq key ((used gs).filterMap h.val) (key x) = (used gs).filterMap h.val := by
    intro hnew
    unfold specErase
    rw [List.filter_eq_self]
    intro v hv
    obtain ⟨n, hn, hnv⟩ := List.mem_filterMap.1 hv
    rw [hnew n hn v hnv]; rfl
  have mem_new : (∀ n ∈ used gs, ∀ v, h.val n = some v → keq (key x) (key v) = false) →
      ∀ v ∈ (used gs).filterMap h.val, keq (key x) (key v) = false := by
    intro hnew v hv
    obtain ⟨n, hn, hnv⟩ := List.mem_filterMap.1 hv
    exact hnew n hn v hnv
  obtain ⟨it, hfind, hres⟩ := i.find_spec ok (key x)
  simp only [CSet.find] at hfind
  simp only [Hdr.insertCore]
  rcases i.node_cases hlt with ⟨hfree, h0⟩ | ⟨hused, h12⟩
  · -- free bucket
    rw [if_neg (by omega), if_neg (by omega)]
    have hnew : ∀ n ∈ used gs, ∀ v, h.val n = some v → keq (key x) (key v) = false := by
      rw [if_pos (by omega)] at hfind
      injection hfind with hfind
      rcases hres with ⟨_, h'⟩ | ⟨h', _⟩
      · exact h'
      · exfalso; rw [← hfind] at h'; exact (List.nodup_cons.1 i.r.ndU).1 h'
    obtain ⟨h', free', e1, inv, e2, e3, e4⟩ := placeHome_spec ok i x hfree hnew
    refine ⟨h', _, true, free', _, e1, inv, e2, e3, by simp, ?_, ?_⟩
    · rw [e4, specInsert, erase_new hnew]
    · simpa using mem_new hnew
  · by_cases h1 : h.state (h.bucket hash (key x)) = 1
    · -- home bucket
      rw [if_pos h1]
      rw [if_neg (by simpa using h1)] at hfind
      rw [hfind]
      simp only
      rcases hres with ⟨rfl, hnew⟩ | ⟨hm, v, hv, hk⟩
      · rw [if_neg (by simp)]
        obtain ⟨G1, ms, G2, e⟩ := i.home_split hused h1
        obtain ⟨h', f, free', gs', e1, inv, e2, e3, e4, e5⟩ := chain_insert_spec ok i x _ e rfl hs hnew
        refine ⟨h', f, true, free', gs', e1, inv, e2, e3, e4, ?_, ?_⟩
        · rw [specInsert, erase_new hnew]; exact e5
        · simpa using mem_new hnew
      · have hne : it ≠ h.U := by
          intro e; rw [e] at hm; exact (List.nodup_cons.1 i.r.ndU).1 hm
        rw [if_pos hne, hv]
        obtain ⟨inv, hp⟩ := overwrite_spec ok i x it hm v hv hk
        refine ⟨_, it, false, free, gs, rfl, inv, rfl, by simp, hm, hp, ?_⟩
        constructor
        · intro h; cases h
        · intro hall
          have := hall v (List.mem_filterMap.2 ⟨it, hm, hv⟩)
          rw [hk] at this; cases this
    · have h2 : h.state (h.bucket hash (key x)) = 2 := by tauto
      rw [if_neg h1, if_pos h2]
      rw [if_pos (by simpa using h1)] at hfind
      injection hfind with hfind
      have hnew : ∀ n ∈ used gs, ∀ v, h.val n = some v → keq (key x) (key v) = false := by
        rcases hres with ⟨_, h'⟩ | ⟨h', _⟩
        · exact h'
        · exfalso; rw [← hfind] at h'; exact (List.nodup_cons.1 i.r.ndU).1 h'
      obtain ⟨v, hv⟩ := i.used_val _ hused
      obtain ⟨h1', h2', free', gs', e1, e2, inv, hb', hc', hcont, _⟩ := relocate_spec i _ hused h2 hs v hv
      rw [hv]; simp only
      rw [e1]; simp only
      rw [e2]; simp only
      have hbk : h2'.bucket hash (key x) = h.bucket hash (key x) := by unfold Hdr.bucket; rw [hc']
      have hnew' : ∀ n ∈ used gs', ∀ v, h2'.val n = some v → keq (key x) (key v) = false := by
        intro n hn w hw
        have : w ∈ (used gs').filterMap h2'.val := List.mem_filterMap.2 ⟨n, hn, hw⟩
        rw [hcont] at this
        exact mem_new hnew w this
      obtain ⟨h', free'', f1, inv', f2, f3, f4⟩ := placeHome_spec ok inv x (by rw [hbk]; exact hb') hnew'
      rw [hbk] at f1 f3 f4 inv'
      refine ⟨h', _, true, free'', _, f1, inv', by rw [f2, hc'], f3, by simp, ?_, ?_⟩
      · rw [f4, hcont, specInsert, erase_new hnew]
      · simpa using mem_new hnew

end Verif.ClosedHash
