import Verif.Forest.Walk

namespace Verif.Forest
open Verif.Ring Forest

variable {α : Type}

theorem pre_rev (S : Forest Nat) : S.rev.pre.Perm S.pre := by
  induction S with
  | nil => simp [rev]
  | cons n k r _ ih =>
    simp only [rev, pre_append, pre_cons, pre_nil, List.append_nil]
    refine (ih.append_right _).trans ?_
    have := List.perm_append_comm (l₁ := r.pre) (l₂ := n :: k.pre)
    simpa using this

/-- what a reversal in progress looks like: `P` has been reversed, `Q` is still to be done; `last` is the trailing edge of `par` -/
structure RevInv (h : Heap α) (b0 : Nat) (par : Nat) (rest : List Pos) (P Q : Forest Nat) : Prop where
  done : Seg h (P.word ++ (par, false) :: rest)
  todo : Seg h Q.word
  last : ∀ QA m, Q.word = QA ++ [(m, false)] → h.nxt (m, false) = par
  wp : h.prv (par, true) = b0

theorem reverse_loop {b0 par : Nat} {rest : List Pos} (Q : Forest Nat) : ∀ (P : Forest Nat) (h : Heap α) (fuel : Nat),
    RevInv h b0 par rest P Q → ((append Q P).pre).Nodup → (P.word ++ (par, false) :: rest).Nodup → b0 ∉ Q.pre → par ∉ Q.pre → par ∉ P.pre →
    (∀ p ∈ rest, p.1 ∉ Q.pre) →
    Q.card ≤ fuel →
    ∃ h', Heap.reverseAppend (par, false) fuel h (firstOf Q.word (par, false)) (firstOf P.word (par, false)) =
        some (h', firstOf (append Q.rev P).word (par, false)) ∧
      RevInv h' b0 par rest (append Q.rev P) .nil ∧ h'.val = h.val ∧
      (∀ p : Pos, (p.1 ∉ Q.pre ∨ p.2 = true) → h'.nxt p = h.nxt p) ∧
      (∀ p : Pos, p ≠ firstOf P.word (par, false) → (p.1 ∉ Q.pre ∨ p.2 = false) → h'.prv p = h.prv p) := by
  induction Q with
  | nil =>
    intro P h fuel inv nd nd2 hb hp hpP hrest hf
    refine ⟨h, ?_, inv, rfl, fun _ _ => rfl, fun _ _ _ => rfl⟩
    cases fuel <;> simp [Heap.reverseAppend, firstOf, rev, append]
  | cons n k Q _ ih =>
    intro P h fuel inv nd nd2 hb hp hpP hrest hf
    simp only [card] at hf
    obtain ⟨fuel, rfl⟩ : ∃ f, fuel = f + 1 := ⟨fuel - 1, by omega⟩
    simp only [pre_cons, List.mem_cons, List.mem_append, not_or] at hb hp
    have ndw := word_nodup nd
    have hnd := nd
    simp only [append, pre_cons, pre_append, List.nodup_cons, List.mem_append, not_or] at hnd
    obtain ⟨⟨m1, m2, m3⟩, hnd⟩ := hnd
    rw [List.nodup_append] at hnd
    obtain ⟨m4, m5, m6⟩ := hnd
    rw [List.nodup_append] at m5
    obtain ⟨m5, m7, m8⟩ := m5
    obtain ⟨B, eB⟩ := firstOf_split P.word (par, false) rest
    have htodo := inv.todo
    rw [word_cons, show (n, true) :: (k.word ++ (n, false) :: Q.word) = ((n, true) :: k.word) ++ (n, false) :: Q.word by simp] at htodo
    -- the next tree
    have hnext : h.childInc (n, true) = firstOf Q.word (par, false) := by
      simp only [Heap.childInc, pivot, Bool.not_true, Heap.inc]
      cases Q with
      | nil =>
        have h1 : h.nxt (n, false) = par := inv.last ((n, true) :: k.word) n (by simp)
        simp [h1, inv.wp, hb.1, firstOf]
      | cons m k' r' =>
        have := seg_pair (A := (n, true) :: k.word) (p := (n, false)) (q := (m, true)) (B := k'.word ++ (m, false) :: r'.word) htodo
        simp [this.1, this.2, firstOf]
    -- the link that is written
    have hres : firstOf P.word (par, false) ≠ ((par, true) : Pos) := by
      cases P with
      | nil => simp [firstOf]
      | cons m k' r' => simp at hpP; simp [firstOf]; tauto
    have hmemres : firstOf P.word (par, false) ∈ P.word ++ (par, false) :: rest := by rw [eB]; simp
    have hresQ : ∀ q : Pos, q.1 ∈ (Forest.cons n k Q).pre → q ≠ firstOf P.word (par, false) := by
      rintro q hq rfl
      rw [List.mem_append, List.mem_cons, mem_word] at hmemres
      rcases hmemres with hm | hm | hm
      · simp at hq
        rcases hq with e | hq | hq
        · exact m3 (by rw [← e]; exact hm)
        · exact m6 _ hq _ (List.mem_append_right _ hm) rfl
        · exact m8 _ hq _ hm rfl
      · rw [hm] at hq
        simp at hq
        rcases hq with e | hq | hq
        · exact hp.1 e
        · exact hp.2.1 hq
        · exact hp.2.2 hq
      · exact hrest _ hm hq
    set res := firstOf P.word (par, false) with hresdef
    have inv' : RevInv (h.setNext (n, false) res) b0 par rest (.cons n k P) Q := by
      refine ⟨?_, ?_, ?_, ?_⟩
      · have e1 : (Forest.cons n k P).word ++ (par, false) :: rest = ((n, true) :: k.word) ++ (n, false) :: res :: B := by
          rw [word_cons]
          simp only [List.cons_append, List.append_assoc]
          rw [eB]
        rw [e1]
        have h1 : Seg h (((n, true) :: k.word) ++ [(n, false)]) := ((seg_mid _ _ _).1 htodo).1
        have h2 : Seg h (res :: B) := by rw [← eB]; exact inv.done
        refine seg_join h1 h2 ?_
        rw [← e1, word_cons]
        have nn : (Forest.cons n k .nil).word.Nodup := word_nodup (by simp only [pre_cons, pre_nil, List.append_nil, List.nodup_cons]; exact ⟨m1, m4⟩)
        have : ((Forest.cons n k .nil).word ++ (P.word ++ (par, false) :: rest)).Nodup := by
          rw [List.nodup_append]
          refine ⟨nn, nd2, ?_⟩
          rintro a ha b hb' rfl
          have ha' := mem_word.1 ha
          simp at ha'
          rw [List.mem_append, List.mem_cons, mem_word] at hb'
          rcases hb' with hb' | rfl | hb'
          · rcases ha' with ha' | ha'
            · exact m3 (by rw [← ha']; exact hb')
            · exact m6 _ ha' _ (List.mem_append_right _ hb') rfl
          · rcases ha' with ha' | ha'
            · exact hp.1 ha'
            · exact hp.2.1 ha'
          · refine hrest _ hb' ?_
            simp; tauto
        simpa using this
      · apply seg_frame (seg_right [(n, false)] _ (seg_right ((n, true) :: k.word) _ (by simpa using htodo)))
        · rw [mem_word]; exact m2
        · intro hh
          have := mem_word.1 hh
          exact hresQ res (by simp [this]) rfl
      · intro QA m hQ
        have hm : m ∈ Q.pre := mem_word.1 (by rw [hQ]; simp : (m, false) ∈ Q.word)
        simp only [Heap.setNext]
        rw [upd_ne]
        · refine inv.last ((n, true) :: (k.word ++ (n, false) :: QA)) m ?_
          rw [word_cons, hQ]; simp
        · rintro h; cases h; exact m2 hm
      · simp only [Heap.setNext]
        rw [upd_ne _ _ _ _ (Ne.symm hres)]; exact inv.wp
    obtain ⟨h', g1, g2, g3, g4, g5⟩ := ih (.cons n k P) (h.setNext (n, false) res) fuel inv'
      (by
        have hp' : ((append Q (.cons n k P)).pre).Perm ((append (.cons n k Q) P).pre) := by
          simp only [append, pre_append, pre_cons]
          have := List.perm_append_comm (l₁ := Q.pre) (l₂ := n :: k.pre)
          have := this.append_right P.pre
          simpa using this
        exact hp'.nodup_iff.2 nd)
      (by
        have nn : (Forest.cons n k .nil).word.Nodup := word_nodup (by simp only [pre_cons, pre_nil, List.append_nil, List.nodup_cons]; exact ⟨m1, m4⟩)
        have : ((Forest.cons n k .nil).word ++ (P.word ++ (par, false) :: rest)).Nodup := by
          rw [List.nodup_append]
          refine ⟨nn, nd2, ?_⟩
          rintro a ha b hb' rfl
          have ha' := mem_word.1 ha
          simp at ha'
          rw [List.mem_append, List.mem_cons, mem_word] at hb'
          rcases hb' with hb' | rfl | hb'
          · rcases ha' with ha' | ha'
            · exact m3 (by rw [← ha']; exact hb')
            · exact m6 _ ha' _ (List.mem_append_right _ hb') rfl
          · rcases ha' with ha' | ha'
            · exact hp.1 ha'
            · exact hp.2.1 ha'
          · refine hrest _ hb' ?_
            simp; tauto
        simpa using this)
      hb.2.2 hp.2.2 (by simp only [pre_cons, List.mem_cons, List.mem_append, not_or]; exact ⟨hp.1, hp.2.1, hpP⟩)
      (by intro p hp' hq; exact hrest p hp' (by simp [hq])) (by omega)
    refine ⟨h', ?_, ?_, ?_, ?_, ?_⟩
    · have hne : ((n, true) : Pos) ≠ (par, false) := by simp
      rw [word_cons, firstOf_cons, Heap.reverseAppend, if_neg hne, hnext]
      simp only [Heap.childSetNext, pivot, Bool.not_true]
      have e1 : firstOf (Forest.cons n k P).word (par, false) = (n, true) := rfl
      rw [e1] at g1
      have e2 : append (Forest.cons n k Q).rev P = append Q.rev (.cons n k P) := by
        simp [rev, append_assoc, append]
      rw [e2]; exact g1
    · have e2 : append (Forest.cons n k Q).rev P = append Q.rev (.cons n k P) := by
        simp [rev, append_assoc, append]
      rw [e2]; exact g2
    · rw [g3]; rfl
    · intro p hp'
      rw [g4 p (by rcases hp' with hp' | hp'
                   · left; intro h; exact hp' (by simp [h])
                   · exact Or.inr hp')]
      simp only [Heap.setNext]
      rw [upd_ne]
      rintro rfl
      rcases hp' with hp' | hp'
      · exact hp' (by simp)
      · simp at hp'
    · intro p hpr hp'
      have e1 : firstOf (Forest.cons n k P).word (par, false) = (n, true) := rfl
      rw [e1] at g5
      rw [g5 p (by rintro rfl; rcases hp' with hp' | hp'
                   · exact hp' (by simp)
                   · simp at hp') (by rcases hp' with hp' | hp'
                                      · left; intro h; exact hp' (by simp [h])
                                      · exact Or.inr hp')]
      simp only [Heap.setNext]
      exact upd_ne _ _ _ _ hpr

/-- reversing all the trees up to the end of their siblings -/
theorem Rep.reverse_end {s : St α} {A : AS α} (r : Rep s A) {t : Nat} (ht : t ∈ A.tails) {c : Ctx Nat} {S : Forest Nat}
    (hF : A.F t = plug c S) {fuel : Nat} (hfuel : S.card ≤ fuel) :
    ∃ s', s.reverse fuel (at_ t c S) (at_ t c .nil) = some s' ∧ Rep s' { A with F := upd A.F t (plug c S.rev) } := by
  have v := r.valid t ht
  rw [hF] at v
  have nd := v.nd
  have hlast : at_ t c .nil = (c.parent t, false) := by rw [at_, word_nil, List.nil_append, rw_first]
  obtain ⟨rest, er⟩ := rest_split t c .nil
  rw [word_nil, List.nil_append, hlast] at er
  obtain ⟨A0, eA⟩ := lead_split t c
  set par := c.parent t with hpar
  have hfull : full t (plug c S) = (A0 ++ [before t c]) ++ (S.word ++ (par, false) :: rest) := by rw [full_plug, eA, er]
  have hseg := v.seg
  rw [hfull] at hseg
  have hnf := full_nodup nd
  rw [hfull] at hnf
  have hnf2 := (List.nodup_append.1 hnf)
  have hnf3 := (List.nodup_append.1 hnf2.2.1)
  have hparmem : par ∈ t :: (plug c .nil).pre := by
    have := at_mem t c .nil
    rw [hlast] at this; exact this
  have nd' : (t :: (plug c (append S .nil)).pre).Nodup := by rw [append_nil]; exact nd
  have hS0 := S_not_rest nd'
  have hparS : par ∉ S.pre := fun h => hS0 _ h hparmem
  have hdecpar : s.heap.prv (par, true) ∉ S.pre := by
    -- the element before the parent's leading edge lies in the leading part
    intro hin
    by_cases hpt : par = t
    · rw [hpt, v.wp] at hin
      exact (List.nodup_cons.1 nd).1 (by rw [(pre_plug c S).mem_iff]; simp [hin])
    · have hm : (par, true) ∈ c.lw := by
        have h1 : (par, true) ∈ full t (plug c S) := by
          rw [full_mem]
          rw [mem_plug] at hparmem ⊢; simp at hparmem; tauto
        rw [full_plug] at h1
        simp only [List.cons_append, List.mem_cons, List.mem_append, Prod.mk.injEq, mem_word, hpt, false_and, false_or, hparS,
          List.mem_singleton, or_false] at h1
        rcases h1 with h1 | h1
        · exact h1
        · exfalso
          have h2 : (par, true) ∈ rest := by
            have : (par, true) ∈ c.rw ++ [(t, false)] := by simp; simpa using h1
            rw [er] at this; simpa using this
          obtain ⟨X1, X2, e⟩ := List.append_of_mem h2
          have hwd : (plug c S).word ++ [(t, false)] = c.lw ++ (S.word ++ (par, false) :: (X1 ++ (par, true) :: X2)) := by
            rw [word_plug, ← e, ← er]; simp
          have hX2 : ∃ X3, X2 = X3 ++ [(t, false)] := by
            rcases List.eq_nil_or_concat X2 with rfl | ⟨X3, z, hz⟩
            · have : (plug c S).word ++ [(t, false)] = (c.lw ++ (S.word ++ (par, false) :: X1)) ++ [(par, true)] := by rw [hwd]; simp
              have := (List.append_inj' this rfl).2
              simp at this
            · rw [List.concat_eq_append] at hz
              have : (plug c S).word ++ [(t, false)] = (c.lw ++ (S.word ++ (par, false) :: (X1 ++ (par, true) :: X3))) ++ [z] := by rw [hwd, hz]; simp
              have := (List.append_inj' this rfl).2
              exact ⟨X3, by rw [hz, this]⟩
          obtain ⟨X3, hX3⟩ := hX2
          have hwd2 : (plug c S).word = (c.lw ++ (S.word ++ (par, false) :: X1)) ++ (par, true) :: X3 := by
            have : (plug c S).word ++ [(t, false)] = ((c.lw ++ (S.word ++ (par, false) :: X1)) ++ (par, true) :: X3) ++ [(t, false)] := by rw [hwd, hX3]; simp
            exact (List.append_inj' this rfl).1
          exact lead_first (List.nodup_cons.1 nd).2 hwd2 (by simp)
      obtain ⟨X1, X2, e⟩ := List.append_of_mem hm
      obtain ⟨X3, z, e2⟩ : ∃ X3 z, (t, true) :: X1 = X3 ++ [z] := by
        rcases List.eq_nil_or_concat ((t, true) :: X1) with h | ⟨X3, z, h⟩
        · simp at h
        · exact ⟨X3, z, by rw [h, List.concat_eq_append]⟩
      have hfull2 : full t (plug c S) = X3 ++ z :: (par, true) :: (X2 ++ (S.word ++ (c.rw ++ [(t, false)]))) := by
        rw [full_plug, e, ← List.cons_append, ← List.cons_append, e2]; simp
      have hz := v.seg
      rw [hfull2] at hz
      have hz := (seg_pair hz).2
      rw [hz] at hin
      have hzl : z ∈ (t, true) :: c.lw := by
        rw [e, ← List.cons_append, e2]; simp
      have hz3 : (z.1, z.2) ∈ S.word := mem_word.2 hin
      rw [eA] at hzl
      exact hnf2.2.2 z hzl z (by simp; exact Or.inl hz3) rfl
  have hrestS : ∀ p ∈ rest, p.1 ∉ S.pre := by
    intro p hp h
    have hpm : p ∈ (par, false) :: rest := by simp [hp]
    rw [← er] at hpm
    have : p.1 ∈ t :: (plug c .nil).pre := by
      rw [← full_mem, full_plug]; simp only [word_nil, List.nil_append]; exact List.mem_append_right _ hpm
    exact hS0 _ h this
  have inv : RevInv s.heap (s.heap.prv (par, true)) par rest .nil S := by
    refine ⟨?_, seg_left _ _ (seg_right _ _ hseg), ?_, rfl⟩
    · simpa using seg_right _ _ (seg_right _ _ hseg)
    · intro QA m hQ
      rw [hQ] at hseg
      exact (seg_pair (A := (A0 ++ [before t c]) ++ QA) (p := (m, false)) (q := (par, false)) (B := rest) (by simpa using hseg)).1
  obtain ⟨h', g1, g2, g3, g4, g5⟩ := reverse_loop S .nil s.heap fuel inv
    (by rw [append_nil]; exact (List.nodup_append.1 (List.nodup_cons.1 (plug_nodup.1 nd)).2).2.1)
    (by simpa using (List.nodup_append.1 hnf2.2.1).2.1) hdecpar hparS (by simp) hrestS hfuel
  rw [append_nil] at g1 g2
  have hprior : s.heap.dec (at_ t c S) = before t c := v.around.1
  have hfirst : at_ t c S = firstOf S.word (par, false) := by
    rw [at_]
    refine firstOf_eq (Y := []) (Y' := rest) ?_
    rw [← er]; simp
  have hfirst' : at_ t c S.rev = firstOf S.rev.word (par, false) := by
    rw [at_]
    refine firstOf_eq (Y := []) (Y' := rest) ?_
    rw [← er]; simp
  have e0 : firstOf (Forest.nil : Forest Nat).word (par, false) = ((par, false) : Pos) := rfl
  rw [e0] at g1 g5
  have hres : s.reverse fuel (at_ t c S) (at_ t c .nil) = some ⟨h'.setNext (before t c) (at_ t c S.rev), s.size⟩ := by
    unfold St.reverse
    simp only [hprior, hlast]
    rw [hfirst, g1, hfirst']
  have hperm : (plug c S).pre.Perm (plug c S.rev).pre :=
    (pre_plug c S).trans ((((pre_rev S).symm).append_left _).trans (pre_plug c S.rev).symm)
  have nd2 : (t :: (plug c S.rev).pre).Nodup := (hperm.cons t).nodup_iff.1 nd
  have hleadS : ∀ p ∈ A0 ++ [before t c], p.1 ∉ S.pre := by
    intro p hp h
    have hpw : p ∈ S.word := mem_word.2 h
    exact hnf2.2.2 p hp p (by simp [hpw]) rfl
  have hleadpar : ((par, false) : Pos) ∉ A0 ++ [before t c] := by
    intro h; exact hnf2.2.2 _ h _ (by simp) rfl
  have seg1 : Seg h' (A0 ++ [before t c]) := by
    apply seg_congr (seg_left _ _ hseg)
    intro p hp
    exact ⟨g4 p (Or.inl (hleadS p hp)), g5 p (by rintro rfl; exact hleadpar hp) (Or.inl (hleadS p hp))⟩
  obtain ⟨B, eB⟩ := firstOf_split S.rev.word (par, false) rest
  rw [← hfirst'] at eB
  have hfull' : full t (plug c S.rev) = A0 ++ before t c :: at_ t c S.rev :: B := by
    rw [full_plug, eA, er, eB]; simp
  have seg2 : Seg h' (at_ t c S.rev :: B) := by rw [← eB]; exact g2.done
  have v' : Valid (h'.setNext (before t c) (at_ t c S.rev)) t (plug c S.rev) := by
    refine ⟨?_, ?_, ?_, nd2⟩
    · rw [hfull']
      exact seg_join seg1 seg2 (by rw [← hfull']; exact full_nodup nd2)
    · simp only [Heap.setNext]
      rw [upd_ne, g4, v.wn]
      · left; exact fun h => (List.nodup_cons.1 nd).1 (by rw [(pre_plug c S).mem_iff]; simp [h])
      · intro hh
        have h1 : (t, false) ∈ (par, false) :: rest := by rw [← er]; simp
        exact hnf2.2.2 (before t c) (by simp) (t, false) (by simp at h1 ⊢; tauto) hh.symm
    · simp only [Heap.setNext]
      have htS : t ∉ S.pre := fun h => (List.nodup_cons.1 nd).1 (by rw [(pre_plug c S).mem_iff]; simp [h])
      rw [upd_ne, g5, v.wp]
      · simp
      · exact Or.inl htS
      · intro hh
        have nf := full_nodup nd2
        have h1 : (t, true) ∈ A0 ++ [before t c] := by rw [← eA]; simp
        rw [hfull', show A0 ++ before t c :: at_ t c S.rev :: B = (A0 ++ [before t c]) ++ (at_ t c S.rev :: B) by simp, List.nodup_append] at nf
        exact nf.2.2 _ h1 _ (by simp) hh
  refine ⟨_, hres, ?_⟩
  refine r.permute ht (by rw [hF]; exact hperm) (by show h'.val = _; rw [g3]) rfl v' ?_
  intro u hu hut
  have d := r.disj t ht u hu (Ne.symm hut)
  rw [hF] at d
  have hSmem : ∀ x ∈ S.pre, x ∉ u :: (A.F u).pre := fun x hx => d x (by rw [mem_plug]; simp [hx])
  have hparu : par ∉ u :: (A.F u).pre := d par (by rw [mem_plug] at hparmem ⊢; simp at hparmem; tauto)
  have hu1 : Valid h' u (A.F u) := by
    apply (r.valid u hu).congr
    intro p hp
    have hpS : p.1 ∉ S.pre := fun h => hSmem _ h hp
    exact ⟨g4 p (Or.inl hpS), g5 p (by rintro rfl; exact hparu hp) (Or.inl hpS)⟩
  refine hu1.frame _ _ (d _ (before_mem t c S)) (d _ ?_)
  have := at_mem t c S.rev
  rw [mem_plug] at this ⊢
  rw [(pre_rev S).mem_iff] at this
  exact this

theorem setNext_id {h : Heap α} {p q : Pos} (h1 : h.nxt p = q.1) (h2 : h.prv q = p.1) : h.setNext p q = h := by
  cases h with
  | mk nxt prv val =>
    simp only [Heap.setNext, Heap.mk.injEq, and_true] at h1 h2 ⊢
    constructor
    · funext x; by_cases hx : x = p
      · rw [hx, upd_same, h1]
      · rw [upd_ne _ _ _ _ hx]
    · funext x; by_cases hx : x = q
      · rw [hx, upd_same, h2]
      · rw [upd_ne _ _ _ _ hx]

/-- reversing at most one tree changes nothing -/
theorem Rep.reverse_short {s : St α} {A : AS α} (r : Rep s A) {t : Nat} (ht : t ∈ A.tails) {c : Ctx Nat} {S R : Forest Nat}
    (hF : A.F t = plug c (append S R)) (hS : S.roots.length ≤ 1) {fuel : Nat} (hfuel : 1 ≤ fuel) :
    s.reverse fuel (at_ t c (append S R)) (at_ t c R) = some s := by
  have v := r.valid t ht
  rw [hF] at v
  have hprior : s.heap.dec (at_ t c (append S R)) = before t c := v.around.1
  obtain ⟨A0, eA⟩ := lead_split t c
  obtain ⟨B, eB⟩ := rest_split t c (append S R)
  have hseg := v.seg
  rw [full_plug, eA, eB] at hseg
  have hl1 := seg_pair (A := A0) (p := before t c) (q := at_ t c (append S R)) (B := B) (by simpa using hseg)
  have hid : s.heap.setNext (before t c) (at_ t c (append S R)) = s.heap := setNext_id hl1.1 hl1.2
  cases S with
  | nil =>
    simp only [append] at hprior hid ⊢
    have : s.heap.reverseAppend (at_ t c R) fuel (at_ t c R) (at_ t c R) = some (s.heap, at_ t c R) := by
      cases fuel <;> simp [Heap.reverseAppend]
    unfold St.reverse
    simp only [hprior, this, hid]
  | cons n k r' =>
    cases r' with
    | cons => simp [roots] at hS
    | nil =>
      have ha : at_ t c (append (.cons n k .nil) R) = (n, true) := by simp [append, at_]
      have hn := (v : Valid s.heap t (plug c (.cons n k R))).node
      obtain ⟨fuel, rfl⟩ : ∃ f, fuel = f + 1 := ⟨fuel - 1, by omega⟩
      rw [ha] at hid hprior ⊢
      have hne : ((n, true) : Pos) ≠ at_ t c R := by
        intro h
        have := at_mem t c R
        rw [← h] at this
        exact S_not_rest v.nd n (by simp) this
      obtain ⟨B2, eB2⟩ := rest_split t c R
      have hl2 : s.heap.nxt (n, false) = (at_ t c R).1 ∧ s.heap.prv (at_ t c R) = n := by
        refine seg_pair (A := (t, true) :: c.lw ++ (n, true) :: k.word) (p := (n, false)) (q := at_ t c R) (B := B2) ?_
        have := v.seg
        rw [full_plug] at this
        rw [← eB2]
        simpa [append] using this
      have hid2 : s.heap.setNext (n, false) (at_ t c R) = s.heap := setNext_id hl2.1 hl2.2
      have hci : s.heap.childInc (n, true) = at_ t c R := hn.2.2.2
      have : s.heap.reverseAppend (at_ t c R) (fuel + 1) (n, true) (at_ t c R) = some (s.heap, (n, true)) := by
        rw [Heap.reverseAppend, if_neg hne, hci]
        simp only [Heap.childSetNext, pivot, Bool.not_true, hid2]
        cases fuel <;> simp [Heap.reverseAppend]
      unfold St.reverse
      simp only [hprior, this, hid]

end Verif.Forest
