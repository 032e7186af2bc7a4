import Verif.Forest.Rep

namespace Verif.Forest
open Verif.Ring Forest

variable {α : Type}

theorem at_append {t : Nat} {c : Ctx Nat} {S R : Forest Nat} {n : Nat} {SB : List Pos} (e : S.word = (n, true) :: SB) :
    at_ t c (append S R) = (n, true) := by
  simp [at_, e]

theorem Valid.back {h : Heap α} {t : Nat} {c : Ctx Nat} {S R : Forest Nat} {m : Nat} {SA : List Pos}
    (v : Valid h t (plug c (append S R))) (e : S.word = SA ++ [(m, false)]) : h.dec (at_ t c R) = (m, false) := by
  obtain ⟨B, eB⟩ := rest_split t c R
  refine (v.step (A := (t, true) :: c.lw ++ SA) (B := B) (p := (m, false)) (q := at_ t c R) ?_).2
  rw [full_plug, word_append, List.append_assoc, eB, e]; simp

/-- what `splice` does to the links, given the place of the trees and the place of the target -/
theorem spliceN_heap {s : St α} {t u : Nat} {c : Ctx Nat} {S R : Forest Nat} {pos q : Pos} {n m : Nat} {SA SB : List Pos} {count : Nat}
    (v : Valid s.heap u (plug c (append S R))) (e1 : S.word = (n, true) :: SB) (e2 : S.word = SA ++ [(m, false)])
    (hne : (n, true) ≠ at_ u c R) (hpos : (n, true) ≠ pos)
    (hd : (s.heap.setNext (before u c) (at_ u c R)).dec pos = q) :
    (s.spliceN t pos u (at_ u c (append S R)) (at_ u c R) count).1.heap =
        ((s.heap.setNext (before u c) (at_ u c R)).setNext q (n, true)).setNext (m, false) pos ∧
      (s.spliceN t pos u (at_ u c (append S R)) (at_ u c R) count).2 = (n, true) ∧
      (s.spliceN t pos u (at_ u c (append S R)) (at_ u c R) count).1.size =
        (if u ≠ t then
        if count ≠ 0 then
          let z := if s.sizeValid t then upd s.size t (s.size t + count) else s.size
          if s.sizeValid u then upd z u (z u - count) else z
        else upd (upd s.size t 0) u 0
      else s.size) := by
  have ha := at_append (t := u) (c := c) (R := R) e1
  have h0 : s.heap.dec (n, true) = before u c := by rw [← ha]; exact v.around.1
  have hcd : s.heap.childSetNext (s.heap.childDec (n, true)) (at_ u c R) = s.heap.setNext (before u c) (at_ u c R) := by
    unfold Heap.childSetNext Heap.childDec
    rw [h0]; simp [pivot]
  unfold St.spliceN
  rw [ha, if_neg (by rintro (h | h); exact hne h; exact hpos h)]
  simp only [hcd, hd, v.back e2]
  exact ⟨trivial, trivial, trivial⟩

theorem mem_plug_append {t : Nat} {c : Ctx Nat} {S R : Forest Nat} (x : Nat) :
    x ∈ t :: (plug c (append S R)).pre ↔ x ∈ S.pre ∨ x ∈ t :: (plug c R).pre := by
  rw [mem_plug, mem_plug]; simp; tauto

theorem pre_plug_append {c : Ctx Nat} {S R : Forest Nat} (x : Nat) :
    x ∈ (plug c (append S R)).pre ↔ x ∈ S.pre ∨ x ∈ (plug c R).pre := by
  rw [(pre_plug _ _).mem_iff, (pre_plug _ _).mem_iff]; simp; tauto

theorem S_not_rest {t : Nat} {c : Ctx Nat} {S R : Forest Nat} (nd : (t :: (plug c (append S R)).pre).Nodup) :
    ∀ n ∈ S.pre, n ∉ t :: (plug c R).pre := by
  intro n hn hm
  rw [plug_nodup, pre_append] at nd
  rw [mem_plug] at hm
  rw [List.nodup_cons] at nd
  obtain ⟨h1, h2⟩ := nd
  rw [List.nodup_append] at h2
  obtain ⟨h3, h4, h5⟩ := h2
  rw [List.nodup_append] at h4
  rcases hm with rfl | hm | hm
  · exact h1 (by simp [hn])
  · exact h5 n hm n (by simp [hn]) rfl
  · exact h4.2.2 n hn n hm rfl

theorem Rep.splice_other {s : St α} {A : AS α} (r : Rep s A) {t u : Nat} (ht : t ∈ A.tails) (hu : u ∈ A.tails) (hut : u ≠ t)
    {c c' : Ctx Nat} {S R R' : Forest Nat} (hFu : A.F u = plug c (append S R)) (hFt : A.F t = plug c' R') (hS : S ≠ .nil)
    {count : Nat} (hcount : count = 0 ∨ count = S.card) :
    Rep (s.spliceN t (at_ t c' R') u (at_ u c (append S R)) (at_ u c R) count).1
        { A with F := upd (upd A.F u (plug c R)) t (plug c' (append S R')) } ∧
      (s.spliceN t (at_ t c' R') u (at_ u c (append S R)) (at_ u c R) count).2 = at_ u c (append S R) := by
  have vu := r.valid u hu
  have vt := r.valid t ht
  have zu := r.size u hu
  have zt := r.size t ht
  have dj := r.disj u hu t ht hut
  rw [hFu] at vu zu dj
  rw [hFt] at vt zt dj
  obtain ⟨n, m, ⟨SB, e1⟩, ⟨SA, e2⟩, _⟩ := word_ends hS
  have hSr := S_not_rest vu.nd
  have hnS : n ∈ S.pre := mem_word.1 (by rw [e1]; simp : (n, true) ∈ S.word)
  have hmS : m ∈ S.pre := mem_word.1 (by rw [e2]; simp : (m, false) ∈ S.word)
  have hSu : ∀ x ∈ S.pre, x ∈ u :: (plug c (append S R)).pre := by
    intro x hx; rw [mem_plug]; simp [hx]
  have hRu : ∀ x, x ∈ u :: (plug c R).pre → x ∈ u :: (plug c (append S R)).pre :=
    fun x hx => (mem_plug_append x).2 (Or.inr hx)
  have hne : (n, true) ≠ at_ u c R := by
    intro h; exact hSr n hnS (by have := at_mem u c R; rwa [← h] at this)
  have hpos : (n, true) ≠ at_ t c' R' := by
    intro h; exact dj n (hSu n hnS) (by have := at_mem t c' R'; rwa [← h] at this)
  obtain ⟨cv, cs⟩ := vu.cut
  have hbu : (before u c).1 ∈ u :: (plug c R).pre := before_mem u c R
  have hau : (at_ u c R).1 ∈ u :: (plug c R).pre := at_mem u c R
  have vt1 := vt.frame (before u c) (at_ u c R) (dj _ (hRu _ hbu)) (dj _ (hRu _ hau))
  obtain ⟨q1, q2, q3⟩ := spliceN_heap (t := t) (count := count) vu e1 e2 hne hpos vt1.around.1
  have nd' : (t :: (plug c' (append S R')).pre).Nodup := by
    have h1 := vt.nd
    rw [plug_nodup] at h1 ⊢
    have hp : (t :: (c'.ids ++ (append S R').pre)).Perm (S.pre ++ (t :: (c'.ids ++ R'.pre))) := by
      rw [pre_append]
      refine List.Perm.trans ?_ (List.perm_middle (l₁ := S.pre)).symm
      refine List.Perm.cons _ ?_
      rw [← List.append_assoc, ← List.append_assoc]
      exact List.perm_append_comm.append_right _
    rw [hp.nodup_iff, List.nodup_append]
    refine ⟨?_, h1, ?_⟩
    · have h2 := vu.nd
      rw [plug_nodup, pre_append] at h2
      exact (h2.sublist ((List.sublist_append_left S.pre R.pre).trans ((List.sublist_append_right c.ids _).trans (List.sublist_cons_self _ _))))
    · rintro a ha b hb rfl
      exact dj a (hSu a ha) (by rw [mem_plug]; simpa using hb)
  have vt2 := vt1.paste cs e1 e2 nd'
  have hbt : (before t c').1 ∉ u :: (plug c R).pre := fun h => dj _ (hRu _ h) (before_mem t c' R')
  have hat : (at_ t c' R').1 ∉ u :: (plug c R).pre := fun h => dj _ (hRu _ h) (at_mem t c' R')
  have vu2 := (cv.frame (before t c') (n, true) hbt (hSr n hnS)).frame (m, false) (at_ t c' R') (hSr m hmS) hat
  have hmemt : ∀ x, x ∈ t :: (plug c' (append S R')).pre ↔ x ∈ S.pre ∨ x ∈ t :: (plug c' R').pre := mem_plug_append
  have Ft : upd (upd A.F u (plug c R)) t (plug c' (append S R')) t = plug c' (append S R') := upd_same _ _ _
  have Fu : upd (upd A.F u (plug c R)) t (plug c' (append S R')) u = plug c R := by rw [upd_ne _ _ _ _ hut, upd_same]
  have Fw : ∀ w, w ≠ u → w ≠ t → upd (upd A.F u (plug c R)) t (plug c' (append S R')) w = A.F w := by
    intro w h1 h2; rw [upd_ne _ _ _ _ h2, upd_ne _ _ _ _ h1]
  generalize s.spliceN t (at_ t c' R') u (at_ u c (append S R)) (at_ u c R) count = res at q1 q2 q3 ⊢
  refine ⟨⟨?_, ?_, ?_, ?_, ?_, ?_⟩, by rw [q2, at_append e1]⟩
  · intro w hw
    rw [q1]
    show Valid _ w (upd (upd A.F u (plug c R)) t (plug c' (append S R')) w)
    by_cases hwt : w = t
    · rw [hwt, Ft]; exact vt2
    by_cases hwu : w = u
    · rw [hwu, Fu]; exact vu2
    rw [Fw w hwu hwt]
    have d1 := r.disj u hu w hw (Ne.symm hwu)
    have d2 := r.disj t ht w hw (Ne.symm hwt)
    rw [hFu] at d1
    rw [hFt] at d2
    exact (((r.valid w hw).frame _ _ (d1 _ (hRu _ hbu)) (d1 _ (hRu _ hau))).frame _ _ (d2 _ (before_mem t c' R')) (d1 _ (hSu n hnS))).frame _ _
      (d1 _ (hSu m hmS)) (d2 _ (at_mem t c' R'))
  · intro w hw x hx hwx y hy
    change y ∈ w :: (upd (upd A.F u (plug c R)) t (plug c' (append S R')) w).pre at hy
    show y ∉ x :: (upd (upd A.F u (plug c R)) t (plug c' (append S R')) x).pre
    by_cases hwt : w = t
    · rw [hwt, Ft, hmemt] at hy
      rw [hwt] at hwx
      by_cases hxu : x = u
      · rw [hxu, Fu]
        rcases hy with hy | hy
        · exact hSr y hy
        · intro h; exact dj y (hRu y h) hy
      · rw [Fw x hxu (Ne.symm hwx)]
        rcases hy with hy | hy
        · exact r.disj u hu x hx (Ne.symm hxu) y (by rw [hFu]; exact hSu y hy)
        · exact r.disj t ht x hx hwx y (by rw [hFt]; exact hy)
    by_cases hwu : w = u
    · rw [hwu, Fu] at hy
      rw [hwu] at hwx
      by_cases hxt : x = t
      · rw [hxt, Ft, hmemt]
        rintro (h | h)
        · exact hSr y h hy
        · exact dj y (hRu y hy) h
      · rw [Fw x (Ne.symm hwx) hxt]
        exact r.disj u hu x hx hwx y (by rw [hFu]; exact hRu y hy)
    rw [Fw w hwu hwt] at hy
    by_cases hxt : x = t
    · rw [hxt, Ft, hmemt]
      rintro (h | h)
      · exact r.disj w hw u hu hwu y hy (by rw [hFu]; exact hSu y h)
      · exact r.disj w hw t ht hwt y hy (by rw [hFt]; exact h)
    by_cases hxu : x = u
    · rw [hxu, Fu]
      intro h
      exact r.disj w hw u hu hwu y hy (by rw [hFu]; exact hRu y h)
    rw [Fw x hxu hxt]
    exact r.disj w hw x hx hwx y hy
  · rw [q1]; exact r.vals
  · intro w hw
    show (∀ n ∈ (upd (upd A.F u (plug c R)) t (plug c' (append S R')) w).pre, ∃ v, A.V n = some v) ∧ A.V w = none
    refine ⟨?_, (r.live w hw).2⟩
    intro y hy
    by_cases hwt : w = t
    · rw [hwt, Ft, pre_plug_append] at hy
      rcases hy with hy | hy
      · exact (r.live u hu).1 y (by rw [hFu, pre_plug_append]; exact Or.inl hy)
      · exact (r.live t ht).1 y (by rw [hFt]; exact hy)
    by_cases hwu : w = u
    · rw [hwu, Fu] at hy
      exact (r.live u hu).1 y (by rw [hFu, pre_plug_append]; exact Or.inr hy)
    rw [Fw w hwu hwt] at hy
    exact (r.live w hw).1 y hy
  · intro w hw
    rw [q3, if_pos hut]
    show _ = 0 ∨ _ = (upd (upd A.F u (plug c R)) t (plug c' (append S R')) w).card
    have k1 := card_plug c (append S R)
    have k2 := card_plug c R
    have k3 := card_plug c' (append S R')
    have k4 := card_plug c' R'
    have k5 : ∀ X, (append S X).card = S.card + X.card := by intro X; simp [card_eq]
    rw [k5] at k1 k3
    by_cases hc : count = 0
    · rw [if_neg (by simp [hc])]
      by_cases hwt : w = t
      · rw [hwt, upd_ne _ _ _ _ (Ne.symm hut), upd_same]; left; rfl
      by_cases hwu : w = u
      · rw [hwu, upd_same]; left; rfl
      rw [Fw w hwu hwt, upd_ne _ _ _ _ hwu, upd_ne _ _ _ _ hwt]; exact r.size w hw
    · rw [if_pos hc]
      have hc : count = S.card := hcount.resolve_left hc
      show (if s.sizeValid u = true then upd (if s.sizeValid t = true then upd s.size t (s.size t + count) else s.size) u ((if s.sizeValid t = true then upd s.size t (s.size t + count) else s.size) u - count) else (if s.sizeValid t = true then upd s.size t (s.size t + count) else s.size)) w = 0 ∨ (if s.sizeValid u = true then upd (if s.sizeValid t = true then upd s.size t (s.size t + count) else s.size) u ((if s.sizeValid t = true then upd s.size t (s.size t + count) else s.size) u - count) else (if s.sizeValid t = true then upd s.size t (s.size t + count) else s.size)) w = _
      by_cases hwt : w = t
      · rw [hwt, Ft]
        by_cases hv : s.sizeValid t = true
        · have := sizeValid_card vt zt hv
          right
          rw [if_pos hv]
          have : (upd s.size t (s.size t + count)) t = (plug c' (append S R')).card := by rw [upd_same]; omega
          split
          · rw [upd_ne _ _ _ _ (Ne.symm hut)]; exact this
          · exact this
        · have := (sizeInvalid vt hv).1
          left
          rw [if_neg hv]
          split
          · rw [upd_ne _ _ _ _ (Ne.symm hut)]; exact this
          · exact this
      have hz : ∀ w, w ≠ t → (if s.sizeValid t = true then upd s.size t (s.size t + count) else s.size) w = s.size w := by
        intro w hwt; split
        · exact upd_ne _ _ _ _ hwt
        · rfl
      by_cases hwu : w = u
      · rw [hwu, Fu]
        by_cases hv : s.sizeValid u = true
        · have := sizeValid_card vu zu hv
          right
          rw [if_pos hv, upd_same, hz u hut]; omega
        · have := (sizeInvalid vu hv).1
          left; rw [if_neg hv, hz u hut]; exact this
      rw [Fw w hwu hwt]
      have := r.size w hw
      split
      · rw [upd_ne _ _ _ _ hwu, hz w hwt]; exact this
      · rw [hz w hwt]; exact this
  · intro y v hv
    obtain ⟨w, hw, hy⟩ := r.leak y v hv
    by_cases hwt : w = t
    · refine ⟨t, ht, ?_⟩
      show y ∈ (upd (upd A.F u (plug c R)) t (plug c' (append S R')) t).pre
      rw [Ft, pre_plug_append]
      rw [hwt, hFt] at hy
      exact Or.inr hy
    by_cases hwu : w = u
    · rw [hwu, hFu, pre_plug_append] at hy
      rcases hy with hy | hy
      · refine ⟨t, ht, ?_⟩
        show y ∈ (upd (upd A.F u (plug c R)) t (plug c' (append S R')) t).pre
        rw [Ft, pre_plug_append]; exact Or.inl hy
      · refine ⟨u, hu, ?_⟩
        show y ∈ (upd (upd A.F u (plug c R)) t (plug c' (append S R')) u).pre
        rw [Fu]; exact hy
    refine ⟨w, hw, ?_⟩
    show y ∈ (upd (upd A.F u (plug c R)) t (plug c' (append S R')) w).pre
    rw [Fw w hwu hwt]; exact hy

/-- replacing one forest by another with the same nodes -/
theorem Rep.permute {s s' : St α} {A : AS α} (r : Rep s A) {t : Nat} (ht : t ∈ A.tails) {G : Forest Nat} (hp : (A.F t).pre.Perm G.pre)
    (hval : s'.heap.val = s.heap.val) (hsize : s'.size = s.size) (v : Valid s'.heap t G)
    (hfr : ∀ u ∈ A.tails, u ≠ t → Valid s'.heap u (A.F u)) : Rep s' { A with F := upd A.F t G } := by
  have key : ∀ u x, x ∈ (upd A.F t G u).pre ↔ x ∈ (A.F u).pre := by
    intro u x
    by_cases h : u = t
    · rw [h, upd_same, hp.mem_iff]
    · rw [upd_ne _ _ _ _ h]
  refine ⟨?_, ?_, by rw [hval, r.vals], ?_, ?_, ?_⟩
  · intro u hu
    show Valid _ u (upd A.F t G u)
    by_cases h : u = t
    · rw [h, upd_same]; exact v
    · rw [upd_ne _ _ _ _ h]; exact hfr u hu h
  · intro u hu w hw huw x hx
    have : x ∈ u :: (A.F u).pre := by
      rw [List.mem_cons] at hx ⊢
      rw [← key u x]; exact hx
    have := r.disj u hu w hw huw x this
    rw [List.mem_cons] at this ⊢
    rw [← key w x] at this; exact this
  · intro u hu
    exact ⟨fun x hx => (r.live u hu).1 x ((key u x).1 hx), (r.live u hu).2⟩
  · intro u hu
    have : (upd A.F t G u).card = (A.F u).card := by
      by_cases h : u = t
      · rw [h, upd_same, card_eq, card_eq, hp.length_eq]
      · rw [upd_ne _ _ _ _ h]
    rw [hsize, this]; exact r.size u hu
  · intro x v hx
    obtain ⟨w, hw, hy⟩ := r.leak x v hx
    exact ⟨w, hw, (key w x).2 hy⟩

theorem Rep.splice_same {s : St α} {A : AS α} (r : Rep s A) {t : Nat} (ht : t ∈ A.tails)
    {c c' : Ctx Nat} {S R R' : Forest Nat} (hF : A.F t = plug c (append S R)) (hF' : plug c R = plug c' R') (hS : S ≠ .nil)
    {count : Nat} :
    Rep (s.spliceN t (at_ t c' R') t (at_ t c (append S R)) (at_ t c R) count).1
        { A with F := upd A.F t (plug c' (append S R')) } ∧
      (s.spliceN t (at_ t c' R') t (at_ t c (append S R)) (at_ t c R) count).2 = at_ t c (append S R) := by
  have v := r.valid t ht
  rw [hF] at v
  obtain ⟨n, m, ⟨SB, e1⟩, ⟨SA, e2⟩, _⟩ := word_ends hS
  have hSr := S_not_rest v.nd
  have hnS : n ∈ S.pre := mem_word.1 (by rw [e1]; simp : (n, true) ∈ S.word)
  have hmS : m ∈ S.pre := mem_word.1 (by rw [e2]; simp : (m, false) ∈ S.word)
  have hne : (n, true) ≠ at_ t c R := by
    intro h; exact hSr n hnS (by have := at_mem t c R; rwa [← h] at this)
  have hpos : (n, true) ≠ at_ t c' R' := by
    intro h; refine hSr n hnS ?_
    rw [hF']
    have := at_mem t c' R'; rwa [← h] at this
  obtain ⟨cv, cs⟩ := v.cut
  have cv' := cv
  rw [hF'] at cv'
  obtain ⟨q1, q2, q3⟩ := spliceN_heap (t := t) (count := count) v e1 e2 hne hpos cv'.around.1
  have hperm : (plug c (append S R)).pre.Perm (plug c' (append S R')).pre := by
    have h1 : (plug c (append S R)).pre.Perm (S.pre ++ (plug c R).pre) := by
      refine (pre_plug _ _).trans ?_
      rw [pre_append, ← List.append_assoc]
      refine (List.perm_append_comm.append_right _).trans ?_
      rw [List.append_assoc]
      exact (pre_plug _ _).symm.append_left _
    have h2 : (plug c' (append S R')).pre.Perm (S.pre ++ (plug c' R').pre) := by
      refine (pre_plug _ _).trans ?_
      rw [pre_append, ← List.append_assoc]
      refine (List.perm_append_comm.append_right _).trans ?_
      rw [List.append_assoc]
      exact (pre_plug _ _).symm.append_left _
    rw [hF'] at h1
    exact h1.trans h2.symm
  have nd' : (t :: (plug c' (append S R')).pre).Nodup := (hperm.cons t).nodup_iff.1 v.nd
  have v2 := cv'.paste cs e1 e2 nd'
  generalize s.spliceN t (at_ t c' R') t (at_ t c (append S R)) (at_ t c R) count = res at q1 q2 q3 ⊢
  refine ⟨?_, by rw [q2, at_append e1]⟩
  refine r.permute ht (by rw [hF]; exact hperm) (by rw [q1]; rfl) (by rw [q3, if_neg (by simp)]) (by rw [q1]; exact v2) ?_
  intro w hw hwt
  have d := r.disj t ht w hw (Ne.symm hwt)
  rw [hF] at d
  have hRu : ∀ x, x ∈ t :: (plug c R).pre → x ∈ t :: (plug c (append S R)).pre :=
    fun x hx => (mem_plug_append x).2 (Or.inr hx)
  have hSu : ∀ x ∈ S.pre, x ∈ t :: (plug c (append S R)).pre := by
    intro x hx; rw [mem_plug]; simp [hx]
  rw [q1]
  exact (((r.valid w hw).frame _ _ (d _ (hRu _ (before_mem t c R))) (d _ (hRu _ (at_mem t c R)))).frame _ _
    (d _ (hRu _ (by rw [hF']; exact before_mem t c' R'))) (d _ (hSu n hnS))).frame _ _
      (d _ (hSu m hmS)) (d _ (hRu _ (by rw [hF']; exact at_mem t c' R')))

end Verif.Forest
