import Verif.Forest.Reverse
import Verif.Forest.Mono

namespace Verif.Forest
open Verif.Ring Forest

variable {α : Type}

theorem place_eq (t : Nat) (c : Ctx Nat) (R : Forest Nat) : place t c R = at_ t c R := by
  cases R with
  | nil => rw [place, at_, word_nil, List.nil_append, rw_first]
  | cons n k r => simp [place, at_]

theorem rel_eq {F G : Forest Nat} (h : F.rel Eq G) : F = G := by
  induction F generalizing G with
  | nil => cases G with
    | nil => rfl
    | cons => exact h.elim
  | cons n k r ihk ihr => cases G with
    | nil => exact h.elim
    | cons n' k' r' =>
      obtain ⟨h1, h2, h3⟩ := h
      rw [h1, ihk h2, ihr h3]

theorem word_inj {F G : Forest Nat} (h : F.word = G.word) : F = G := by
  apply rel_eq
  rw [rel_iff, h, List.forall₂_same]
  exact fun _ _ => ⟨rfl, fun _ => rfl⟩

theorem map_card {β γ : Type} (f : β → γ) (F : Forest β) : (F.map f).card = F.card := by
  induction F with
  | nil => rfl
  | cons n k r ihk ihr => simp [Forest.map, card, ihk, ihr]

theorem map_unique {V W : Nat → Option α} {F : Forest Nat} : ∀ {G : Forest Nat}, F.map V = G.map W → F.pre = G.pre →
    F = G ∧ ∀ n ∈ F.pre, V n = W n := by
  induction F with
  | nil => intro G h _; cases G with
    | nil => simp
    | cons => simp [Forest.map] at h
  | cons n k r ihk ihr => intro G h hp; cases G with
    | nil => simp [Forest.map] at h
    | cons n' k' r' =>
      simp only [Forest.map, Forest.cons.injEq] at h
      obtain ⟨h1, h2, h3⟩ := h
      simp only [pre_cons, List.cons.injEq] at hp
      obtain ⟨rfl, hp⟩ := hp
      have hlen : k.pre.length = k'.pre.length := by
        rw [← card_eq, ← card_eq, ← map_card V k, h2, map_card]
      obtain ⟨p1, p2⟩ := List.append_inj hp hlen
      obtain ⟨a1, a2⟩ := ihk h2 p1
      obtain ⟨b1, b2⟩ := ihr h3 p2
      refine ⟨by rw [a1, b1], ?_⟩
      intro m hm
      simp only [pre_cons, List.mem_cons, List.mem_append] at hm
      rcases hm with rfl | hm | hm
      · exact h1
      · exact a2 m hm
      · exact b2 m hm

theorem Rep.congrF {s : St α} {A : AS α} (r : Rep s A) {G : Nat → Forest Nat} (h : ∀ t ∈ A.tails, A.F t = G t) : Rep s { A with F := G } := by
  refine ⟨?_, ?_, r.vals, ?_, ?_, ?_⟩
  · intro t ht; show Valid _ t (G t); rw [← h t ht]; exact r.valid t ht
  · intro t ht u hu; show t ≠ u → ∀ n ∈ t :: (G t).pre, n ∉ u :: (G u).pre; rw [← h t ht, ← h u hu]; exact r.disj t ht u hu
  · intro t ht; show (∀ n ∈ (G t).pre, _) ∧ _; rw [← h t ht]; exact r.live t ht
  · intro t ht; show _ ∨ _ = (G t).card; rw [← h t ht]; exact r.size t ht
  · intro n v hv
    obtain ⟨t, ht, hn⟩ := r.leak n v hv
    refine ⟨t, ht, ?_⟩
    show n ∈ (G t).pre
    rw [← h t ht]; exact hn

theorem rep_init {s : St α} (h : ∀ n, s.heap.val n = none) : Rep s AS.empty := by
  refine ⟨?_, ?_, funext h, ?_, ?_, ?_⟩
  · intro t ht; cases ht
  · intro t ht; cases ht
  · intro t ht; cases ht
  · intro t ht; cases ht
  · intro n v hv; cases hv

theorem V_same {V W V0 : Nat → Option α} {ns : List Nat} {F : Forest Nat} (hF : F.pre = ns) (h : ∀ n ∈ F.pre, V n = W n)
    (hV : ∀ n, n ∉ ns → V n = V0 n) (hW : ∀ n, n ∉ ns → W n = V0 n) : V = W := by
  funext n
  by_cases hn : n ∈ ns
  · exact h n (by rw [hF]; exact hn)
  · rw [hV n hn, hW n hn]

theorem V_if {V : Nat → Option α} : (fun n => if n ∈ (Forest.nil : Forest Nat).pre then none else V n) = V := by
  funext n; simp

theorem filter_tails {l : List Nat} {t : Nat} (h : t ∉ l) : (t :: l).filter (fun u => decide (u ≠ t)) = l := by
  rw [List.filter_cons_of_neg (by simp), List.filter_eq_self]
  intro a ha; simp only [decide_eq_true_eq]; rintro rfl; exact h ha

theorem upd_ne {β : Type} {F : Nat → β} {t u : Nat} {x : β} (h : u ≠ t) : upd F t x u = F u := by simp [upd, h]
theorem upd_eq {β : Type} {F : Nat → β} {t : Nat} {x : β} : upd F t x t = x := by simp [upd]

theorem Rep.copyAssign (junk : Pos → Nat) {s : St α} {A : AS α} (r : Rep s A) {t u tmp : Nat} (ht : t ∈ A.tails) (hu : u ∈ A.tails)
    (htmp : Fresh A tmp) {ns : List Nat} (hns : ns.length = (A.F u).card) (hav : Avail A ns) (htn : tmp ∉ ns) :
    ∃ fuel s' S' V', S'.pre = ns ∧ S'.map V' = (A.F u).map A.V ∧ (∀ n, n ∉ ns → V' n = A.V n) ∧
      s.copyAssign junk fuel t u tmp ns = some s' ∧
      Rep s' { A with F := upd A.F t S', V := fun n => if n ∈ (A.F t).pre then none else V' n } := by
  have hne : tmp ≠ t := by rintro rfl; exact htmp.2 ht
  obtain ⟨s1, S', V', h1, h2, h3, h4, r1⟩ := r.copy htmp hu hns hav htn (Nat.le_refl _)
  obtain ⟨s2, h5, r2⟩ := r1.moveAssign junk (t := t) (u := tmp) (List.mem_cons_of_mem _ ht) (by simp) hne (Nat.le_refl _)
  obtain ⟨s3, h6, r3⟩ := r2.destroy junk (t := tmp) (by simp) (Nat.le_refl _)
  simp only [upd_eq, upd_ne hne, upd_ne hne.symm, filter_tails htmp.2, V_if] at r3 h5 h6
  refine ⟨2 * (A.F u).card + 2 * (A.F t).card, s3, S', V', h1, h2, h3, ?_, ?_⟩
  · simp only [St.copyAssign]
    rw [copy_mono (by omega) h4]
    simp only
    rw [moveAssign_mono (by omega) h5]
    simp only
    exact destroy_mono (by simp [card]) h6
  · refine r3.congrF ?_
    intro v hv
    have hvt : v ≠ tmp := by rintro rfl; exact htmp.2 hv
    by_cases h : v = t
    · subst h; simp [upd, hvt]
    · simp [upd, hvt, h]

theorem Rep.swap (junk : Pos → Nat) {s : St α} {A : AS α} (r : Rep s A) {t u tmp : Nat} (ht : t ∈ A.tails) (hu : u ∈ A.tails) (hut : u ≠ t)
    (htmp : Fresh A tmp) :
    ∃ s', s.swap junk 0 t u tmp = some s' ∧ Rep s' { A with F := upd (upd A.F u (A.F t)) t (A.F u) } := by
  have hne : tmp ≠ t := by rintro rfl; exact htmp.2 ht
  have hne' : tmp ≠ u := by rintro rfl; exact htmp.2 hu
  have r1 := r.moveCtor htmp ht
  obtain ⟨s2, h5, r2⟩ := r1.moveAssign junk (t := t) (u := u) (fuel := 0) (List.mem_cons_of_mem _ ht) (List.mem_cons_of_mem _ hu) hut
    (by simp [upd_ne hne.symm, upd_eq, card])
  simp only [upd_eq, upd_ne hne, upd_ne hne.symm, upd_ne hne', upd_ne hne'.symm, upd_ne hut, upd_ne hut.symm, V_if] at r2
  obtain ⟨s3, h6, r3⟩ := r2.moveAssign junk (t := u) (u := tmp) (fuel := 0) (List.mem_cons_of_mem _ hu) (by simp) hne'
    (by simp [upd_ne hut, upd_eq, card])
  simp only [upd_eq, upd_ne hne, upd_ne hne.symm, upd_ne hne', upd_ne hne'.symm, upd_ne hut, upd_ne hut.symm, V_if] at r3
  obtain ⟨s4, h7, r4⟩ := r3.destroy junk (t := tmp) (fuel := 0) (by simp) (by simp [upd_ne hne', upd_eq, card])
  simp only [upd_eq, upd_ne hne, upd_ne hne.symm, upd_ne hne', upd_ne hne'.symm, upd_ne hut, upd_ne hut.symm, V_if, filter_tails htmp.2] at r4
  refine ⟨s4, ?_, ?_⟩
  · simp only [St.swap, h5, h6, h7]
  · refine r4.congrF ?_
    intro v hv
    have hvt : v ≠ tmp := by rintro rfl; exact htmp.2 hv
    by_cases h : v = t
    · subst h; simp [upd, hvt, hut.symm]
    · by_cases h' : v = u
      · subst h'; simp [upd, hvt, h]
      · simp [upd, hvt, h, h']

theorem copy_same {A : AS α} {S S1 S2 : Forest Nat} {V1 V2 : Nat → Option α} {ns : List Nat} (a1 : S1.pre = ns) (a2 : S1.map V1 = S.map A.V)
    (a3 : ∀ n, n ∉ ns → V1 n = A.V n) (b1 : S2.pre = ns) (b2 : S2.map V2 = S.map A.V) (b3 : ∀ n, n ∉ ns → V2 n = A.V n) : S1 = S2 ∧ V1 = V2 := by
  obtain ⟨h1, h2⟩ := map_unique (F := S1) (G := S2) (V := V1) (W := V2) (by rw [a2, b2]) (by rw [a1, b1])
  exact ⟨h1, V_same a1 h2 a3 b3⟩

/-- every call made under its precondition terminates, returns what the specification says and has the specified effect -/
theorem sim (junk : Pos → Nat) {s : St α} {A A' : AS α} {op : Op α} {out : Out} (r : Rep s A) (h : AStep A op out A') :
    ∃ s', s.Call junk op s' out ∧ Rep s' A' := by
  cases h with
  | create ht => exact ⟨_, ⟨0, rfl⟩, r.create ht⟩
  | insert ht hF hn =>
    rw [place_eq]
    have := r.insert ht hF hn
    exact ⟨_, ⟨0, rfl⟩, (this _).1⟩
  | erase e ht hF =>
    obtain ⟨s', h1, h2⟩ := r.erase junk ht hF e
    refine ⟨s', ⟨0, ?_⟩, h2⟩
    simp only [St.exec, h1, Option.map_some, outPos, place_eq]
  | @eraseRange t X M Y first last G ht hF hfirst hG =>
    obtain ⟨s', G', h1, h2, h3⟩ := r.eraseRange junk ht hF (Nat.le_refl _)
    have hGG : G' = G := word_inj (by rw [h3, hG])
    rw [hGG] at h2
    have hff : first = firstOf M last := by
      cases M with
      | nil => simpa [firstOf] using hfirst.symm
      | cons a M => simpa [firstOf] using hfirst.symm
    refine ⟨s', ⟨M.length, ?_⟩, h2⟩
    simp only [St.exec, hff, h1, Option.map_some, outPos]
  | clear ht =>
    obtain ⟨s', h1, h2⟩ := r.clear junk ht (Nat.le_refl _)
    exact ⟨s', ⟨_, by simp only [St.exec]; rw [h1]; rfl⟩, h2⟩
  | splice ht hu hut hF =>
    rw [place_eq, place_eq]
    obtain ⟨h1, h2⟩ := r.splice_all ht hu hut hF
    exact ⟨_, ⟨0, by simp only [St.exec, outPos, h1]⟩, h2⟩
  | spliceOne e ht hu hut hF hFu =>
    rw [place_eq]
    obtain ⟨h1, h2⟩ := r.spliceOne_other ht hu hut hFu hF e
    exact ⟨_, ⟨0, by simp only [St.exec, outPos, h1]⟩, h2⟩
  | spliceOneSame e ht hF hF' =>
    rw [place_eq]
    obtain ⟨h1, h2⟩ := r.spliceOne_same ht hF hF' e
    exact ⟨_, ⟨0, by simp only [St.exec, outPos, h1]⟩, h2⟩
  | spliceOneId e ht hF =>
    exact ⟨s, ⟨0, by simp [St.exec, outPos, St.spliceOne, St.spliceN, leadingOf]⟩, r⟩
  | spliceRange ht hu hut hF hFu =>
    simp only [place_eq]
    obtain ⟨h1, h2⟩ := r.spliceRange_other ht hu hut hFu hF
    exact ⟨_, ⟨0, by simp only [St.exec, outPos, h1]⟩, h2⟩
  | spliceRangeSame ht hF hF' =>
    simp only [place_eq]
    obtain ⟨p, h1, h3, h2⟩ := r.spliceRange_same ht hF hF'
    exact ⟨_, ⟨0, by simp only [St.exec, outPos, h1, h3]⟩, h2⟩
  | spliceRangeId ht hF =>
    exact ⟨s, ⟨0, by simp only [St.exec, outPos, spliceRange_self]⟩, r⟩
  | insertParent ht hF hn =>
    simp only [place_eq]
    obtain ⟨h1, h2⟩ := r.insertParent ht hF hn _
    exact ⟨_, ⟨0, by simp only [St.exec, outPos, h1]⟩, h2⟩
  | insertCopy ht hu hut hF hFu hns hav h1 h2 h3 =>
    simp only [place_eq]
    obtain ⟨s', S'', V'', a1, a2, a3, a4, r'⟩ := r.insertCopy ht hu hut hF hFu hns hav (Nat.le_refl _)
    obtain ⟨rfl, rfl⟩ := copy_same h1 h2 h3 a1 a2 a3
    exact ⟨s', ⟨_, by simp only [St.exec]; rw [a4]; rfl⟩, r'⟩
  | copy ht hu hns hav htn h1 h2 h3 =>
    obtain ⟨s', S'', V'', a1, a2, a3, a4, r'⟩ := r.copy ht hu hns hav htn (Nat.le_refl _)
    obtain ⟨rfl, rfl⟩ := copy_same h1 h2 h3 a1 a2 a3
    exact ⟨s', ⟨_, by simp only [St.exec]; rw [a4]; rfl⟩, r'⟩
  | moveCtor ht hu => exact ⟨_, ⟨0, rfl⟩, r.moveCtor ht hu⟩
  | moveAssign ht hu hut =>
    obtain ⟨s', h1, h2⟩ := r.moveAssign junk ht hu hut (Nat.le_refl _)
    exact ⟨s', ⟨_, by simp only [St.exec]; rw [h1]; rfl⟩, h2⟩
  | copyAssign ht hu htmp hns hav htn h1 h2 h3 =>
    obtain ⟨fuel, s', S'', V'', a1, a2, a3, a4, r'⟩ := r.copyAssign junk ht hu htmp hns hav htn
    obtain ⟨rfl, rfl⟩ := copy_same h1 h2 h3 a1 a2 a3
    exact ⟨s', ⟨fuel, by simp only [St.exec]; rw [a4]; rfl⟩, r'⟩
  | swap ht hu hut htmp =>
    obtain ⟨s', h1, h2⟩ := r.swap junk ht hu hut htmp
    exact ⟨s', ⟨0, by simp only [St.exec]; rw [h1]; rfl⟩, h2⟩
  | destroy ht =>
    obtain ⟨s', h1, h2⟩ := r.destroy junk ht (Nat.le_refl _)
    exact ⟨s', ⟨_, by simp only [St.exec]; rw [h1]; rfl⟩, h2⟩
  | reverseEnd ht hF =>
    simp only [place_eq]
    obtain ⟨s', h1, h2⟩ := r.reverse_end ht hF (Nat.le_refl _)
    exact ⟨s', ⟨_, by simp only [St.exec]; rw [h1]; rfl⟩, h2⟩
  | reverseShort ht hF hS =>
    simp only [place_eq]
    have h1 := r.reverse_short ht hF hS (Nat.le_refl _)
    exact ⟨s, ⟨_, by simp only [St.exec]; rw [h1]; rfl⟩, r⟩
  | size ht =>
    obtain ⟨s', h1, h2, _⟩ := r.getSize ht (Nat.le_refl _)
    exact ⟨s', ⟨_, by simp only [St.exec]; rw [h1]; rfl⟩, h2⟩

theorem reach_rep {s : St α} {A : AS α} (h : Reach s A) : Rep s A := by
  induction h with
  | init h => exact rep_init h
  | step h hs hc ih =>
    rename_i junk s op s' out out' A A'
    obtain ⟨s2, c2, r2⟩ := sim junk ih hs
    obtain ⟨rfl, _⟩ := call_unique hc c2
    exact r2

end Verif.Forest
