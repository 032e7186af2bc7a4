import Verif.Forest.Splice

namespace Verif.Forest
open Verif.Ring Forest

variable {α : Type}

theorem AS.ext_F {A : AS α} {t : Nat} {G : Forest Nat} (h : A.F t = G) : { A with F := upd A.F t G } = A := by
  have : upd A.F t G = A.F := by
    funext u
    by_cases hu : u = t
    · rw [hu, upd_same, h]
    · rw [upd_ne _ _ _ _ hu]
  rw [this]

/-! ### splice: the public forms -/

/-- moving trees inside one forest, to a place outside them -/
theorem Rep.spliceRange_same {s : St α} {A : AS α} (r : Rep s A) {t : Nat} (ht : t ∈ A.tails)
    {c c' : Ctx Nat} {S R R' : Forest Nat} (hF : A.F t = plug c (append S R)) (hF' : plug c R = plug c' R') :
    ∃ p, (s.spliceRange t (at_ t c' R') t (at_ t c (append S R)) (at_ t c R)).2 = p ∧ (p = at_ t c' (append S R')) ∧
    Rep (s.spliceRange t (at_ t c' R') t (at_ t c (append S R)) (at_ t c R)).1
        { A with F := upd A.F t (plug c' (append S R')) } := by
  by_cases hS : S = .nil
  · subst hS
    refine ⟨_, rfl, ?_, ?_⟩
    · simp [St.spliceRange, St.spliceN, append]
    · simp only [St.spliceRange, St.spliceN, append, true_or, if_true]
      rw [AS.ext_F]
      · exact r
      · rw [hF, append, hF']
  · obtain ⟨h1, h2⟩ := r.splice_same ht hF hF' hS (count := 0)
    obtain ⟨n, m, ⟨SB, e1⟩, _, _⟩ := word_ends hS
    refine ⟨_, rfl, ?_, h1⟩
    rw [St.spliceRange, h2, at_append e1, at_append e1]

theorem Rep.spliceRange_other {s : St α} {A : AS α} (r : Rep s A) {t u : Nat} (ht : t ∈ A.tails) (hu : u ∈ A.tails) (hut : u ≠ t)
    {c c' : Ctx Nat} {S R R' : Forest Nat} (hFu : A.F u = plug c (append S R)) (hFt : A.F t = plug c' R') :
    (s.spliceRange t (at_ t c' R') u (at_ u c (append S R)) (at_ u c R)).2 = at_ t c' (append S R') ∧
    Rep (s.spliceRange t (at_ t c' R') u (at_ u c (append S R)) (at_ u c R)).1
        { A with F := upd (upd A.F u (plug c R)) t (plug c' (append S R')) } := by
  by_cases hS : S = .nil
  · subst hS
    refine ⟨?_, ?_⟩
    · simp [St.spliceRange, St.spliceN, append]
    · simp only [St.spliceRange, St.spliceN, append, true_or, if_true]
      have e : upd (upd A.F u (plug c R)) t (plug c' R') = A.F := by
        funext w
        by_cases hwt : w = t
        · rw [hwt, upd_same, hFt]
        · rw [upd_ne _ _ _ _ hwt]
          by_cases hwu : w = u
          · rw [hwu, upd_same, hFu, append]
          · rw [upd_ne _ _ _ _ hwu]
      rw [e]; exact r
  · obtain ⟨h1, h2⟩ := r.splice_other ht hu hut hFu hFt hS (count := 0) (Or.inl rfl)
    obtain ⟨n, m, ⟨SB, e1⟩, _, _⟩ := word_ends hS
    refine ⟨?_, h1⟩
    rw [St.spliceRange, h2, at_append e1, at_append e1]

/-- splicing before the first of the trees themselves changes nothing -/
theorem spliceRange_self (s : St α) (t : Nat) (first last : Pos) : s.spliceRange t first t first last = (s, first) := by
  simp [St.spliceRange, St.spliceN]

/-- the whole of another forest -/
theorem Rep.splice_all {s : St α} {A : AS α} (r : Rep s A) {t u : Nat} (ht : t ∈ A.tails) (hu : u ∈ A.tails) (hut : u ≠ t)
    {c' : Ctx Nat} {R' : Forest Nat} (hFt : A.F t = plug c' R') :
    (s.splice t (at_ t c' R') u).2 = at_ t c' (append (A.F u) R') ∧
    Rep (s.splice t (at_ t c' R') u).1 { A with F := upd (upd A.F u .nil) t (plug c' (append (A.F u) R')) } := by
  have vu := r.valid u hu
  have hb : s.heap.begin u = at_ u .top (A.F u) := begin_eq vu
  have he : end_ u = at_ u .top (Forest.nil) := rfl
  have hFu : A.F u = plug .top (append (A.F u) .nil) := by simp [plug]
  unfold St.splice
  rw [hb, he]
  by_cases hS : A.F u = .nil
  · rw [hS]
    refine ⟨?_, ?_⟩
    · simp [St.spliceN, append]
    · simp only [St.spliceN, append, true_or, if_true]
      have e : upd (upd A.F u Forest.nil) t (plug c' R') = A.F := by
        funext w
        by_cases hwt : w = t
        · rw [hwt, upd_same, hFt]
        · rw [upd_ne _ _ _ _ hwt]
          by_cases hwu : w = u
          · rw [hwu, upd_same, hS]
          · rw [upd_ne _ _ _ _ hwu]
      rw [e]; exact r
  · have hc : (if s.sizeValid u = true then s.size u else 0) = 0 ∨ (if s.sizeValid u = true then s.size u else 0) = (A.F u).card := by
      by_cases hv : s.sizeValid u = true
      · rw [if_pos hv]; right; exact sizeValid_card vu (r.size u hu) hv
      · rw [if_neg hv]; left; rfl
    obtain ⟨h1, h2⟩ := r.splice_other ht hu hut hFu hFt hS hc
    obtain ⟨n, m, ⟨SB, e1⟩, _, _⟩ := word_ends hS
    rw [append_nil] at h1 h2
    refine ⟨?_, h1⟩
    rw [h2]
    simp [at_, e1]

/-- a single tree of another forest -/
theorem Rep.spliceOne_other {s : St α} {A : AS α} (r : Rep s A) {t u : Nat} (ht : t ∈ A.tails) (hu : u ∈ A.tails) (hut : u ≠ t)
    {c c' : Ctx Nat} {n : Nat} {k R R' : Forest Nat} (hFu : A.F u = plug c (.cons n k R)) (hFt : A.F t = plug c' R') (e : Bool) :
    (s.spliceOne t (at_ t c' R') u (n, e)).2 = (n, true) ∧
    Rep (s.spliceOne t (at_ t c' R') u (n, e)).1
        { A with F := upd (upd A.F u (plug c R)) t (plug c' (.cons n k R')) } := by
  have vu := r.valid u hu
  rw [hFu] at vu
  have h0 : s.heap.childInc (n, true) = at_ u c R := vu.node.2.2.2
  have hc : (if s.heap.hasChildren (n, true) = true then 0 else 1) = 0 ∨ (if s.heap.hasChildren (n, true) = true then 0 else 1) = (Forest.cons n k .nil).card := by
    rw [vu.hasChildren]
    by_cases hk : k = .nil
    · subst hk; right; simp [card]
    · left; simp [hk]
  obtain ⟨h1, h2⟩ := r.splice_other (c := c) (S := .cons n k .nil) ht hu hut (by rw [hFu]; rfl) hFt (by simp) hc
  have ha : at_ u c (append (.cons n k .nil) R) = (n, true) := at_append (SB := k.word ++ [(n, false)]) (by simp)
  rw [ha] at h1 h2
  unfold St.spliceOne
  simp only [leadingOf, h0]
  exact ⟨h2, h1⟩

/-- a single tree, inside one forest, to a place outside it -/
theorem Rep.spliceOne_same {s : St α} {A : AS α} (r : Rep s A) {t : Nat} (ht : t ∈ A.tails)
    {c c' : Ctx Nat} {n : Nat} {k R R' : Forest Nat} (hF : A.F t = plug c (.cons n k R)) (hF' : plug c R = plug c' R') (e : Bool) :
    (s.spliceOne t (at_ t c' R') t (n, e)).2 = (n, true) ∧
    Rep (s.spliceOne t (at_ t c' R') t (n, e)).1 { A with F := upd A.F t (plug c' (.cons n k R')) } := by
  have v := r.valid t ht
  rw [hF] at v
  have h0 : s.heap.childInc (n, true) = at_ t c R := v.node.2.2.2
  obtain ⟨h1, h2⟩ := r.splice_same (c := c) (S := .cons n k .nil) ht (by rw [hF]; rfl) hF' (by simp)
      (count := if s.heap.hasChildren (n, true) = true then 0 else 1)
  have ha : at_ t c (append (.cons n k .nil) R) = (n, true) := at_append (SB := k.word ++ [(n, false)]) (by simp)
  rw [ha] at h1 h2
  unfold St.spliceOne
  simp only [leadingOf, h0]
  exact ⟨h2, h1⟩

/-! ### insert_parent -/

/-- the place after the trees `S` -/
def aft : Forest Nat → Ctx Nat
  | .nil => .top
  | .cons n k r => .after n k (aft r)

theorem plug_aft (S R : Forest Nat) : plug (aft S) R = append S R := by
  induction S with
  | nil => rfl
  | cons n k r _ ih => simp [aft, plug, append, ih]

theorem rw_aft (S : Forest Nat) : (aft S).rw = [] := by
  induction S with
  | nil => rfl
  | cons n k r _ ih => simpa [aft, Ctx.rw] using ih

theorem rw_comp (c d : Ctx Nat) : (c.comp d).rw = d.rw ++ c.rw := by
  induction c with
  | top => simp [Ctx.comp, Ctx.rw]
  | after n k c ih => simp [Ctx.comp, Ctx.rw, ih]
  | inside n c r ih => simp [Ctx.comp, Ctx.rw, ih]

theorem lw_comp (c d : Ctx Nat) : (c.comp d).lw = c.lw ++ d.lw := by
  induction c with
  | top => simp [Ctx.comp, Ctx.lw]
  | after n k c ih => simp [Ctx.comp, Ctx.lw, ih]
  | inside n c r ih => simp [Ctx.comp, Ctx.lw, ih]

theorem at_comp (t : Nat) (c d : Ctx Nat) (g : Forest Nat) : at_ t (c.comp d) g = at_ t c (plug d g) ∨ d.lw ≠ [] := by
  by_cases h : d.lw = []
  · left; simp [at_, rw_comp, word_plug, h]
  · exact Or.inr h

theorem at_aft (t : Nat) (c : Ctx Nat) (S R : Forest Nat) : at_ t (c.comp (aft S)) R = at_ t c R := by
  simp [at_, rw_comp, rw_aft]

theorem at_inside (t : Nat) (c : Ctx Nat) (n : Nat) (R : Forest Nat) : at_ t (c.comp (.inside n .top R)) .nil = (n, false) := by
  simp [at_, rw_comp, Ctx.rw]

theorem Rep.insertParent {s : St α} {A : AS α} (r : Rep s A) {t : Nat} (ht : t ∈ A.tails) {c : Ctx Nat} {S R : Forest Nat}
    (hF : A.F t = plug c (append S R)) {n : Nat} (hn : Fresh A n) (x : α) :
    (s.insertParent t (at_ t c (append S R)) (at_ t c R) x n).2 = (n, true) ∧
    Rep (s.insertParent t (at_ t c (append S R)) (at_ t c R) x n).1
      { A with F := upd A.F t (plug c (.cons n S R)), V := upd A.V n (some x) } := by
  have hF1 : A.F t = plug (c.comp (aft S)) R := by rw [plug_comp, plug_aft, hF]
  obtain ⟨r1, p1⟩ := r.insert ht hF1 hn x
  rw [at_aft] at r1 p1
  have hnt := r.not_mem hn ht
  rw [hF] at hnt
  unfold St.insertParent
  simp only [p1]
  by_cases hS : S = .nil
  · subst hS
    rw [if_pos (by rfl)]
    refine ⟨rfl, ?_⟩
    rw [plug_comp, plug_aft] at r1
    exact r1
  · have hne : at_ t c (append S R) ≠ at_ t c R := by
      have nd := r.valid t ht
      rw [hF] at nd
      obtain ⟨m, _, ⟨SB, e1⟩, _, _⟩ := word_ends hS
      rw [at_append e1]
      intro h
      have := at_mem t c R
      rw [← h] at this
      exact S_not_rest nd.nd m (mem_word.1 (by rw [e1]; simp : (m, true) ∈ S.word)) this
    rw [if_neg hne]
    refine ⟨rfl, ?_⟩
    have hF2 : (upd A.F t (plug (c.comp (aft S)) (.cons n .nil R))) t = plug c (append S (.cons n .nil R)) := by
      rw [upd_same, plug_comp, plug_aft]
    have hF3 : plug c (.cons n .nil R) = plug (c.comp (.inside n .top R)) .nil := by rw [plug_comp]; rfl
    obtain ⟨p, _, _, r2⟩ := r1.spliceRange_same (c := c) (c' := c.comp (.inside n .top R)) (S := S) ht hF2 hF3
    rw [at_inside] at r2
    have ha : at_ t c (.cons n .nil R) = (n, true) := by simp [at_]
    have hb : at_ t c (append S (.cons n .nil R)) = at_ t c (append S R) := by
      obtain ⟨m, _, ⟨SB, e1⟩, _, _⟩ := word_ends hS
      rw [at_append e1, at_append e1]
    rw [ha, hb] at r2
    simp only [trailingOf]
    have hG : upd (upd A.F t (plug (c.comp (aft S)) (.cons n .nil R))) t (plug (c.comp (.inside n .top R)) (append S .nil)) =
        upd A.F t (plug c (.cons n S R)) := by
      funext w
      by_cases hw : w = t
      · rw [hw, upd_same, upd_same, plug_comp, append_nil]; rfl
      · rw [upd_ne _ _ _ _ hw, upd_ne _ _ _ _ hw, upd_ne _ _ _ _ hw]
    rw [← hG]
    exact r2

end Verif.Forest
