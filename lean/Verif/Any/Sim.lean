import Verif.Any.Lemmas
/-!
The operations of `any_regular_t` do what they mean.
-/
namespace Verif.Any
open Spec

variable {Ty V : Type} {c : Conf Ty V}

structure Rel (c : Conf Ty V) (s : St Ty V) (a : Vars Ty V) (g : Objs Ty V) : Prop where
  good : Good c s.heap g
  temps : ∀ n, g (.inr n) = none
  vars : ∀ x, s.vars x = (g (.inl x)).map fun p => .live p.1
  abs : ∀ x, a x = (g (.inl x)).map (·.2)

theorem Rel.at {s : St Ty V} {a g} (R : Rel c s a g) {x : Nat} {w} (h : a x = some w) :
    ∃ o, g (.inl x) = some (o, w) ∧ s.obj x = some o ∧ Holds c s.heap o w := by
  have h1 := R.abs x
  rw [h] at h1
  cases hg : g (.inl x) with
  | none => rw [hg] at h1; cases h1
  | some q =>
    rw [hg] at h1
    obtain ⟨o, w'⟩ := q
    simp at h1; subst h1
    refine ⟨o, rfl, ?_, R.good.holds _ _ _ hg⟩
    unfold St.obj
    rw [R.vars x, hg]; rfl

theorem Rel.off {s : St Ty V} {a g} (R : Rel c s a g) {x : Nat} (h : a x = none) : g (.inl x) = none := by
  have h1 := R.abs x
  rw [h] at h1
  cases hg : g (.inl x) with
  | none => rfl
  | some q => rw [hg] at h1; cases h1

/-- A variable gets a new object. -/
theorem Rel.put {s : St Ty V} {a g} (R : Rel c s a g) {x : Nat} {o w h} (G : Good c h (upd' g (.inl x) (some (o, w)))) :
    Rel c (St.put { s with heap := h } x o) (upd a x (some w)) (upd' g (.inl x) (some (o, w))) := by
  refine ⟨G, ?_, ?_, ?_⟩
  · intro n; simp [upd', R.temps n]
  · intro y
    by_cases hy : y = x
    · subst hy; simp [St.put, upd, upd']
    · simp [St.put, upd, upd', hy, R.vars y]
  · intro y
    by_cases hy : y = x
    · subst hy; simp [upd, upd']
    · simp [upd, upd', hy, R.abs y]

/-- What there is to show for an operation. -/
def Sim [DecidableEq Ty] (c : Conf Ty V) (s : St Ty V) (a a' : Vars Ty V) (may : Prop) (r : Res Unit (St Ty V)) : Prop :=
  (∃ s' g', r = .ok () s' ∧ Rel c s' a' g') ∨ (may ∧ r = .throw s)

variable [DecidableEq Ty]

theorem sim_mk {s : St Ty V} {a a' g} (R : Rel c s a g) {x v e} (hf : (Op.mk x v e).fine s) (hm : mean c a (.mk x v e) = some a') :
    Sim c s a a' (e.alloc = none ∧ c.loc (c.ty v) = false) (mk c s x v e) := by
  simp only [mean] at hm
  split at hm
  · rename_i hx
    cases hm
    rcases good_construct R.good (.inl x) (R.off hx) v e hf.1 hf.2 with ⟨o, h', h1, G⟩ | ⟨h1, h2, h3⟩
    · refine .inl ⟨_, _, ?_, R.put G⟩
      simp only [mk, h1]
    · refine .inr ⟨⟨h2, h1⟩, ?_⟩
      simp only [mk, h3]
  · cases hm

theorem clone_eq {h : Heap V} {o : Obj Ty V} {v} {e : Env} (ho : o.get h = some v) (he : e.copyThrows = false) :
    clone c h o e = construct c h v e := by
  simp [clone, ho, he]

theorem sim_copy {s : St Ty V} {a a' g} (R : Rel c s a g) {x y e} (hf : (Op.copy x y e).fine s)
    (hm : mean c a (.copy x y e) = some a') : Sim c s a a' (e.alloc = none ∨ e.copyThrows = true) (copy c s x y e) := by
  simp only [mean] at hm
  split at hm
  · rename_i v hx hy
    cases hm
    obtain ⟨o, hg, ho, H⟩ := R.at hy
    have hv := H.val v rfl
    cases he : e.copyThrows with
    | true =>
      refine .inr ⟨.inr rfl, ?_⟩
      simp [copy, ho, clone, hv, he]
    | false =>
      rcases good_construct R.good (.inl x) (R.off hx) v e hf.1 hf.2 with ⟨o', h', h1, G⟩ | ⟨h1, h2, h3⟩
      · refine .inl ⟨_, _, ?_, R.put G⟩
        simp only [copy, ho, clone_eq hv he, h1]
      · refine .inr ⟨.inl h2, ?_⟩
        simp only [copy, ho, clone_eq hv he, h3]
  · cases hm

theorem sim_move {s : St Ty V} {a a' g} (R : Rel c s a g) {x y} (hm : mean c a (.move x y) = some a') :
    Sim c s a a' False (move c s x y) := by
  simp only [mean] at hm
  split at hm
  · rename_i w hx hy
    cases hm
    obtain ⟨o, hg, ho, H⟩ := R.at hy
    have hxy : x ≠ y := by rintro rfl; rw [hx] at hy; cases hy
    have G := good_move R.good (i := .inl x) (j := .inl y) (by simpa using hxy) (R.off hx) hg
    refine .inl ⟨(s.put y (moveClone c o).2).put x (moveClone c o).1, _, by simp only [move, ho], G, ?_, ?_, ?_⟩
    · intro n; simp [upd', R.temps n]
    · intro z
      by_cases hzx : z = x
      · subst hzx; simp [St.put, upd, upd']
      · by_cases hzy : z = y
        · subst hzy; simp [St.put, upd, upd', hzx]
        · simp [St.put, upd, upd', hzx, hzy, R.vars z]
    · intro z
      by_cases hzx : z = x
      · subst hzx; simp [upd, upd']
      · by_cases hzy : z = y
        · subst hzy; simp [upd, upd', hzx]
        · simp [upd, upd', hzx, hzy, R.abs z]
  · cases hm

/-- The body of the assignment, with the argument in the temporary 0. -/
theorem sim_assignBody {h : Heap V} {vars : Nat → Option (Slot Ty V)} {g : Objs Ty V} {x : Nat} {o w n w'} (G : Good c h g)
    (ht : ∀ k, k ≠ 0 → g (.inr k) = none) (h0 : g (.inr 0) = some (n, w')) (hx : g (.inl x) = some (o, w))
    (hv : ∀ x, vars x = (g (.inl x)).map fun p => .live p.1) :
    ∃ s' g', assignBody c ⟨h, vars⟩ x n = .ok () s' ∧ Rel c s' (fun y => if y = x then some w' else (g (.inl y)).map (·.2)) g' := by
  obtain ⟨h1, e1, G1, _⟩ := good_destruct G hx
  have G2 := good_move G1 (i := .inl x) (j := .inr 0) (by simp) (by simp [upd']) (o := n) (w := w') (by simp [upd', h0])
  obtain ⟨h2, e2, G3, _⟩ := good_destruct G2 (i := .inr 0) (o := (moveClone c n).2) (w := .some (w'.type c)) (by simp [upd'])
  have hob : St.obj ⟨h, vars⟩ x = some o := by simp [St.obj, hv x, hx]
  refine ⟨_, _, by simp only [assignBody, hob, e1, e2]; rfl, G3, ?_, ?_, ?_⟩
  · intro k
    by_cases hk : k = 0
    · subst hk; simp [upd']
    · simp [upd', hk, ht k hk]
  · intro y
    by_cases hy : y = x
    · subst hy; simp [St.put, upd, upd']
    · simp [St.put, upd, upd', hy, hv y]
  · intro y
    by_cases hy : y = x
    · subst hy; simp [upd']
    · simp [upd', hy]

theorem sim_set {s : St Ty V} {a a' g} (R : Rel c s a g) {x y e} (hf : (Op.set x y e).fine s)
    (hm : mean c a (.set x y e) = some a') : Sim c s a a' (e.alloc = none ∨ e.copyThrows = true) (set c s x y e) := by
  simp only [mean] at hm
  split at hm
  · rename_i w v hx hy
    cases hm
    obtain ⟨o, hg, ho, H⟩ := R.at hy
    obtain ⟨ox, hgx, hox, _⟩ := R.at hx
    have hv := H.val v rfl
    cases he : e.copyThrows with
    | true =>
      refine .inr ⟨.inr rfl, ?_⟩
      simp [set, ho, clone, hv, he]
    | false =>
      rcases good_construct R.good (.inr 0) (R.temps 0) v e hf.1 hf.2 with ⟨o', h', h1, G⟩ | ⟨h1, h2, h3⟩
      · obtain ⟨s', g', e1, R'⟩ := sim_assignBody (vars := s.vars) (x := x) G (fun k hk => by simp [upd', hk, R.temps k])
          (by simp [upd']; exact ⟨rfl, rfl⟩) (o := ox) (w := w) (by simp [upd', hgx]) (fun z => by simp [upd', R.vars z])
        refine .inl ⟨s', g', ?_, ?_⟩
        · simp only [set, ho, clone_eq hv he, h1]; exact e1
        · have : upd a x (some (Val.val v)) = fun y => if y = x then some (Val.val v) else
              (upd' g (.inr 0) (some (o', Val.val v)) (.inl y)).map (·.2) := by
            funext z; simp [upd, upd', R.abs z]
          rw [this]; exact R'
      · refine .inr ⟨.inl h2, ?_⟩
        simp only [set, ho, clone_eq hv he, h3]
  · cases hm

theorem sim_setMove {s : St Ty V} {a a' g} (R : Rel c s a g) {x y} (hm : mean c a (.setMove x y) = some a') :
    Sim c s a a' False (setMove c s x y) := by
  simp only [mean] at hm
  split at hm
  · rename_i w' w hx hy
    cases hm
    obtain ⟨o, hg, ho, H⟩ := R.at hy
    obtain ⟨ox, hgx, hox, _⟩ := R.at hx
    have G := good_move R.good (i := .inr 0) (j := .inl y) (by simp) (R.temps 0) hg
    have hxv : ∃ ox' w'', upd' (upd' g (.inl y) (some ((moveClone c o).2, Val.some (w.type c)))) (.inr 0)
        (some ((moveClone c o).1, w)) (.inl x) = some (ox', w'') := by
      by_cases hxy : x = y
      · subst hxy; exact ⟨_, _, by simp [upd']; exact ⟨rfl, rfl⟩⟩
      · exact ⟨ox, w', by simp [upd', hxy, hgx]⟩
    obtain ⟨ox', w'', hxv⟩ := hxv
    obtain ⟨s', g', e1, R'⟩ := sim_assignBody (vars := (s.put y (moveClone c o).2).vars) (x := x) (n := (moveClone c o).1) (w' := w) G
      (fun k hk => by simp [upd', hk, R.temps k]) (by simp [upd']) hxv
      (fun z => by
        by_cases hzy : z = y
        · subst hzy; simp [St.put, upd, upd']
        · simp [St.put, upd, upd', hzy, R.vars z])
    refine .inl ⟨s', g', ?_, ?_⟩
    · simp only [setMove, ho]; exact e1
    · have : upd (upd a y (some (Val.some (w.type c)))) x (some w) = fun z => if z = x then some w else
          (upd' (upd' g (.inl y) (some ((moveClone c o).2, Val.some (w.type c)))) (.inr 0)
          (some ((moveClone c o).1, w)) (.inl z)).map (·.2) := by
        funext z
        by_cases hzx : z = x
        · simp [upd, hzx]
        · by_cases hzy : z = y
          · subst hzy; simp [upd, upd', hzx]
          · simp [upd, upd', hzx, hzy, R.abs z]
      rw [this]; exact R'
  · cases hm

theorem sim_assign {s : St Ty V} {a a' g} (R : Rel c s a g) {x v e} (hf : (Op.assign x v e).fine s)
    (hc : (Op.assign x v e).calm c) (hm : mean c a (.assign x v e) = some a') : Sim c s a a' False (assign c s x v e) := by
  simp only [mean] at hm
  split at hm
  · rename_i w hx
    cases hm
    obtain ⟨o, hg, ho, H⟩ := R.at hx
    obtain ⟨h1, e1, G1, hfree⟩ := good_destruct R.good hg
    have hal : ∀ p, e.alloc = some p → h1 p = none := by
      intro p hp
      rcases hf.1 p hp with h | ⟨t, h⟩
      · exact hfree p (.inl h)
      · rw [ho] at h; cases h
        exact hfree p (.inr rfl)
    rcases good_construct G1 (.inl x) (by simp [upd']) v e hal hf.2 with ⟨o', h', h2, G⟩ | ⟨h2, h3, _⟩
    · have hu : upd' (upd' g (.inl x) none) (.inl x) (some (o', Val.val v)) = upd' g (.inl x) (some (o', Val.val v)) := by
        funext z; simp only [upd']; split <;> rfl
      rw [hu] at G
      refine .inl ⟨_, _, ?_, R.put G⟩
      simp only [assign, ho, e1, h2]
    · rcases hc with hc | hc
      · rw [h2] at hc; cases hc
      · exact absurd h3 hc
  · cases hm

theorem sim_swap {s : St Ty V} {a a' g} (R : Rel c s a g) {x y} (hm : mean c a (.swap x y) = some a') :
    Sim c s a a' False (swap c s x y) := by
  simp only [mean] at hm
  split at hm
  · rename_i v w hx hy
    cases hm
    obtain ⟨o, hg, ho, H⟩ := R.at hx
    obtain ⟨p, hgp, hp, H'⟩ := R.at hy
    have fin : ∀ {h}, Good c h (upd' (upd' g (.inl x) (some (p, w))) (.inl y) (some (o, v))) →
        Rel c ((St.put { s with heap := h } x p).put y o) (upd (upd a x (some w)) y (some v))
          (upd' (upd' g (.inl x) (some (p, w))) (.inl y) (some (o, v))) := by
      intro h G
      refine ⟨G, ?_, ?_, ?_⟩
      · intro n; simp [upd', R.temps n]
      · intro z
        by_cases hzy : z = y
        · subst hzy; simp [St.put, upd, upd']
        · by_cases hzx : z = x
          · subst hzx; simp [St.put, upd, upd', hzy]
          · simp [St.put, upd, upd', hzx, hzy, R.vars z]
      · intro z
        by_cases hzy : z = y
        · subst hzy; simp [upd, upd']
        · by_cases hzx : z = x
          · subst hzx; simp [upd, upd', hzy]
          · simp [upd, upd', hzx, hzy, R.abs z]
    have G := good_swap R.good (.inl x) (.inl y) hg hgp
    have e1 : ∀ o : Obj Ty V, (moveClone c o).1 = o := fun o => by cases o <;> rfl
    have e2 : ∀ (h : Heap V) (o : Obj Ty V), destruct h (moveClone c o).2 = some h := fun h o => by cases o <;> rfl
    refine .inl ⟨_, _, ?_, fin G⟩
    simp only [swap, ho, hp]
    by_cases ht : o.type c = p.type c
    · rw [if_pos ht]
      cases o with
      | loc u =>
        cases p with
        | loc u' => rfl
        | rem t q =>
          have h1 := H.loc u rfl
          have h2 := H'.rem t q rfl
          simp only [Obj.type] at ht; rw [ht, h2] at h1; cases h1
      | rem t q =>
        cases p with
        | loc u' =>
          have h1 := H'.loc u' rfl
          have h2 := H.rem t q rfl
          simp only [Obj.type] at ht; rw [ht] at h2; rw [h2] at h1; cases h1
        | rem t' q' =>
          simp only [Obj.type] at ht; subst ht
          rfl
    · rw [if_neg ht]
      simp only [e1, e2]
  · cases hm

theorem sim_write {s : St Ty V} {a a' g} (R : Rel c s a g) {x v} (hm : mean c a (.write x v) = some a') :
    Sim c s a a' (∃ w, a x = some (.val w) ∧ c.ty w ≠ c.ty v) (write c s x v) := by
  simp only [mean] at hm
  split at hm
  · rename_i w hx
    obtain ⟨o, hg, ho, H⟩ := R.at hx
    have hty : o.type c = c.ty w := H.type
    split at hm
    · rename_i hwv
      cases hm
      have hne : ¬ (o.type c ≠ c.ty v) := fun hh => hh (hty.trans hwv)
      have hv := H.val w rfl
      left
      simp only [write, ho, hne, if_false]
      cases o with
      | loc u =>
        simp only
        simp only [Obj.type] at hty
        refine ⟨_, _, rfl, R.put (h := s.heap) (w := .val v) ?_⟩
        have G := R.good
        refine ⟨?_, ?_, ?_⟩
        · intro j o' w' hj
          unfold upd' at hj
          split at hj
          · cases hj
            refine ⟨rfl, ?_, ?_, ?_, ?_⟩
            · rintro u' hu; cases hu
              have := H.loc u rfl
              rw [hty, hwv] at this; exact this
            · rintro t p ht; cases ht
            · rintro t p ht; cases ht
            · rintro u hu; cases hu; rfl
          · exact G.holds j o' w' hj
        · intro j k o1 w1 o2 w2 p hj hk h1 h2
          unfold upd' at hj hk
          split at hj
          · cases hj; cases h1
          · split at hk
            · cases hk; cases h2
            · exact G.uniq j k _ _ _ _ p hj hk h1 h2
        · intro p hp
          obtain ⟨j, o', w', hj, ho'⟩ := G.leak p hp
          refine ⟨j, o', w', ?_, ho'⟩
          unfold upd'
          rw [if_neg]
          · exact hj
          · rintro rfl; rw [hg] at hj; cases hj; cases ho'
      | rem t q =>
        cases q with
        | none => cases hv
        | some q =>
          simp only [Obj.get] at hv
          simp only [Obj.type] at hty
          simp only [hv]
          have G := R.good
          refine ⟨_, upd' g (.inl x) (some (.rem t (some q), .val v)), rfl, ⟨?_, ?_, ?_⟩, ?_, ?_, ?_⟩
          · intro j o' w' hj
            unfold upd' at hj
            split at hj
            · cases hj
              refine ⟨hty.trans hwv, ?_, ?_, ?_, ?_⟩
              · rintro u' hu; cases hu
              · rintro t p ht; cases ht; exact H.rem _ _ rfl
              · rintro t p ht; cases ht
                exact ⟨v, by simp [upd], (hty.trans hwv).symm⟩
              · rintro u hu; cases hu; simp [Obj.get, upd]
            · rename_i hji
              exact holds_other (G.holds j o' w' hj) (fun hp => hji (G.uniq j _ _ _ _ _ q hj hg hp rfl)) _
          · intro j k o1 w1 o2 w2 p hj hk h1 h2
            unfold upd' at hj hk
            split at hj
            · rename_i hji
              split at hk
              · rename_i hki; rw [hji, hki]
              · cases hj
                rw [hji]; exact G.uniq _ _ _ _ _ _ p hg hk h1 h2
            · split at hk
              · rename_i hki
                cases hk
                rw [hki]; exact G.uniq _ _ _ _ _ _ p hj hg h1 h2
              · exact G.uniq j k _ _ _ _ p hj hk h1 h2
          · intro p hp
            have hp' : s.heap p ≠ none := by
              simp only [upd] at hp
              split at hp
              · rename_i hpq; rw [hpq, hv]; simp
              · exact hp
            obtain ⟨j, o', w', hj, ho'⟩ := G.leak p hp'
            by_cases hjx : j = .inl x
            · subst hjx
              rw [hg] at hj; cases hj
              exact ⟨.inl x, .rem t (some q), .val v, by simp [upd'], ho'⟩
            · exact ⟨j, o', w', by simp [upd', hjx, hj], ho'⟩
          · intro n; simp [upd', R.temps n]
          · intro y
            by_cases hy : y = x
            · subst hy; simp [upd', R.vars y, hg]
            · simp [upd', hy, R.vars y]
          · intro y
            by_cases hy : y = x
            · subst hy; simp [upd, upd']
            · simp [upd, upd', hy, R.abs y]
    · rename_i hwv
      refine .inr ⟨⟨w, hx, hwv⟩, ?_⟩
      have hne : o.type c ≠ c.ty v := fun hh => hwv (hty.symm.trans hh)
      simp only [write, ho, hne, ne_eq, not_false_iff, if_true]
  · cases hm

theorem sim_destroy {s : St Ty V} {a a' g} (R : Rel c s a g) {x} (hm : mean c a (.destroy x) = some a') :
    Sim c s a a' False (destroy s x) := by
  simp only [mean] at hm
  split at hm
  · rename_i w hx
    cases hm
    obtain ⟨o, hg, ho, H⟩ := R.at hx
    obtain ⟨h1, e1, G1, _⟩ := good_destruct R.good hg
    refine .inl ⟨⟨h1, upd s.vars x none⟩, _, by simp only [destroy, ho, e1], G1, ?_, ?_, ?_⟩
    · intro n; simp [upd', R.temps n]
    · intro y
      by_cases hy : y = x
      · subst hy; simp [upd, upd']
      · simp [upd, upd', hy, R.vars y]
    · intro y
      by_cases hy : y = x
      · subst hy; simp [upd, upd']
      · simp [upd, upd', hy, R.abs y]
  · cases hm

end Verif.Any
