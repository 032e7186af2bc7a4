import Verif.Eve.Guides
/-! Coordinates and outsets. -/
namespace Verif.Eve

/-- What a view is told about its place, with a position that replaces its own. -/
def Place.at (p : Place) (x : Int) : Place := { p with position := x }

/-- The places of the visible views, with absolute positions, from a layout with nested coordinates: a position is relative to the
nearest view above that has coordinates of its own (`create`). -/
def Tree.absolute (base : Int) : Tree Item → List Place
  | .node false _ _ => []
  | .node true a ks =>
    a.place.at (base + a.place.position) ::
      absolutes (if a.create then base + a.place.position else base) ks
where
  absolutes (base : Int) : List (Tree Item) → List Place
    | [] => []
    | t :: ts => absolute base t ++ absolutes base ts

/-- The places of the visible views as they are. -/
def Tree.places : Tree Item → List Place
  | .node false _ _ => []
  | .node true a ks => a.place :: placess ks
where
  placess : List (Tree Item) → List Place
    | [] => []
    | t :: ts => places t ++ placess ts

/-- The same view, once with nested and once with flat coordinates. -/
def Twin (base : Int) (x y : Item) : Prop := y = { x with place := x.place.at (base + x.place.position) }

theorem flattenStep_twin {base : Int} {x y : Item} {kids : List Item} {x' y' : Item} {kx ky : List Item} {b b' : Bool}
    (ht : Twin base x y) (hx : flattenStep .nested x kids = .ok (x', kx, b))
    (hy : flattenStep .flat y kids = .ok (y', ky, b')) :
    x' = pushGuides x ∧ y' = pushGuides y ∧
    List.Forall₂ (Twin (if x.create then base + x.place.position else base)) kx ky := by
  unfold flattenStep at hx hy
  rw [if_neg (by simp)] at hy
  simp only [Except.ok.injEq, Prod.mk.injEq] at hy
  obtain ⟨rfl, rfl, _⟩ := hy
  split at hx
  · rename_i hc
    simp only [Except.ok.injEq, Prod.mk.injEq] at hx
    obtain ⟨rfl, rfl, _⟩ := hx
    refine ⟨rfl, rfl, ?_⟩
    rw [if_pos hc.2, List.forall₂_map_right_iff]
    refine List.forall₂_same.2 (fun c _ => ?_)
    unfold Twin at ht ⊢
    rw [ht]
    simp only [Place.at]
    rw [show c.place.position + (base + x.place.position) = base + x.place.position + c.place.position by omega]
  · rename_i hc
    simp only [Except.ok.injEq, Prod.mk.injEq] at hx
    obtain ⟨rfl, rfl, _⟩ := hx
    refine ⟨rfl, rfl, ?_⟩
    have hc' : ¬ x.create = true := fun h => hc ⟨rfl, h⟩
    rw [if_neg hc', List.forall₂_map_right_iff, List.forall₂_map_left_iff]
    refine List.forall₂_same.2 (fun c _ => ?_)
    unfold Twin at ht ⊢
    rw [ht]
    simp only [Place.at]
    rw [show c.place.position + (base + x.place.position) = base + (c.place.position + x.place.position) by omega]

theorem twin_push {base : Int} {x y : Item} (h : Twin base x y) :
    (pushGuides y).place = (pushGuides x).place.at (base + (pushGuides x).place.position) ∧
    (pushGuides x).create = x.create ∧ (pushGuides x).place.position = x.place.position := by
  unfold Twin at h
  subst h
  unfold pushGuides Place.at
  cases x.align <;> simp

theorem pres_twin : ∀ (n : Nat) (base : Int) (ts tn tf : List (Tree Item)) (as bs : List Item) (b b' : Bool),
    Tree.count.counts ts ≤ n → as.length = (Tree.roots ts).length → List.Forall₂ (Twin base) as bs →
    Tree.pre.pres (flattenStep .nested) ts as = .ok (tn, b) →
    Tree.pre.pres (flattenStep .flat) ts bs = .ok (tf, b') →
    Tree.absolute.absolutes base tn = Tree.places.placess tf
  | n, base, [], tn, tf, as, bs, b, b', _, _, _, h1, h2 => by
    simp only [Tree.pres_nil, Tree.pres_false, Tree.pres_true, Except.ok.injEq, Prod.mk.injEq] at h1 h2
    rw [← h1.1, ← h2.1]; simp [Tree.absolute.absolutes, Tree.places.placess]
  | n, base, .node false a ks :: ts, tn, tf, as, bs, b, b', hn, hl, hab, h1, h2 => by
    obtain ⟨us, f1, rfl⟩ := Tree.pres_false_ok h1
    obtain ⟨vs, f2, rfl⟩ := Tree.pres_false_ok h2
    simp only [Tree.count.counts, Tree.count] at hn
    cases n with
    | zero => omega
    | succ n =>
      simp only [Tree.absolute.absolutes, Tree.places.placess, Tree.absolute, Tree.places, List.nil_append]
      exact pres_twin n base ts us vs as bs b b' (by omega) (by simpa [Tree.roots, Tree.visible] using hl) hab f1 f2
  | n, base, .node true a ks :: ts, tn, tf, as, bs, b, b', hn, hl, hab, h1, h2 => by
    obtain ⟨t1, b1, us, b2, f1, f1', rfl, rfl⟩ := Tree.pres_true_ok h1
    obtain ⟨t2, b3, vs, b4, f2, f2', rfl, rfl⟩ := Tree.pres_true_ok h2
    simp only [Tree.roots, Tree.visible, if_true, List.length_cons] at hl
    simp only [Tree.count.counts, Tree.count] at hn
    cases n with
    | zero => omega
    | succ n =>
    cases hab with
    | nil => simp at hl
    | @cons x y xs ys hxy hxys =>
      simp only [List.headD_cons, List.tail_cons] at f1 f2 f1' f2'
      obtain ⟨x', kx, c1, ksx, c2, e1, e2, rfl, _⟩ := Tree.pre_node_ok f1
      obtain ⟨y', ky, d1, ksy, d2, g1, g2, rfl, _⟩ := Tree.pre_node_ok f2
      obtain ⟨rfl, rfl, hk⟩ := flattenStep_twin hxy e1 g1
      obtain ⟨m1, m2, m3⟩ := twin_push hxy
      have hlen : kx.length = (Tree.roots ks).length := by
        have := flattenStep_count .nested _ _ _ e1; simpa using this
      have r1 := pres_twin n _ ks ksx ksy kx ky c2 d2 (by omega) hlen hk e2 g2
      have r2 := pres_twin n base ts us vs xs ys b2 b4 (by omega) (by simpa using hl) hxys f1' f2'
      simp only [Tree.absolute.absolutes, Tree.places.placess, Tree.absolute, Tree.places]
      rw [m2, r2, m1]
      rw [m3, r1]

theorem pre_twin {t tn tf : Tree Item} {b b' : Bool} (h1 : t.pre (flattenStep .nested) = .ok (tn, b))
    (h2 : t.pre (flattenStep .flat) = .ok (tf, b')) : tn.absolute 0 = tf.places := by
  match t, h1, h2 with
  | .node false a ks, h1, h2 =>
    simp only [Tree.pre_false, Tree.pre_true, Except.ok.injEq, Prod.mk.injEq] at h1 h2
    rw [← h1.1, ← h2.1]; simp [Tree.absolute, Tree.places]
  | .node true a ks, h1, h2 =>
    obtain ⟨x', kx, c1, ksx, c2, e1, e2, rfl, _⟩ := Tree.pre_node_ok h1
    obtain ⟨y', ky, d1, ksy, d2, g1, g2, rfl, _⟩ := Tree.pre_node_ok h2
    have ht : Twin 0 a a := by simp [Twin, Place.at]
    obtain ⟨rfl, rfl, hk⟩ := flattenStep_twin ht e1 g1
    obtain ⟨m1, m2, m3⟩ := twin_push ht
    have hlen : kx.length = (Tree.roots ks).length := by
      have := flattenStep_count .nested _ _ _ e1; simpa using this
    have r1 := pres_twin _ _ ks ksx ksy kx ky c2 d2 (Nat.le_refl _) hlen hk e2 g2
    simp only [Tree.absolute, Tree.places]
    rw [m2, m3]
    rw [m3] at m1
    rw [r1, ← m1]

/-! ### outsets -/

theorem foldl_min_le (f : Item → Int) : ∀ (ks : List Item) (m : Int),
    ks.foldl (fun m c => min m (f c)) m ≤ m ∧ ∀ c ∈ ks, ks.foldl (fun m c => min m (f c)) m ≤ f c
  | [], m => by simp
  | d :: ds, m => by
    obtain ⟨h1, h2⟩ := foldl_min_le f ds (min m (f d))
    simp only [List.foldl_cons]
    refine ⟨by omega, fun c hc => ?_⟩
    rcases List.mem_cons.1 hc with rfl | hc
    · omega
    · exact h2 c hc

/-- The outset region of `c` is in that of `p`, whose leading edge is at `d`. -/
def Covers (d : Int) (p c : Item) : Prop :=
  d - p.place.outset.1 ≤ c.place.position - c.place.outset.1 ∧
    c.place.position + c.place.length + c.place.outset.2 ≤ d + p.place.length + p.place.outset.2

theorem outsetsStep_covers {s : Slice} {p0 p : Item} {kids : List Item} (h : outsetsStep s p0 kids = .ok (p, kids)) :
    (kids = [] → p.place.outset = p.ext.outset) ∧
    (isWith s p.placement = false → ∀ c ∈ kids, Covers 0 p c) ∧
    (isWith s p.placement = true → ∀ c, kids.head? = some c → -p.place.outset.1 ≤ c.place.position - c.place.outset.1) ∧
    (isWith s p.placement = true → ∀ c, kids.getLast? = some c →
      c.place.position + c.place.length + c.place.outset.2 ≤ p.place.length + p.place.outset.2) := by
  unfold outsetsStep at h
  simp only [Except.ok.injEq, Prod.mk.injEq, and_true] at h
  have hpl : p.placement = p0.placement := by
    rw [← h]
    split
    · unfold outsetsWith; split <;> rfl
    · unfold outsetsCross; split <;> rfl
  rw [hpl]
  cases hw : isWith s p0.placement with
  | true =>
    rw [hw] at h
    simp only [if_true] at h
    refine ⟨?_, by simp, ?_, ?_⟩
    · rintro rfl
      rw [← h]; simp [outsetsWith]
    · intro _ c hc
      cases kids with
      | nil => simp at hc
      | cons k ks =>
        cases hl : (k :: ks).getLast? with
        | none => simp at hl
        | some l =>
          simp only [List.head?_cons, Option.some.injEq] at hc
          subst hc
          unfold outsetsWith at h
          rw [hl] at h
          simp only [List.head?_cons] at h
          rw [← h]
          simp only
          omega
    · intro _ c hc
      cases kids with
      | nil => simp at hc
      | cons k ks =>
        unfold outsetsWith at h
        rw [hc] at h
        simp only [List.head?_cons] at h
        rw [← h]
        simp only
        omega
  | false =>
    rw [hw] at h
    simp only [Bool.false_eq_true, if_false] at h
    refine ⟨?_, ?_, by simp, by simp⟩
    · rintro rfl
      rw [← h]; simp [outsetsCross]
    · intro _ c hc
      cases kids with
      | nil => simp at hc
      | cons k ks =>
        unfold outsetsCross at h
        simp only at h
        have h1 := (foldl_min_le (fun c => c.place.position - c.place.outset.1) (k :: ks) p0.ext.frame.1).2 c hc
        have h2 := (foldl_min_le (fun c => p0.place.length - (c.place.position + c.place.length + c.place.outset.2))
          (k :: ks) p0.ext.frame.2).2 c hc
        rw [← h]
        unfold Covers
        simp only
        omega

/-- What the outset pass leaves, after the change of coordinates. -/
theorem final_outsets {s : Slice} {o : Options} {L : Item → List Item → Prop} {p : Item} {kids : List Item}
    (h : Final o (Outset s L) p kids) :
    (kids = [] → p.place.outset = p.ext.outset) ∧
    (isWith s p.placement = false → ∀ c ∈ kids, Covers (origin o p) p c) ∧
    (isWith s p.placement = true → ∀ c, kids.head? = some c →
      origin o p - p.place.outset.1 ≤ c.place.position - c.place.outset.1) ∧
    (isWith s p.placement = true → ∀ c, kids.getLast? = some c →
      c.place.position + c.place.length + c.place.outset.2 ≤ origin o p + p.place.length + p.place.outset.2) := by
  obtain ⟨p2, q, ks2, ⟨_, p0, _, hs⟩, h2, h3⟩ := h
  obtain ⟨m1, m2, m3, m4⟩ := outsetsStep_covers hs
  obtain ⟨g, hg⟩ := pushGuides_eq { p2 with place := { p2.place with position := q } }
  rw [hg] at h2
  have e1 : p.place.outset = p2.place.outset := by rw [h2]
  have e2 : p.ext = p2.ext := by rw [h2]
  have e3 : p.placement = p2.placement := by rw [h2]
  have e4 : p.place.length = p2.place.length := by rw [h2]
  have hrel : List.Forall₂ (fun a b : Item => b.place.position = a.place.position + origin o p ∧
      b.place.length = a.place.length ∧ b.place.outset = a.place.outset) ks2 kids := by
    refine h3.imp ?_
    intro a b hs
    unfold Shifted at hs
    obtain ⟨g', hg'⟩ := pushGuides_eq { a with place := { a.place with position := a.place.position + origin o p } }
    rw [hs, hg']
    exact ⟨rfl, rfl, rfl⟩
  rw [e1, e2, e3, e4]
  refine ⟨?_, ?_, ?_, ?_⟩
  · intro hk
    subst hk
    cases hrel
    exact m1 rfl
  · intro hw c hc
    obtain ⟨d, hd, k1, k2, k3⟩ := forall₂_mem hrel c hc
    have := m2 hw d hd
    unfold Covers at *
    rw [e1, e4, k1, k2, k3]
    omega
  · intro hw c hc
    cases hrel with
    | nil => simp at hc
    | cons hab _ =>
      simp only [List.head?_cons, Option.some.injEq] at hc
      subst hc
      have := m3 hw _ rfl
      rw [hab.1, hab.2.2]
      omega
  · intro hw c hc
    have hlast : ∃ d, ks2.getLast? = some d ∧ c.place.position = d.place.position + origin o p ∧
      c.place.length = d.place.length ∧ c.place.outset = d.place.outset := by
      have hr := List.rel_reverse hrel
      rw [← List.head?_reverse] at hc
      cases hks : kids.reverse with
      | nil => rw [hks] at hc; simp at hc
      | cons k ks =>
        rw [hks] at hr hc
        simp only [List.head?_cons, Option.some.injEq] at hc
        subst hc
        cases hks2 : ks2.reverse with
        | nil => rw [hks2] at hr; cases hr
        | cons d ds =>
          rw [hks2] at hr
          rw [List.forall₂_cons] at hr
          refine ⟨d, ?_, hr.1⟩
          rw [← List.head?_reverse, hks2]; rfl
    obtain ⟨d, hd, k1, k2, k3⟩ := hlast
    have := m4 hw d hd
    rw [k1, k2, k3]
    omega

end Verif.Eve
