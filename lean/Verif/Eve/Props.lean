import Verif.Eve.Share
import Verif.Eve.Coord
import Verif.Eve.Eval
/-! The theorems about the layout engine. -/
namespace Verif.Eve

/-! ### rounding -/

/-- `lround_half_up(double(n) / double(d) * a)` (adobe/cmath.hpp) computed exactly. -/
def roundExact (n d a : Int) : Int := (2 * n * a + d).fdiv (2 * d)

theorem roundExact_good : GoodRnd roundExact := by
  intro n d a hn hd h0 ha
  unfold roundExact
  rw [Int.fdiv_eq_ediv_of_nonneg _ (by omega)]
  have h1 : 0 ≤ 2 * n * a := Int.mul_nonneg (by omega) ha
  have h2 : n * a ≤ d * a := Int.mul_le_mul_of_nonneg_right hd ha
  refine ⟨Int.ediv_nonneg (by omega) (by omega), ?_⟩
  apply Int.le_of_lt_add_one
  rw [Int.ediv_lt_iff_lt_mul (by omega)]
  have e1 : (a + 1) * (2 * d) = 2 * (d * a) + 2 * d := by
    rw [Int.add_mul, Int.one_mul, Int.mul_comm a, Int.mul_assoc]
  have e2 : 2 * n * a = 2 * (n * a) := Int.mul_assoc ..
  omega

/-! ### the size of the whole -/

mutual
theorem Tree.forall_true {α : Type} : ∀ t : Tree α, t.Forall (fun _ _ => True)
  | .node false _ _ => by simp [Tree.Forall]
  | .node true a ks => by
    simp only [Tree.Forall]
    exact ⟨trivial, Tree.foralls_true ks⟩
theorem Tree.foralls_true {α : Type} : ∀ ts : List (Tree α), Tree.Forall.Foralls (fun _ _ => True) ts
  | [] => by simp [Tree.Forall.Foralls]
  | t :: ts => by
    simp only [Tree.Forall.Foralls]
    exact ⟨Tree.forall_true t, Tree.foralls_true ts⟩
end

mutual
theorem Tree.forall_of_invisible {α : Type} {P : α → List α → Prop} : ∀ t : Tree α, t.visible = false → t.Forall P
  | .node false _ _, _ => by simp [Tree.Forall]
end

theorem run_root {rnd : Int → Int → Int → Int} {s : Slice} {o : Options} {length : Int} {t t' : Tree Item}
    (ps : Passes rnd s o length t t') :
    t'.visible = t.visible ∧ ps.ts.visible = t.visible ∧ (t.visible = true →
      t'.root.place.length = (if length ≠ 0 then length else ps.ts.root.clength) ∧
      t'.root.clength = ps.ts.root.clength) := by
  have v1 := Tree.post_visible ps.adjusted
  obtain ⟨_, v2, _⟩ := solve_ok (P := fun _ _ => True) (fun _ _ _ _ _ _ _ => trivial) ps.solved (Tree.forall_true _)
  obtain ⟨r3, v3, _⟩ := layout_gen (E := fun _ _ => True) (fun _ _ _ _ _ => trivial) ps.laid (Tree.forall_true _)
  obtain ⟨r4, v4, _⟩ := outsets_ok ps.outset (Tree.forall_true _)
  obtain ⟨r5, _⟩ := flatten_ok ps.flat (Tree.forall_true _)
  have v5 := Tree.pre_visible ps.flat
  have hv : ps.ts.visible = t.visible := v2.trans v1
  refine ⟨by rw [v5, v4, v3, hv], hv, fun h => ?_⟩
  have e3 := r3 (by rw [hv, h])
  obtain ⟨x, e4⟩ := r4 (by rw [v3, hv, h])
  have e5 := r5 (by rw [v4, v3, hv, h])
  obtain ⟨g, hg⟩ := pushGuides_eq ps.tu.root
  rw [e5, hg, e4, e3]
  exact ⟨rfl, rfl⟩

/-- The length asked for is at least what the views need: it is 0, or the length the layout chooses when asked with 0 is not
larger. -/
def Fits (rnd : Int → Int → Int → Int) (s : Slice) (o : Options) (length : Int) (t : Tree Item) : Prop :=
  length = 0 ∨ ∃ t0, runSlice rnd s o 0 t = .ok t0 ∧ t0.root.place.length ≤ length

theorem fits_passes {rnd : Int → Int → Int → Int} {s : Slice} {o : Options} {length : Int} {t t' : Tree Item}
    (h : Fits rnd s o length t) (ps : Passes rnd s o length t t') (hv : t.visible = true) :
    length = 0 ∨ ps.ts.root.clength ≤ length := by
  rcases h with h | ⟨t0, h0, hle⟩
  · exact Or.inl h
  · obtain ⟨qs⟩ := passes h0
    have e1 := qs.adjusted
    rw [ps.adjusted] at e1
    simp only [Except.ok.injEq] at e1
    have e2 := qs.solved
    rw [← e1, ps.solved] at e2
    simp only [Except.ok.injEq, Prod.mk.injEq] at e2
    obtain ⟨_, _, k⟩ := run_root qs
    have := (k hv).1
    simp only [ne_eq, not_true_eq_false, if_false] at this
    rw [this, ← e2.1] at hle
    exact Or.inr hle

/-! ### containment -/

/-- C62: children are inside of the frame and margin of their container, in order and at least the spacing apart. -/
theorem C62_children_contained_partial {rnd : Int → Int → Int → Int} (hrnd : GoodRnd rnd) {s : Slice} {o : Options}
    {length : Int} {t t' : Tree Item} (h : runSlice rnd s o length t = .ok t')
    (hs : t.Forall (fun p kids => (p.leaf = false → Sane s p kids) ∧ LeafOk p kids)) (hf : Fits rnd s o length t) :
    t'.Forall (fun p kids => p.leaf = false → Contained s o p kids ∧ p.clength ≤ p.place.length) := by
  obtain ⟨ps⟩ := passes h
  obtain ⟨v1, _, _⟩ := run_root ps
  cases hv : t.visible with
  | false => exact Tree.forall_of_invisible _ (by rw [v1, hv])
  | true =>
    have := run_final hrnd ps hs (fits_passes hf ps hv) (E := fun _ _ => True) (fun _ _ _ _ _ => trivial)
      (Tree.forall_true _)
    exact this.imp (fun p kids h hl => contained_of_final h hl)

/-! #### both slices -/

mutual
theorem Tree.forall_map {α β : Type} {f : α → β} {P : β → List β → Prop} : ∀ t : Tree α,
    (t.map f).Forall P ↔ t.Forall (fun a ks => P (f a) (ks.map f))
  | .node false _ _ => by simp [Tree.map, Tree.Forall]
  | .node true a ks => by
    simp only [Tree.map, Tree.Forall, Tree.roots_maps, Tree.foralls_map ks]
theorem Tree.foralls_map {α β : Type} {f : α → β} {P : β → List β → Prop} : ∀ ts : List (Tree α),
    Tree.Forall.Foralls P (Tree.map.maps f ts) ↔ Tree.Forall.Foralls (fun a ks => P (f a) (ks.map f)) ts
  | [] => by simp [Tree.map.maps, Tree.Forall.Foralls]
  | t :: ts => by
    simp only [Tree.map.maps, Tree.Forall.Foralls, Tree.forall_map t, Tree.foralls_map ts]
end

theorem Tree.mapVisible_root {α : Type} {f : α → α} : ∀ t : Tree α, t.visible = true → (t.mapVisible f).root = f t.root
  | .node true _ _, _ => rfl

theorem Tree.mapVisible_visible {α : Type} {f : α → α} : ∀ t : Tree α, (t.mapVisible f).visible = t.visible
  | .node true _ _ => rfl
  | .node false _ _ => rfl

theorem Tree.roots_mapVisibles {α : Type} {f : α → α} : ∀ ts : List (Tree α),
    Tree.roots (Tree.mapVisible.mapVisibles f ts) = (Tree.roots ts).map f
  | [] => rfl
  | t :: ts => by
    simp only [Tree.mapVisible.mapVisibles, Tree.roots, Tree.mapVisible_visible]
    split
    · rename_i h
      rw [Tree.mapVisible_root t h, Tree.roots_mapVisibles ts]; rfl
    · exact Tree.roots_mapVisibles ts

mutual
theorem Tree.forall_mapVisible {α : Type} {f : α → α} {P : α → List α → Prop} : ∀ t : Tree α,
    (t.mapVisible f).Forall P ↔ t.Forall (fun a ks => P (f a) (ks.map f))
  | .node false _ _ => by simp [Tree.mapVisible, Tree.Forall]
  | .node true a ks => by
    simp only [Tree.mapVisible, Tree.Forall, Tree.roots_mapVisibles, Tree.foralls_mapVisible ks]
theorem Tree.foralls_mapVisible {α : Type} {f : α → α} {P : α → List α → Prop} : ∀ ts : List (Tree α),
    Tree.Forall.Foralls P (Tree.mapVisible.mapVisibles f ts) ↔ Tree.Forall.Foralls (fun a ks => P (f a) (ks.map f)) ts
  | [] => by simp [Tree.mapVisible.mapVisibles, Tree.Forall.Foralls]
  | t :: ts => by
    simp only [Tree.mapVisible.mapVisibles, Tree.Forall.Foralls, Tree.forall_mapVisible t, Tree.foralls_mapVisible ts]
end

/-- What a view can answer when it is asked for its vertical extents. -/
def Proxy.measures (p : Proxy) (e : Ext) : Prop :=
  match p.measureVertical with
  | none => e = p.v.ext
  | some f => ∃ h v ph pv, e = f h v ph pv

/-- The condition of `C62_children_contained_partial` for a container and both slices, whatever the vertical extents of the
views turn out to be. -/
def SaneBoth (p : Proxy) (kids : List Proxy) : Prop :=
  (p.h.leaf = false → Sane .horizontal p.h (kids.map Proxy.h)) ∧ LeafOk p.h (kids.map Proxy.h) ∧
  LeafOk p.v (kids.map Proxy.v) ∧
  ∀ e es, p.measures e → List.Forall₂ Proxy.measures kids es → p.v.leaf = false →
    Sane .vertical (p.v.measured e) (List.zipWith (fun (k : Proxy) e => k.v.measured e) kids es)

theorem calculateVertical_measures (p : Proxy) : ∃ e, p.measures e ∧ (calculateVertical p).v = p.v.measured e := by
  unfold Proxy.measures calculateVertical
  cases p.measureVertical with
  | none => exact ⟨_, rfl, rfl⟩
  | some f => exact ⟨_, ⟨_, _, _, _, rfl⟩, rfl⟩

theorem calculateVertical_list : ∀ ks : List Proxy, ∃ es, List.Forall₂ Proxy.measures ks es ∧
    ks.map (fun p => (calculateVertical p).v) = List.zipWith (fun (k : Proxy) e => k.v.measured e) ks es
  | [] => ⟨[], .nil, rfl⟩
  | k :: ks => by
    obtain ⟨es, h1, h2⟩ := calculateVertical_list ks
    obtain ⟨e, h3, h4⟩ := calculateVertical_measures k
    exact ⟨e :: es, .cons h3 h1, by simp [h2, h4]⟩

/-- The vertical half of `SaneBoth`. -/
def SaneVertical (p : Proxy) (kids : List Proxy) : Prop :=
  LeafOk p.v (kids.map Proxy.v) ∧
  ∀ e es, p.measures e → List.Forall₂ Proxy.measures kids es → p.v.leaf = false →
    Sane .vertical (p.v.measured e) (List.zipWith (fun (k : Proxy) e => k.v.measured e) kids es)

theorem saneVertical_without {p : Proxy} {kids : List Proxy} :
    SaneVertical (p.without .horizontal) (kids.map (Proxy.without .horizontal)) ↔ SaneVertical p kids := by
  unfold SaneVertical
  have e1 : (kids.map (Proxy.without .horizontal)).map Proxy.v = kids.map Proxy.v := by
    rw [List.map_map]; rfl
  have e2 : ∀ es, List.Forall₂ Proxy.measures (kids.map (Proxy.without .horizontal)) es ↔ List.Forall₂ Proxy.measures kids es := by
    intro es
    rw [List.forall₂_map_left_iff]; rfl
  have e3 : ∀ es, List.zipWith (fun (k : Proxy) e => k.v.measured e) (kids.map (Proxy.without .horizontal)) es
      = List.zipWith (fun (k : Proxy) e => k.v.measured e) kids es := by
    intro es
    rw [List.zipWith_map_left]; rfl
  rw [e1]
  simp only [e2, e3]
  rfl

theorem saneVertical_measured {t : Tree Proxy} (h : t.Forall SaneVertical) :
    ((t.mapVisible calculateVertical).map Proxy.v).Forall
      (fun p kids => (p.leaf = false → Sane .vertical p kids) ∧ LeafOk p kids) := by
  rw [Tree.forall_map, Tree.forall_mapVisible]
  refine h.imp ?_
  rintro p kids ⟨h1, h2⟩
  rw [List.map_map]
  obtain ⟨e, k1, k2⟩ := calculateVertical_measures p
  obtain ⟨es, k3, k4⟩ := calculateVertical_list kids
  rw [k2]
  have : kids.map (Proxy.v ∘ calculateVertical) = kids.map (fun p => (calculateVertical p).v) := rfl
  rw [this, k4]
  refine ⟨fun hl => h2 e es k1 k3 hl, fun hl => ?_⟩
  have := h1 hl
  rw [List.map_eq_nil_iff] at this
  subst this; rfl

/-- C62, for a whole layout: `width` and `height` are 0, or not less than what the layout chooses by itself. -/
theorem C62_layout_contained_partial {rnd : Int → Int → Int → Int} (hrnd : GoodRnd rnd) {o : Options}
    {width height w h : Int} {t t' : Tree Proxy} (e : adjust rnd o width height t = .ok (t', w, h))
    (hs : t.Forall SaneBoth)
    (hw : width = 0 ∨ ∃ t0 w0 h0, adjust rnd o 0 height t = .ok (t0, w0, h0) ∧ w0 ≤ width)
    (hh : height = 0 ∨ ∃ t0 w0 h0, adjust rnd o width 0 t = .ok (t0, w0, h0) ∧ h0 ≤ height) :
    t'.Forall (fun p kids =>
      (p.h.leaf = false → Contained .horizontal o p.h (kids.map Proxy.h) ∧ p.h.clength ≤ p.h.place.length) ∧
      (p.v.leaf = false → Contained .vertical o p.v (kids.map Proxy.v) ∧ p.v.clength ≤ p.v.place.length)) := by
  obtain ⟨t1, r1, a1, a2, a3, a4, a5, a6⟩ := adjust_parts e
  have f1 : Fits rnd .horizontal o width (t.map Proxy.h) := by
    rcases hw with hw | ⟨t0, w0, h0, e0, hle⟩
    · exact Or.inl hw
    · obtain ⟨t2, s1, b1, b2, b3, b4, b5, b6⟩ := adjust_parts e0
      refine Or.inr ⟨_, b1, ?_⟩
      have : (t2.map (fun p : Proxy => p.h)).root = (t0.map (fun p : Proxy => p.h)).root := by
        have hc : ∀ p : Proxy, (calculateVertical p).h = p.h := by
          intro p; unfold calculateVertical; split <;> rfl
        have := congrArg Tree.root b4
        rw [Tree.map_root, Tree.map_root] at this
        have := congrArg Proxy.h this
        rw [Tree.map_root, Tree.map_root]
        have h2 : t0.root.h = (t2.mapVisible calculateVertical).root.h := this
        rw [h2]
        cases t2 with
        | node v a ks => cases v <;> simp [Tree.mapVisible, Tree.root, hc]
      rw [show (t2.map Proxy.h).root = t0.root.h from this.trans (Tree.map_root _ _), ← b5]
      exact hle
  have f2 : Fits rnd .vertical o height ((t1.mapVisible calculateVertical).map Proxy.v) := by
    rcases hh with hh | ⟨t0, w0, h0, e0, hle⟩
    · exact Or.inl hh
    · obtain ⟨t2, s1, b1, b2, b3, b4, b5, b6⟩ := adjust_parts e0
      rw [s1] at r1
      simp only [Except.ok.injEq] at r1
      subst r1
      exact Or.inr ⟨_, b2, by rw [Tree.map_root, ← b6]; exact hle⟩
  have c1 := C62_children_contained_partial hrnd a1
    ((Tree.forall_map t).2 (hs.imp (fun p kids h => ⟨h.1, h.2.1⟩))) f1
  have s2 : t1.Forall SaneVertical := by
    have : t.Forall SaneVertical := hs.imp (fun p kids h => h.2.2)
    have h2 : (t.map (Proxy.without .horizontal)).Forall SaneVertical :=
      (Tree.forall_map t).2 (this.imp (fun p kids h => saneVertical_without.2 h))
    rw [← a3, Tree.forall_map] at h2
    exact h2.imp (fun p kids h => saneVertical_without.1 h)
  have c2 := C62_children_contained_partial hrnd a2 (saneVertical_measured s2) f2
  have c3 : t'.Forall (fun p kids =>
      p.h.leaf = false → Contained .horizontal o p.h (kids.map Proxy.h) ∧ p.h.clength ≤ p.h.place.length) := by
    let Q : Proxy → List Proxy → Prop := fun p kids =>
      p.h.leaf = false → Contained .horizontal o p.h (kids.map Proxy.h) ∧ p.h.clength ≤ p.h.place.length
    have hc : ∀ p : Proxy, (calculateVertical p).h = p.h := by
      intro p; unfold calculateVertical; split <;> rfl
    have q1 : t1.Forall Q := (Tree.forall_map t1).1 c1
    have q2 : (t1.mapVisible calculateVertical).Forall Q := by
      rw [Tree.forall_mapVisible]
      refine q1.imp ?_
      intro p kids hq hl
      have e2 : (kids.map calculateVertical).map Proxy.h = kids.map Proxy.h := by
        rw [List.map_map]
        exact List.map_congr_left (fun p _ => hc p)
      rw [hc] at hl ⊢
      rw [e2]
      exact hq hl
    have q3 : ((t1.mapVisible calculateVertical).map (Proxy.without .vertical)).Forall Q := by
      rw [Tree.forall_map]
      refine q2.imp ?_
      intro p kids hq hl
      rw [List.map_map]
      exact hq hl
    rw [← a4, Tree.forall_map] at q3
    refine q3.imp ?_
    intro p kids hq hl
    have := hq hl
    rw [List.map_map] at this
    exact this
  exact (c3.and ((Tree.forall_map t').1 c2))

/-- C62, for `evaluate`. -/
theorem C62_evaluate_contained_partial {rnd : Int → Int → Int → Int} (hrnd : GoodRnd rnd) {o : Options}
    {width height w h : Int} {t t' : Tree Proxy} (e : evaluate rnd o width height t = .ok (t', w, h))
    (hs : (t.mapVisible calculate).Forall SaneBoth)
    (hw : width = 0 ∨ ∃ t0 w0 h0, evaluate rnd o 0 height t = .ok (t0, w0, h0) ∧ w0 ≤ width)
    (hh : height = 0 ∨ ∃ t0 w0 h0, evaluate rnd o width 0 t = .ok (t0, w0, h0) ∧ h0 ≤ height) :
    t'.Forall (fun p kids =>
      (p.h.leaf = false → Contained .horizontal o p.h (kids.map Proxy.h) ∧ p.h.clength ≤ p.h.place.length) ∧
      (p.v.leaf = false → Contained .vertical o p.v (kids.map Proxy.v) ∧ p.v.clength ≤ p.v.place.length)) := by
  simp only [evaluate, post_onEach, bind, Except.bind] at e hw hh
  exact C62_layout_contained_partial hrnd e hs hw hh

/-! ### additional space -/

theorem demand_need {p : Item} : ∀ {ks : List Item} {i : Nat}, Spaced p i ks → need ks = demand p i ks
  | [], _, _ => rfl
  | c :: cs, i, h => by
    rw [need_cons, demand, demand_need h.2, h.1]

theorem takers_eq (ks : List Item) : takers ks = numPadded ks := by
  unfold takers numPadded
  congr 1
  apply List.filter_congr
  intro c _
  have : c.takes ↔ c.align.padded = true := by
    unfold Item.takes Align.padded
    cases c.align <;> simp
  rw [Bool.eq_iff_iff, decide_eq_true_iff]
  exact this

theorem numPadded_congr : ∀ {ks ks' : List Item}, List.Forall₂ (fun a b : Item => b.align = a.align) ks ks' →
    numPadded ks' = numPadded ks
  | _, _, .nil => rfl
  | _, _, .cons h hk => by rw [numPadded_cons, numPadded_cons, numPadded_congr hk, h]

theorem demand_congr {p q : Item} (hs : p.spacing = q.spacing) : ∀ {ks ks' : List Item} {i : Nat},
    List.Forall₂ (fun a b : Item => b.clength = a.clength) ks ks' → demand p i ks = demand q i ks'
  | _, _, _, .nil => rfl
  | _, _, i, .cons h hk => by
    simp only [demand, spacingAt, hs, h]
    rw [demand_congr hs hk]

theorem tiles_of_tiled {p : Item} {d : Int} : ∀ {ks1 ks : List Item} {i : Nat} {lo hi : Int},
    List.Forall₂ (fun a b : Item => b.place.position = a.place.position + d ∧ b.place.length = a.place.length) ks1 ks →
    Spaced p i ks1 → Tiled lo hi ks1 → Tiles p i (lo + d) (hi + d) ks
  | _, _, _, _, _, .nil, _, h => by simp only [Tiled, Tiles] at *; omega
  | _, _, i, _, _, .cons h hs, hsp, hpk => by
    simp only [Tiled, Spaced, Tiles] at *
    refine ⟨by omega, ?_⟩
    have := tiles_of_tiled hs hsp.2 hpk.2
    rw [h.1, h.2, show ∀ a b c : Int, a + b + c = a + c + b by intros; omega]
    exact this

theorem PlainKids_place : PlaceStable PlainKids := fun _ _ _ h _ => h

/-- C63: the additional space is divided evenly, and nothing of it is lost. -/
theorem C63_space_shared {rnd : Int → Int → Int → Int} (hrnd : GoodRnd rnd) {s : Slice} {o : Options}
    {length : Int} {t t' : Tree Item} (h : runSlice rnd s o length t = .ok t')
    (hs : t.Forall (fun p kids => (p.leaf = false → Sane s p kids) ∧ LeafOk p kids)) (hpl : t.Forall PlainKids)
    (hf : Fits rnd s o length t) :
    t'.Forall (fun p kids => p.leaf = false → isWith s p.placement = true →
      0 ≤ spare p kids ∧
      (∀ c ∈ kids, ¬ (c.align = .forwardFill ∨ c.align = .reverseFill) → c.place.length = c.clength) ∧
      (takers kids ≠ 0 → ∀ c ∈ kids, c.align = .forwardFill ∨ c.align = .reverseFill →
        c.place.length = c.clength + spare p kids / takers kids ∨
        c.place.length = c.clength + (spare p kids / takers kids + 1)) ∧
      (takers kids ≠ 0 → (∀ c ∈ kids, c.align ≠ .center ∧ c.align ≠ .proportional) →
        Tiles p 0 (origin o p + p.ext.frame.1 + p.margin.1)
          (origin o p + p.place.length - p.ext.frame.2 - p.margin.2) kids)) := by
  obtain ⟨ps⟩ := passes h
  obtain ⟨v1, _, _⟩ := run_root ps
  cases hv : t.visible with
  | false => exact Tree.forall_of_invisible _ (by rw [v1, hv])
  | true =>
    have he : ps.ts.Forall PlainKids :=
      (solve_ok PlainKids_stable ps.solved (adjust_plain ps.adjusted hpl)).2.2.imp (fun _ _ h => h.1)
    have := run_final hrnd ps hs (fits_passes hf ps hv) PlainKids_place he
    refine this.imp ?_
    intro p kids h hl hw
    obtain ⟨p1, ks0, ks1, ha, hpl, hcl, _, _, hml, hc, hlf, hrel, hnl⟩ := final_unfold h
    obtain ⟨j1, j2, j3, j4, j5⟩ := hnl hl
    have hl1 : p1.leaf = false := by rw [attr_leaf ha]; exact hl
    have hw1 : isWith s p1.placement = true := by rw [attr_placement ha]; exact hw
    have hadj := (j3.1 hl1)
    have hnd := hadj.1
    have hadj := hadj.2
    rw [if_pos hw1] at hadj
    have hup := j3.2 hl1
    rw [if_pos hw1] at hup
    unfold layoutBoth at j5
    rw [if_pos hw1] at j5
    obtain ⟨p0, hg, add, len, fwd, u1, u2, u3, u4, u5⟩ := hup
    have m1 := upFwd_plain j4 u2
    have m2 := upRev_plain (fun c hc => j4 c (by simpa using hc)) u1
    have hm : p1.mlength = p1.near + p1.far + need ks0 := by rw [u4, m1, m2]; omega
    have hle : p1.mlength ≤ p1.place.length := by
      have := mlength_le j3.2 hl1
      rw [hpl]; omega
    have hsp0 : Spaced p 0 ks0 := Spaced_congr (attr_spacing ha) hadj.2.2.2.1
    have hdem : need ks0 = demand p 0 kids := by
      rw [demand_need hsp0]
      refine demand_congr rfl ?_
      refine forall₂_trans (R := SameButPlace) ?_ j2 hrel
      rintro a b c ⟨l, q, rfl⟩ hbc
      exact hbc.2.2.2.1
    have hspare : spare p kids = p1.place.length - p1.mlength := by
      unfold spare
      rw [hm, hdem, hpl, attr_near ha, attr_far ha]
      unfold Item.near Item.far
      omega
    have htk : takers kids = numPadded ks0 := by
      rw [takers_eq]
      have : List.Forall₂ (fun a b : Item => b.align = a.align) ks0 kids := by
        refine forall₂_trans (R := SameButPlace) ?_ j2 hrel
        rintro a b c ⟨l, q, rfl⟩ hbc
        exact attr_align hbc.1
      exact numPadded_congr this
    have hal : ∀ c ∈ kids, ∃ d ∈ ks1, c.align = d.align ∧ c.place.length = d.place.length ∧ c.clength = d.clength := by
      intro c hc
      obtain ⟨d, hd, e⟩ := forall₂_mem hrel c hc
      exact ⟨d, hd, attr_align e.1, e.2.2.1, e.2.2.2.1⟩
    refine ⟨by rw [hspare]; omega, ?_, ?_, ?_⟩
    · intro c hc hn
      obtain ⟨d, hd, e1, e2, e3⟩ := hal c hc
      rw [e2, e3]
      exact layoutWith_keep j5 d hd (by rw [← e1]; exact hn)
    · intro hn c hc hfill
      obtain ⟨d, hd, e1, e2, e3⟩ := hal c hc
      rw [e2, e3, hspare, htk]
      exact (layoutWith_share hle j5 (by rw [← htk]; exact hn) d hd).1 (by rw [← e1]; exact hfill)
    · intro hn ht
      have ht0 : ∀ c ∈ ks0, Plain c ∧ c.align.tight = true := by
        intro c hc
        refine ⟨j4 c hc, ?_⟩
        obtain ⟨d, hd, hcd⟩ : ∃ d ∈ kids, d.align = c.align := by
          have : List.Forall₂ (fun a b : Item => b.align = a.align) ks0 kids := by
            refine forall₂_trans (R := SameButPlace) ?_ j2 hrel
            rintro a b c ⟨l, q, rfl⟩ hbc
            exact attr_align hbc.1
          obtain ⟨d, hd, e⟩ := forall₂_mem this.flip c hc
          exact ⟨d, hd, e⟩
        have h1 := ht d hd
        have h2 := (hnd c hc).1
        rw [hcd] at h1
        unfold Align.tight
        cases hca : c.align <;> simp_all
      have tt := layoutWith_tiled hm hle j5 (by rw [← htk]; exact hn) ht0
      have hsp : Spaced p 0 ks1 := by
        have : ∀ {xs ys : List Item} {i : Nat}, List.Forall₂ SameButPlace xs ys → Spaced p i xs → Spaced p i ys := by
          intro xs ys i hxy
          induction hxy generalizing i with
          | nil => intro _; trivial
          | cons hcd _ ih =>
            obtain ⟨l, q, rfl⟩ := hcd
            exact fun h => ⟨h.1, ih h.2⟩
        exact this j2 hsp0
      have := tiles_of_tiled (d := origin o p) (hrel.imp (fun a b h => ⟨h.2.1, h.2.2.1⟩)) hsp tt
      rw [hpl, attr_near ha, attr_far ha] at this
      unfold Item.near Item.far at this
      rw [show origin o p + p.ext.frame.1 + p.margin.1 = p.ext.frame.1 + p.margin.1 + origin o p by omega,
        show origin o p + p.place.length - p.ext.frame.2 - p.margin.2
          = p.place.length - (p.ext.frame.2 + p.margin.2) + origin o p by omega]
      exact this

/-! ### guides -/

theorem adjust_unbalanced {s : Slice} {t t' : Tree Item} (h : t.post (adjustStep s) = .ok t') (hp : t.Forall Unbalanced) :
    t'.Forall Unbalanced := by
  refine (Tree.post_gen (T := OwnAdj) (S := ByParent) (P0 := Unbalanced) (fun a ks a' ks' e => (adjustStep_ok e).1)
    ?_ ?_ ?_ h hp).2
  · intro a ks ks' h1 _; exact h1
  · intro a ks a' ks' h1 e
    obtain ⟨ho, he⟩ := adjustStep_ok e
    refine ⟨by unfold Unbalanced at *; rw [← attr_balance ho.attr]; exact h1, ?_⟩
    rcases he with ⟨hl, rfl⟩ | ⟨hl, hr, hw⟩
    · exact forall₂_refl (fun a => ⟨_, _, _, _, _, rfl, fun _ => ⟨rfl, rfl⟩⟩) _
    · exact hr.imp (fun _ _ h => h.1)
  · rintro a _ ks h1 ⟨al, su, sp, f, r, rfl, _⟩
    exact h1

theorem Follow_append {d : Int} {R : List Item} (hR : ∀ c ∈ R, c.align.isReverse = true) : ∀ {K : List Item} {gs : List Int},
    Follow d gs K → Follow d gs (K ++ R)
  | [], gs, _ => by
    cases R with
    | nil => trivial
    | cons r rs =>
      have := hR r (by simp)
      simp only [List.nil_append, Follow]
      cases ha : r.align <;> simp_all [Align.isReverse]
  | c :: cs, gs, h => by
    simp only [List.cons_append, Follow] at h ⊢
    cases ha : c.align
    case forward =>
      rw [ha] at h
      simp only at h ⊢
      split at h
      · rename_i hs; rw [if_pos hs]; exact Follow_append hR h
      · rename_i hs
        rw [if_neg hs]
        obtain ⟨rest, e, h⟩ := h
        exact ⟨rest, e, Follow_append hR h⟩
    case forwardFill => rw [ha] at h; exact h
    all_goals simp only

theorem forall₂_split {α β : Type} {R : α → β → Prop} : ∀ {xs ys : List α} {zs : List β}, List.Forall₂ R (xs ++ ys) zs →
    ∃ K K', List.Forall₂ R xs K ∧ List.Forall₂ R ys K' ∧ zs = K ++ K'
  | [], ys, zs, h => ⟨[], zs, .nil, h, rfl⟩
  | x :: xs, ys, _, .cons h hs => by
    obtain ⟨K, K', h1, h2, rfl⟩ := forall₂_split hs
    exact ⟨_ :: K, K', .cons h h1, h2, rfl⟩

theorem run_steady {rnd : Int → Int → Int → Int} {s : Slice} {o : Options} {length : Int} {t t' : Tree Item}
    (h : runSlice rnd s o length t = .ok t') (hb : t.Forall Unbalanced) (hst : Settles s t) :
    t'.Forall (Final o (Outset s (Lay rnd s (Steady s)))) := by
  obtain ⟨ps⟩ := passes h
  obtain ⟨ta, ts, e1, e2⟩ := hst
  have e3 := ps.adjusted
  rw [e1] at e3
  simp only [Except.ok.injEq] at e3
  subst e3
  have e4 := ps.solved
  rw [e2] at e4
  simp only [Except.ok.injEq, Prod.mk.injEq] at e4
  have hs := solve_settled (adjust_unbalanced e1 hb) e2
  rw [e4.1] at hs
  exact run_gen ps (Steady_place s) (hs.imp (fun _ _ h => h.2))

/-- C64: across the direction of a container, guides are at the same place. -/
theorem C64_guides_aligned_partial {rnd : Int → Int → Int → Int} {s : Slice} {o : Options} {length : Int} {t t' : Tree Item}
    (h : runSlice rnd s o length t = .ok t') (hb : t.Forall (fun p _ => p.balance = false)) (hst : Settles s t) :
    t'.Forall (fun p kids => p.leaf = false → isWith s p.placement = false →
      LeadingAligned kids ∧ TrailingAligned kids ∧
      (p.align = .forward ∨ p.align = .forwardFill → LeadingOf (origin o p) p kids)) := by
  refine (run_steady h hb hst).imp ?_
  intro p kids hF hl hw
  obtain ⟨p1, ks0, ks1, hlike, hpp, hrel, hsame, hE, hlay⟩ := final_gen hF hl
  have hl1 : p1.leaf = false := by rw [← attr_leaf hlike.1]; exact hl
  have hw1 : isWith s p1.placement = false := by rw [← attr_placement hlike.1]; exact hw
  unfold Steady downStep at hE
  rw [if_neg (by rw [hl1]; simp)] at hE
  obtain ⟨⟨k1, ch⟩, hd, hE⟩ := ok_bind hE
  simp only [Except.ok.injEq, Prod.mk.injEq] at hE
  obtain ⟨_, rfl, rfl⟩ := hE
  unfold downBoth at hd
  rw [hw1] at hd
  simp only [Bool.false_eq_true, if_false] at hd
  have hone := (downCross_same hd).2
  unfold layoutBoth at hlay
  rw [hw1] at hlay
  simp only [Bool.false_eq_true, if_false] at hlay
  have hl2 := layoutCross_forall₂ hlay
  have hall : ∀ c ∈ kids, ∃ c0 c1, c0 ∈ k1 ∧ downCrossOne p1 c0 = .ok (c0, false) ∧ layCrossOne p1 c0 = .ok c1 ∧
      SameButPlace c0 c1 ∧ Like c1 c ∧ pushGuides c = c ∧ c.place.position = c1.place.position + origin o p := by
    intro c hc
    obtain ⟨c1, hc1, e1, e2, e3⟩ := forall₂_mem hrel c hc
    have : ∃ c0 ∈ k1, layCrossOne p1 c0 = .ok c1 ∧ SameButPlace c0 c1 := by
      obtain ⟨c0, hc0, g⟩ := forall₂_mem hl2 c1 hc1
      exact ⟨c0, hc0, g, layCrossOne_same g⟩
    obtain ⟨c0, hc0, g1, g2⟩ := this
    exact ⟨c0, c1, hc0, hone c0 hc0, g1, g2, e1, e2, e3⟩
  have lead : ∀ c ∈ kids, c.leads → ∃ y, p1.fwd = c.place.guides.map (· + (c.place.position - origin o p)) ++ y := by
    intro c hc hcl
    obtain ⟨c0, c1, _, g1, g2, ⟨l, q, g3⟩, g4, g5, g6⟩ := hall c hc
    have ha : c0.attr = c.attr := by rw [g4.1, g3]; rfl
    obtain ⟨y, hy⟩ := cross_forward g1 g2 ⟨by rw [attr_align ha]; exact hcl.1, by rw [attr_suppress ha]; exact hcl.2⟩
    refine ⟨y, ?_⟩
    rw [pushGuides_fwd g5 hcl.1, g4.2.2.2.1, g6, hy, g3]
    simp only [Item.putAt]
    congr 2
    funext x
    omega
  have trail : ∀ c ∈ kids, c.trails → ∃ y, p1.rev
      = (c.place.guides.map (fun g => p1.place.length - (c.place.position - origin o p) - g)).reverse ++ y := by
    intro c hc hcl
    obtain ⟨c0, c1, _, g1, g2, ⟨l, q, g3⟩, g4, g5, g6⟩ := hall c hc
    have ha : c0.attr = c.attr := by rw [g4.1, g3]; rfl
    obtain ⟨y, hy⟩ := cross_reverse g1 g2 ⟨by rw [attr_align ha]; exact hcl.1, by rw [attr_suppress ha]; exact hcl.2⟩
    refine ⟨y, ?_⟩
    rw [pushGuides_rev g5 (Or.inl hcl.1), hy, List.map_reverse, List.reverse_reverse, List.map_map, g4.2.2.2.2.1, g6, g4.2.1]
    congr 1
    rw [g3]
    simp only [Item.putAt]
    apply List.map_congr_left
    intro x _
    simp only [Function.comp]
    omega
  refine ⟨?_, ?_, ?_⟩
  · intro c hc d hd hcl hdl j x y hx hy
    obtain ⟨y1, e1⟩ := lead c hc hcl
    obtain ⟨y2, e2⟩ := lead d hd hdl
    have h1 : p1.fwd[j]? = some (x + (c.place.position - origin o p)) := by
      rw [e1, List.getElem?_append_left (by rw [List.length_map]; exact (List.getElem?_eq_some_iff.1 hx).1), List.getElem?_map, hx]
      rfl
    have h2 : p1.fwd[j]? = some (y + (d.place.position - origin o p)) := by
      rw [e2, List.getElem?_append_left (by rw [List.length_map]; exact (List.getElem?_eq_some_iff.1 hy).1), List.getElem?_map, hy]
      rfl
    rw [h1] at h2
    simp only [Option.some.injEq] at h2
    omega
  · intro c hc d hd hcl hdl j x y hx hy
    obtain ⟨y1, e1⟩ := trail c hc hcl
    obtain ⟨y2, e2⟩ := trail d hd hdl
    rw [← List.map_reverse] at e1 e2
    have h1 : p1.rev[j]? = some (p1.place.length - (c.place.position - origin o p) - x) := by
      rw [e1, List.getElem?_append_left (by rw [List.length_map]; exact (List.getElem?_eq_some_iff.1 hx).1), List.getElem?_map, hx]
      rfl
    have h2 : p1.rev[j]? = some (p1.place.length - (d.place.position - origin o p) - y) := by
      rw [e2, List.getElem?_append_left (by rw [List.length_map]; exact (List.getElem?_eq_some_iff.1 hy).1), List.getElem?_map, hy]
      rfl
    rw [h1] at h2
    simp only [Option.some.injEq] at h2
    omega
  · intro hpa c hc hcl j x hx
    obtain ⟨y1, e1⟩ := lead c hc hcl
    rw [pushGuides_fwd hpp hpa, hlike.2.2.2.1, e1,
      List.getElem?_append_left (by rw [List.length_map]; exact (List.getElem?_eq_some_iff.1 hx).1), List.getElem?_map, hx]
    simp only [Option.map_some, Option.some.injEq]
    omega

/-- C64: along the direction of a container, the guides of the children are those of the container, one after the other. -/
theorem C64_guides_follow_partial {rnd : Int → Int → Int → Int} {s : Slice} {o : Options} {length : Int} {t t' : Tree Item}
    (h : runSlice rnd s o length t = .ok t') (hb : t.Forall (fun p _ => p.balance = false)) (hst : Settles s t) :
    t'.Forall (fun p kids => p.leaf = false → isWith s p.placement = true → (p.align = .forward ∨ p.align = .forwardFill) →
      Follow (origin o p) p.place.guides kids) := by
  refine (run_steady h hb hst).imp ?_
  intro p kids hF hl hw hpa
  obtain ⟨p1, ks0, ks1, hlike, hpp, hrel, hsame, hE, hlay⟩ := final_gen hF hl
  have hl1 : p1.leaf = false := by rw [← attr_leaf hlike.1]; exact hl
  have hw1 : isWith s p1.placement = true := by rw [← attr_placement hlike.1]; exact hw
  unfold Steady downStep at hE
  rw [if_neg (by rw [hl1]; simp)] at hE
  obtain ⟨⟨k1, ch⟩, hd, hE⟩ := ok_bind hE
  simp only [Except.ok.injEq, Prod.mk.injEq] at hE
  obtain ⟨_, rfl, rfl⟩ := hE
  unfold downBoth at hd
  rw [if_pos hw1] at hd
  have hd := (downWith_same hd).1
  unfold layoutBoth at hlay
  rw [if_pos hw1] at hlay
  obtain ⟨F, R, F', R', rem, cnt, hk, hk', r1, r2, f1, f2, e1, e2⟩ := layoutWith_split hlay
  rw [hk] at hd
  rw [hk'] at hrel
  obtain ⟨K, Kr, hK, hKr, rfl⟩ := forall₂_split hrel
  rw [pushGuides_fwd hpp hpa, hlike.2.2.2.1]
  refine Follow_append ?_ (along_forward hd e2 (hK.imp ?_))
  · intro c hc
    obtain ⟨c1, hc1, e, _⟩ := forall₂_mem hKr c hc
    obtain ⟨c0, hc0, ⟨l, q, e'⟩⟩ := forall₂_mem r2 c1 hc1
    have := f2 c0 hc0
    rw [attr_align e.1, e']
    exact this
  · intro a b hab
    refine ⟨attr_align hab.1.1, attr_suppress hab.1.1, hab.2.2, fun hal => ?_⟩
    rw [pushGuides_fwd hab.2.1 hal, hab.1.2.2.2.1]

/-! ### coordinates and outsets -/

/-- C65: the same layout in nested and in flat coordinates puts every view at the same place. -/
theorem C65_nested_is_flat {rnd : Int → Int → Int → Int} {s : Slice} {length : Int} {t tn tf : Tree Item}
    (hn : runSlice rnd s .nested length t = .ok tn) (hf : runSlice rnd s .flat length t = .ok tf) :
    tn.absolute 0 = tf.places := by
  obtain ⟨ps⟩ := passes hn
  obtain ⟨qs⟩ := passes hf
  have e1 := qs.adjusted
  rw [ps.adjusted] at e1
  simp only [Except.ok.injEq] at e1
  have e2 := qs.solved
  rw [← e1, ps.solved] at e2
  simp only [Except.ok.injEq, Prod.mk.injEq] at e2
  have e3 := qs.laid
  rw [← e2.1, ps.laid] at e3
  simp only [Except.ok.injEq] at e3
  have e4 := qs.outset
  rw [← e3, ps.outset] at e4
  simp only [Except.ok.injEq] at e4
  have e5 := qs.flat
  rw [← e4] at e5
  exact pre_twin ps.flat e5

theorem flattenStep_ok (o : Options) (a : Item) (ks : List Item) : ∃ r, flattenStep o a ks = .ok r := by
  unfold flattenStep
  dsimp only
  split <;> exact ⟨_, rfl⟩

theorem flattens_total (o : Options) : ∀ (n : Nat) (ts : List (Tree Item)) (as : List Item), Tree.count.counts ts ≤ n →
    ∃ r, Tree.pre.pres (flattenStep o) ts as = .ok r
  | _, [], as, _ => ⟨_, by simp [Tree.pres_nil, Tree.pres_false, Tree.pres_true]; rfl⟩
  | 0, .node v a ks :: ts, as, h => by simp [Tree.count.counts, Tree.count] at h
  | n + 1, .node false a ks :: ts, as, h => by
    obtain ⟨r, hr⟩ := flattens_total o n ts as (by simp [Tree.count.counts, Tree.count] at h; omega)
    simp only [Tree.pres_nil, Tree.pres_false, Tree.pres_true, hr, bind, Except.bind]
    exact ⟨_, rfl⟩
  | n + 1, .node true a ks :: ts, as, h => by
    obtain ⟨r1, h1⟩ := flattenStep_ok o (as.headD a) (Tree.roots ks)
    obtain ⟨r2, h2⟩ := flattens_total o n ts as.tail (by simp [Tree.count.counts, Tree.count] at h; omega)
    obtain ⟨r3, h3⟩ := flattens_total o n ks r1.2.1 (by simp [Tree.count.counts, Tree.count] at h; omega)
    simp only [Tree.pres_nil, Tree.pres_false, Tree.pres_true, h1, h2, h3, bind, Except.bind]
    exact ⟨_, rfl⟩

theorem flatten_total (o : Options) : ∀ t : Tree Item, ∃ t' b, t.pre (flattenStep o) = .ok (t', b)
  | .node false a ks => ⟨_, _, by simp [Tree.pre_false, Tree.pre_true]; exact ⟨rfl, rfl⟩⟩
  | .node true a ks => by
    obtain ⟨r1, h1⟩ := flattenStep_ok o a (Tree.roots ks)
    obtain ⟨r3, h3⟩ := flattens_total o _ ks r1.2.1 (Nat.le_refl _)
    simp only [Tree.pre_false, Tree.pre_true, h1, h3, bind, Except.bind]
    exact ⟨_, _, rfl⟩

/-- C65: a layout succeeds with nested coordinates exactly if it succeeds with flat ones. -/
theorem C65_nested_iff_flat {rnd : Int → Int → Int → Int} {s : Slice} {length : Int} {t : Tree Item} :
    (∃ tn, runSlice rnd s .nested length t = .ok tn) ↔ ∃ tf, runSlice rnd s .flat length t = .ok tf := by
  have key : ∀ o o', (∃ tn, runSlice rnd s o length t = .ok tn) → ∃ tf, runSlice rnd s o' length t = .ok tf := by
    rintro o o' ⟨tn, h⟩
    obtain ⟨ps⟩ := passes h
    obtain ⟨tf, b, hf⟩ := flatten_total o' ps.tu
    refine ⟨tf, ?_⟩
    unfold runSlice
    simp only [ps.adjusted, ps.solved, ps.laid, ps.outset, hf, bind, Except.bind]
  exact ⟨key _ _, key _ _⟩

/-- C66: the outsets of a container reach as far as those of its children. -/
theorem C66_outsets_cover_partial {rnd : Int → Int → Int → Int} {s : Slice} {o : Options} {length : Int} {t t' : Tree Item}
    (h : runSlice rnd s o length t = .ok t') :
    t'.Forall (fun p kids =>
      (kids = [] → p.place.outset = p.ext.outset) ∧
      (isWith s p.placement = false → ∀ c ∈ kids, Covers (origin o p) p c) ∧
      (isWith s p.placement = true →
        (∀ c, kids.head? = some c → origin o p - p.place.outset.1 ≤ c.place.position - c.place.outset.1) ∧
        ∀ c, kids.getLast? = some c →
          c.place.position + c.place.length + c.place.outset.2 ≤ origin o p + p.place.length + p.place.outset.2)) := by
  obtain ⟨ps⟩ := passes h
  have := run_gen ps (E := fun _ _ => True) (fun _ _ _ _ _ => trivial) (Tree.forall_true _)
  refine this.imp ?_
  intro p kids hF
  obtain ⟨h1, h2, h3, h4⟩ := final_outsets hF
  exact ⟨h1, h2, fun hw => ⟨h3 hw, h4 hw⟩⟩

/-- C67: the topmost view gets the size asked for. -/
theorem C67_requested_size {rnd : Int → Int → Int → Int} {o : Options} {width height w h : Int} {t t' : Tree Proxy}
    (e : adjust rnd o width height t = .ok (t', w, h)) (hv : t.visible = true) :
    (width ≠ 0 → w = width) ∧ (height ≠ 0 → h = height) := by
  obtain ⟨t1, r1, a1, a2, a3, a4, a5, a6⟩ := adjust_parts e
  obtain ⟨ps⟩ := passes a1
  obtain ⟨qs⟩ := passes a2
  obtain ⟨v1, _, k1⟩ := run_root ps
  obtain ⟨_, _, k2⟩ := run_root qs
  have hv1 : t1.visible = true := by
    rw [Tree.map_visible, Tree.map_visible] at v1
    rw [v1, hv]
  have hc : ∀ p : Proxy, (calculateVertical p).h = p.h := by
    intro p; unfold calculateVertical; split <;> rfl
  have hroot : t'.root.h = t1.root.h := by
    have := congrArg Tree.root a4
    rw [Tree.map_root, Tree.map_root, Tree.mapVisible_root _ hv1] at this
    have := congrArg Proxy.h this
    rw [← hc t1.root]
    exact this
  constructor
  · intro hw
    have := (k1 (by rw [Tree.map_visible]; exact hv)).1
    rw [if_pos hw, Tree.map_root] at this
    rw [a5, hroot, this]
  · intro hw
    have := (k2 (by rw [Tree.map_visible, Tree.mapVisible_visible]; exact hv1)).1
    rw [if_pos hw, Tree.map_root] at this
    rw [a6, this]

end Verif.Eve
