import Verif.Eve.Settle
import Verif.Eve.Eval
/-! Guides of views that have been placed. -/
namespace Verif.Eve

theorem layRev_same : ∀ {K : List Item} {rlen rem : Int} {guides : List Int} {cnt : Nat} {done others : List Item}
    {rem' : Int} {cnt' : Nat}, layRev rlen guides rem cnt K = .ok (done, others, rem', cnt') →
    ∃ R, K = R ++ others ∧ List.Forall₂ SameButPlace R done ∧ (∀ c ∈ R, c.align.isReverse = true)
  | [], rlen, rem, guides, cnt, done, others, rem', cnt', h => by
    simp only [layRev, Except.ok.injEq, Prod.mk.injEq] at h
    obtain ⟨rfl, rfl, _⟩ := h
    exact ⟨[], rfl, .nil, by simp⟩
  | c :: cs, rlen, rem, guides, cnt, done, others, rem', cnt', h => by
    simp only [layRev] at h
    split at h
    · rename_i hr
      obtain ⟨⟨rlen1, guides1⟩, h1, h⟩ := ok_bind h
      obtain ⟨⟨a, cnt1⟩, h2, h⟩ := ok_bind h
      obtain ⟨⟨done1, others1, rem1, cnt1'⟩, h3, h⟩ := ok_bind h
      dsimp only at h3 h
      simp only [Except.ok.injEq, Prod.mk.injEq] at h
      obtain ⟨rfl, rfl, rfl, rfl⟩ := h
      obtain ⟨R, e, r1, r2⟩ := layRev_same h3
      refine ⟨c :: R, by rw [e]; rfl, .cons ⟨_, _, rfl⟩ r1, ?_⟩
      intro d hd
      rcases List.mem_cons.1 hd with rfl | hd
      · exact hr
      · exact r2 d hd
    · simp only [Except.ok.injEq, Prod.mk.injEq] at h
      obtain ⟨rfl, rfl, _⟩ := h
      exact ⟨[], rfl, .nil, by simp⟩

theorem layFwd_same {rnd : Int → Int → Int → Int} {z a : Int} : ∀ {F F' : List Item} {L rem : Int} {gs : List Int}
    {cnt : Nat}, layFwd rnd z a L gs rem cnt F = .ok F' →
    List.Forall₂ SameButPlace F F' ∧ ∀ c ∈ F, c.align.isReverse = false
  | [], F', L, rem, gs, cnt, h => by
    simp only [layFwd, Except.ok.injEq] at h
    rw [← h]; exact ⟨.nil, by simp⟩
  | c :: cs, F', L, rem, gs, cnt, h => by
    obtain ⟨hr, add, cnt', c', cs', L', gs', _, rfl, hrec, hcase⟩ := layFwd_cons h
    obtain ⟨k1, k2⟩ := layFwd_same hrec
    refine ⟨.cons ?_ k1, ?_⟩
    · rcases hcase with ⟨_, pos, _, rfl, _⟩ | ⟨_, pos, _, rfl, _⟩ | ⟨_, _, rfl, _⟩ | ⟨_, _, _, rfl, _⟩ | h
      · exact ⟨_, _, rfl⟩
      · exact ⟨_, _, rfl⟩
      · exact ⟨_, _, rfl⟩
      · exact ⟨_, _, rfl⟩
      · obtain ⟨_, _, rfl, _⟩ := h; exact ⟨_, _, rfl⟩
    · intro d hd
      rcases List.mem_cons.1 hd with rfl | hd
      · exact hr
      · exact k2 d hd

theorem layoutWith_split {rnd : Int → Int → Int → Int} {p : Item} {kids kids' : List Item}
    (h : layoutWith rnd p kids = .ok kids') :
    ∃ F R F' R' rem cnt, kids = F ++ R ∧ kids' = F' ++ R' ∧ List.Forall₂ SameButPlace F F' ∧
      List.Forall₂ SameButPlace R R' ∧ (∀ c ∈ F, c.align.isReverse = false) ∧ (∀ c ∈ R, c.align.isReverse = true) ∧
      layRev (p.place.length - p.far) p.rev (p.place.length - p.mlength) (numPadded kids) kids.reverse
        = .ok (R'.reverse, F.reverse, rem, cnt) ∧
      layFwd rnd p.near (p.place.length - p.near - p.far) p.near p.fwd rem cnt F = .ok F' := by
  unfold layoutWith at h
  obtain ⟨⟨done, others, rem, cnt⟩, h1, h2⟩ := ok_bind h
  obtain ⟨placed, h3, h4⟩ := ok_bind h2
  simp only [Except.ok.injEq] at h4
  obtain ⟨R, e, r1, r2⟩ := layRev_same h1
  obtain ⟨f1, f2⟩ := layFwd_same h3
  have ek : kids = others.reverse ++ R.reverse := by
    have := congrArg List.reverse e
    simpa using this
  exact ⟨others.reverse, R.reverse, placed, done.reverse, rem, cnt, ek, h4.symm, f1, List.rel_reverse r1, f2,
    fun c hc => r2 c (by simpa using hc), by simpa [numPadded] using h1, h3⟩

theorem layCrossOne_same {p c c' : Item} (h : layCrossOne p c = .ok c') : SameButPlace c c' := by
  unfold layCrossOne at h
  cases ha : c.align <;> rw [ha] at h <;> simp only [] at h
  all_goals first
    | (obtain ⟨x, _, h⟩ := ok_bind h; simp only [Except.ok.injEq] at h; exact ⟨_, _, h.symm⟩)
    | (simp only [Except.ok.injEq] at h; exact ⟨_, _, h.symm⟩)

theorem layoutBoth_same {rnd : Int → Int → Int → Int} {s : Slice} {p : Item} {kids kids' : List Item}
    (h : layoutBoth rnd s p kids = .ok kids') : List.Forall₂ SameButPlace kids kids' := by
  unfold layoutBoth at h
  split at h
  · obtain ⟨F, R, F', R', _, _, rfl, rfl, h1, h2, _⟩ := layoutWith_split h
    exact List.rel_append h1 h2
  · exact (layoutCross_forall₂ h).imp (fun _ _ h => layCrossOne_same h)

/-- After `layout`, with no assumption. -/
def Lay (rnd : Int → Int → Int → Int) (s : Slice) (E : Item → List Item → Prop) (p : Item) (kids : List Item) : Prop :=
  p.leaf = false → ∃ ks0, List.Forall₂ SameButPlace ks0 kids ∧ E p ks0 ∧ layoutBoth rnd s p ks0 = .ok kids

theorem layout_gen {rnd : Int → Int → Int → Int} {s : Slice} {E : Item → List Item → Prop}
    (hE : PlaceStable E) {length : Int} {t t' : Tree Item}
    (h : layout rnd s length t = .ok t') (hp : t.Forall E) :
    (t.visible = true → t'.root = t.root.putAt (if length ≠ 0 then length else t.root.clength) t.root.place.position) ∧
    t'.visible = t.visible ∧ t'.Forall (Lay rnd s E) := by
  unfold layout at h
  obtain ⟨⟨u, b⟩, h1, h2⟩ := ok_bind h
  simp only [Except.ok.injEq] at h2
  subst h2
  have hv : u.visible = t.visible := (Tree.pre_visible h1).trans rfl
  cases t with
  | node v a ks =>
  have hp' : (Tree.setRoot (.node v a ks) (a.putAt (if length ≠ 0 then length else a.clength) a.place.position)).Forall
      E := by
    cases v with
    | false => simp [Tree.setRoot, Tree.visible, Tree.Forall]
    | true =>
      simp only [Tree.setRoot, Tree.visible, Tree.kids]
      rw [Tree.Forall_node] at hp ⊢
      exact ⟨hE _ _ _ hp.1 ⟨_, _, rfl⟩, hp.2⟩
  have key := Tree.pre_kids (f := layoutStep rnd s) (σ := id) (R := SameButPlace)
    (Q := fun _ => True) (P := E) (P' := Lay rnd s E)
    (fun a ks a' ks' b e => layoutStep_self e) ?_ ?_ h1 hp' (fun _ => trivial)
  · exact ⟨fun hv => key.1 (by exact hv), hv, key.2⟩
  · intro a ks a' he hs
    exact hE _ _ _ he hs
  · rintro a ks ks' b - hE' e
    simp only [id_eq, List.map_id_fun] at e ⊢
    unfold layoutStep at e
    split at e
    · rename_i hleaf
      simp only [Except.ok.injEq, Prod.mk.injEq] at e
      rw [← e.2.1]
      exact ⟨fun h => (by rw [h] at hleaf; cases hleaf), fun _ _ => trivial, forall₂_refl (fun a => ⟨_, _, rfl⟩) _⟩
    · obtain ⟨ks1, e1, e2⟩ := ok_bind e
      simp only [Except.ok.injEq, Prod.mk.injEq] at e2
      obtain ⟨_, rfl, _⟩ := e2
      have := layoutBoth_same e1
      exact ⟨fun _ => ⟨ks, this, hE', e1⟩, fun _ _ => trivial, this⟩

theorem run_gen {rnd : Int → Int → Int → Int} {s : Slice} {o : Options} {length : Int}
    {t t' : Tree Item} (ps : Passes rnd s o length t t') {E : Item → List Item → Prop} (hE : PlaceStable E)
    (he : ps.ts.Forall E) :
    t'.Forall (Final o (Outset s (Lay rnd s E))) := by
  obtain ⟨_, _, h3⟩ := layout_gen hE ps.laid he
  obtain ⟨_, _, h4⟩ := outsets_ok ps.outset h3
  exact (flatten_ok ps.flat h4).2

theorem pushGuides_idem (p : Item) : pushGuides (pushGuides p) = pushGuides p := by
  cases h : p.align <;> simp [pushGuides, h]

/-- The same, except for position, outset and the guides given to the view. -/
def Like (a b : Item) : Prop :=
  b.attr = a.attr ∧ b.place.length = a.place.length ∧ b.clength = a.clength ∧ b.fwd = a.fwd ∧ b.rev = a.rev ∧
    b.mlength = a.mlength

theorem final_gen {rnd : Int → Int → Int → Int} {s : Slice} {o : Options} {E : Item → List Item → Prop} {p : Item}
    {kids : List Item} (h : Final o (Outset s (Lay rnd s E)) p kids) (hl : p.leaf = false) :
    ∃ p1 ks0 ks1, Like p1 p ∧ pushGuides p = p ∧
      List.Forall₂ (fun a b : Item => Like a b ∧ pushGuides b = b ∧
        b.place.position = a.place.position + origin o p) ks1 kids ∧
      List.Forall₂ SameButPlace ks0 ks1 ∧ E p1 ks0 ∧ layoutBoth rnd s p1 ks0 = .ok ks1 := by
  obtain ⟨p2, q, ks2, ⟨⟨p1, ks1, k1, k2, k3⟩, _⟩, h2, h3⟩ := h
  obtain ⟨o1, rfl⟩ := k1
  obtain ⟨g, hg⟩ := pushGuides_eq { { p1 with place := { p1.place with outset := o1 } } with
    place := { { p1.place with outset := o1 } with position := q } }
  have hpp : pushGuides p = p := by rw [h2, pushGuides_idem]
  rw [hg] at h2
  have hlike : Like p1 p := by rw [h2]; exact ⟨rfl, rfl, rfl, rfl, rfl, rfl⟩
  obtain ⟨ks0, j1, j2, j3⟩ := k3 (by rw [← attr_leaf hlike.1]; exact hl)
  refine ⟨p1, ks0, ks1, hlike, hpp, ?_, j1, j2, j3⟩
  refine forall₂_trans ?_ k2 h3
  rintro a _ c ⟨o2, rfl⟩ hs
  unfold Shifted at hs
  obtain ⟨g', hg'⟩ := pushGuides_eq { { a with place := { a.place with outset := o2 } } with
    place := { { a.place with outset := o2 } with position := a.place.position + origin o p } }
  have hpc : pushGuides c = c := by rw [hs, pushGuides_idem]
  simp only at hg' hs
  rw [hg'] at hs
  rw [hs] at hpc ⊢
  exact ⟨⟨rfl, rfl, rfl, rfl, rfl, rfl⟩, hpc, rfl⟩

/-- The guides of the children are those of the container. -/
def Steady (s : Slice) (p : Item) (kids : List Item) : Prop := downStep s p kids = .ok (p, kids, false)

theorem Steady_place (s : Slice) : PlaceStable (Steady s) := by
  rintro a ks _ h2 ⟨l, q, rfl⟩
  unfold Steady at *
  unfold downStep at h2 ⊢
  split at h2
  · rename_i hl; rw [if_pos (by exact hl)]
  · rename_i hl
    rw [if_neg (by exact hl)]
    obtain ⟨⟨ks1, ch⟩, e1, e2⟩ := ok_bind h2
    simp only [Except.ok.injEq, Prod.mk.injEq] at e2
    obtain ⟨_, rfl, rfl⟩ := e2
    have : downBoth s (a.putAt l q) ks1 = downBoth s a ks1 := by
      unfold downBoth
      have : (a.putAt l q).placement = a.placement := rfl
      rw [this]
      split
      · rfl
      · have : ∀ cs, downCross (a.putAt l q) cs = downCross a cs := by
          intro cs
          induction cs with
          | nil => rfl
          | cons c cs ih => simp only [downCross, ih]; rfl
        exact this ks1
    rw [this, e1]; rfl

/-! ### across -/

theorem leads_uses {c : Item} (h : c.leads) : c.usesFwd = true := by
  obtain ⟨h1 | h1, h2⟩ := h <;> simp [Item.usesFwd, h1, h2, Align.fwdSide]

theorem cross_forward {p c c' : Item} (hd : downCrossOne p c = .ok (c, false)) (hl : layCrossOne p c = .ok c')
    (hc : c.leads) : ∃ y, p.fwd = c.fwd.map (· + c'.place.position) ++ y := by
  obtain ⟨off, y, h1⟩ := (downCrossOne_same hd).2.1 (leads_uses hc)
  obtain ⟨_, h2, h3⟩ := imposeChild_same h1
  refine ⟨y, ?_⟩
  rw [h2]
  congr 1
  have hpos : c.fwd ≠ [] → off = c'.place.position := by
    intro hne
    have key : ∀ {x : Int}, leafOffset c (!c.suppress) p.fwd c.fwd (p.near + c.fwdIndent) = .ok x → off = x := by
      intro x hx
      unfold leafOffset at hx
      rw [hc.2] at hx
      cases hleaf : c.leaf with
      | false =>
        rw [hleaf] at hx
        simp at hx
        rw [h3 (Or.inl hleaf), hx]
      | true =>
        rw [hleaf] at hx
        simp only [Bool.not_false, Bool.and_self, if_true] at hx
        cases hf : c.fwd with
        | nil => exact absurd hf hne
        | cons g gs =>
          rw [hf] at hx h2
          simp only at hx
          cases hp : p.fwd with
          | nil => rw [hp] at h2; simp at h2
          | cons b bs =>
            rw [hp] at hx h2
            simp only [Except.ok.injEq] at hx
            simp only [List.map_cons, List.cons_append, List.cons.injEq] at h2
            omega
    unfold layCrossOne at hl
    rcases hc.1 with ha | ha <;> rw [ha] at hl <;> simp only [] at hl
    · obtain ⟨x, e1, e2⟩ := ok_bind hl
      simp only [Except.ok.injEq] at e2
      rw [← e2]; exact key e1
    · obtain ⟨x, e1, e2⟩ := ok_bind hl
      simp only [Except.ok.injEq] at e2
      rw [← e2]; exact key e1
  cases hf : c.fwd with
  | nil => rfl
  | cons g gs => rw [hpos (by rw [hf]; simp)]

theorem cross_reverse {p c c' : Item} (hd : downCrossOne p c = .ok (c, false)) (hl : layCrossOne p c = .ok c')
    (hc : c.trails) : ∃ y, p.rev = c.rev.map (· + (p.place.length - c'.place.position - c'.place.length)) ++ y := by
  have hu : c.usesRev = true := by simp [Item.usesRev, hc.1, hc.2, Align.revSide]
  obtain ⟨off, y, h1⟩ := (downCrossOne_same hd).2.2 hu
  obtain ⟨_, h2, h3⟩ := imposeChild_same h1
  refine ⟨y, ?_⟩
  rw [h2]
  congr 1
  have hpos : c.rev ≠ [] → off = p.place.length - c'.place.position - c'.place.length := by
    intro hne
    unfold layCrossOne at hl
    rw [hc.1] at hl
    simp only [] at hl
    obtain ⟨x, e1, e2⟩ := ok_bind hl
    simp only [Except.ok.injEq] at e2
    have hx : off = x := by
      unfold leafOffset at e1
      rw [hc.2] at e1
      cases hleaf : c.leaf with
      | false =>
        rw [hleaf] at e1
        simp at e1
        rw [h3 (Or.inl hleaf), e1]
      | true =>
        rw [hleaf] at e1
        simp only [Bool.not_false, Bool.and_self, if_true] at e1
        cases hf : c.rev with
        | nil => exact absurd hf hne
        | cons g gs =>
          rw [hf] at e1 h2
          simp only at e1
          cases hp : p.rev with
          | nil => rw [hp] at h2; simp at h2
          | cons b bs =>
            rw [hp] at e1 h2
            simp only [Except.ok.injEq] at e1
            simp only [List.map_cons, List.cons_append, List.cons.injEq] at h2
            omega
    rw [← e2]
    simp only [Item.putAt]
    rw [if_neg (by simp)]
    omega
  cases hf : c.rev with
  | nil => rfl
  | cons g gs => rw [hpos (by rw [hf]; simp)]

/-! ### along -/

theorem along_forward {rnd : Int → Int → Int → Int} {z a d : Int} :
    ∀ {F F' K R : List Item} {L rem : Int} {gs : List Int} {cnt : Nat} {cs' : List Item},
    downFwd L gs (F ++ R) = .ok (cs', false) → layFwd rnd z a L gs rem cnt F = .ok F' →
    List.Forall₂ (fun x y : Item => y.align = x.align ∧ y.suppress = x.suppress ∧ y.place.position = x.place.position + d ∧
      ((y.align = .forward ∨ y.align = .forwardFill) → y.place.guides = x.fwd)) F' K → Follow d gs K
  | [], F', K, R, L, rem, gs, cnt, cs', hd, hl, hk => by
    simp only [layFwd, Except.ok.injEq] at hl
    subst hl
    cases hk
    simp [Follow]
  | c :: F, F', K, R, L, rem, gs, cnt, cs', hd, hl, hk => by
    obtain ⟨hr, add, cnt', c', F1, L', gs', hsh, rfl, hrec, hcase⟩ := layFwd_cons hl
    cases hk with
    | cons hy hys =>
      rename_i y ys
      rw [List.cons_append] at hd
      obtain ⟨ds, hd⟩ := downFwd_cons hd
      have hgf : ∀ {pos : Int}, c.suppress = false → c.usesFwd = true → guideFwd c (L + c.space) gs = .ok (pos, gs') →
          ∃ rest', gs = c.fwd.map (· + pos) ++ gs' ∧ rest' = gs' ∧
            downFwd (pos + c.clength) gs' (F ++ R) = .ok (ds, false) := by
        intro pos hs hu hg
        rcases hd with ⟨_, len', rest', e1, e2, _⟩ | ⟨h, _⟩
        · obtain ⟨_, k1, k2⟩ := imposeChild_same e1
          obtain ⟨g1, g2, g3, g4⟩ := guideFwd_ok hg
          have hgs : gs' = rest' := by
            rw [g2 hs]
            conv => lhs; rw [k1]
            simp
          subst hgs
          have hpos : len' = pos := by
            by_cases hsn : c.snapsFwd
            · obtain ⟨x, xs, g, gs1, e3, e4, e5⟩ := g4 hsn
              rw [e3, e4] at k1
              simp only [List.map_cons, List.cons_append, List.cons.injEq] at k1
              omega
            · rw [g1 hsn]
              apply k2
              unfold Item.snapsFwd at hsn
              by_cases hl : c.leaf = true
              · right
                by_contra hne
                exact hsn ⟨hl, hs, hne⟩
              · left; simpa using hl
          subst hpos
          exact ⟨_, k1, rfl, e2⟩
        · rw [h] at hu; cases hu
      rcases hcase with ⟨ha, pos, hg, rfl, rfl⟩ | ⟨ha, pos, hg, rfl, rfl⟩ | ⟨ha, _, rfl, _⟩ | ⟨ha, _, _, rfl, _⟩ | ⟨ha, _, rfl, _⟩
      · have hya : y.align = .forward := hy.1.trans ha
        simp only [Follow, hya]
        cases hs : c.suppress with
        | true =>
          have : y.suppress = true := hy.2.1.trans hs
          rw [if_pos this]
          obtain ⟨g1, g2, g3, g4⟩ := guideFwd_ok hg
          have hns : ¬ c.snapsFwd := fun h => by have := h.2.1; rw [hs] at this; cases this
          have e1 := g1 hns
          have e2 := g3 hs
          subst e1 e2
          have ha0 : add = 0 := by
            unfold takeShare at hsh
            rw [ha] at hsh
            simp [Align.padded] at hsh
            exact hsh.1.symm
          subst ha0
          rcases hd with ⟨h, _⟩ | ⟨_, e2, _⟩
          · simp [Item.usesFwd, hs] at h
          · exact along_forward e2 hrec hys
        | false =>
          have : y.suppress = false := hy.2.1.trans hs
          rw [if_neg (by rw [this]; simp)]
          obtain ⟨rest', k1, _, k3⟩ := hgf hs (leads_uses ⟨Or.inl ha, hs⟩) hg
          refine ⟨gs', ?_, along_forward k3 hrec hys⟩
          rw [hy.2.2.2 (Or.inl hya), hy.2.2.1, k1]
          simp only [Item.putAt]
          congr 2
          funext x
          omega
      · have hya : y.align = .forwardFill := hy.1.trans ha
        simp only [Follow, hya]
        cases hs : c.suppress with
        | true =>
          have : y.suppress = true := hy.2.1.trans hs
          rw [if_pos this]; trivial
        | false =>
          have : y.suppress = false := hy.2.1.trans hs
          rw [if_neg (by rw [this]; simp)]
          obtain ⟨rest', k1, _, k3⟩ := hgf hs (leads_uses ⟨Or.inr ha, hs⟩) hg
          refine ⟨gs', ?_⟩
          rw [hy.2.2.2 (Or.inr hya), hy.2.2.1, k1]
          simp only [Item.putAt]
          congr 2
          funext x
          omega
      · have hya : y.align = .center := hy.1.trans ha
        simp [Follow, hya]
      · have hya : y.align = .proportional := hy.1.trans ha
        simp [Follow, hya]
      · have hya : y.align = .default := hy.1.trans ha
        simp [Follow, hya]

theorem pushGuides_fwd {c : Item} (h : pushGuides c = c) (ha : c.align = .forward ∨ c.align = .forwardFill) :
    c.place.guides = c.fwd := by
  have := congrArg (fun i : Item => i.place.guides) h
  unfold pushGuides at this
  rcases ha with ha | ha <;> rw [ha] at this <;> exact this.symm

theorem pushGuides_rev {c : Item} (h : pushGuides c = c) (ha : c.align = .reverse ∨ c.align = .reverseFill) :
    c.place.guides = (c.rev.map (fun g => c.place.length - g)).reverse := by
  have := congrArg (fun i : Item => i.place.guides) h
  unfold pushGuides at this
  rcases ha with ha | ha <;> rw [ha] at this <;> exact this.symm

end Verif.Eve
