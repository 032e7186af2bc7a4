import Verif.Eve.Hist
/-! The passes of a layout on two trees that differ in what is left over of earlier layouts. -/
namespace Verif.Eve

/-- The same, except for the place. -/
def PlR (a b : Item) : Prop := b.pl = a.pl
/-- … and aligned. -/
def PlD (a b : Item) : Prop := b.pl = a.pl ∧ a.align ≠ .default

theorem of_pl {β : Type} {a b : Item} (h : b.pl = a.pl) (g : Item → β) (hg : ∀ i, g i.pl = g i) : g b = g a := by
  rw [← hg b, h, hg]

theorem of_weak {β : Type} {a b : Item} (h : b.weak = a.weak) (g : Item → β) (hg : ∀ i, g i.weak = g i) : g b = g a := by
  rw [← hg b, h, hg]

theorem of_pls {β : Type} {ks ls : List Item} (h : List.Forall₂ PlD ks ls) (g : List Item → β)
    (hg : ∀ is, g (is.map Item.pl) = g is) : g ls = g ks := by
  have : ls.map Item.pl = ks.map Item.pl := by
    induction h with
    | nil => rfl
    | cons h _ ih => simp only [List.map_cons, h.1, ih]
  rw [← hg ls, this, hg]

/-! ### solve -/

theorem upRev_pl : ∀ (ks : List Item) (rlen add : Int) (rest : List Int),
    upRev rlen add rest (ks.map Item.pl) = upRev rlen add rest ks
  | [], _, _, _ => rfl
  | c :: cs, rlen, add, rest => by
    simp only [List.map_cons, upRev]
    have ih := upRev_pl cs
    simp only [ih]
    rfl

theorem upFwd_pl : ∀ (ks : List Item) (len : Int) (rest : List Int),
    upFwd len rest (ks.map Item.pl) = upFwd len rest ks
  | [], _, _ => rfl
  | c :: cs, len, rest => by
    simp only [List.map_cons, upFwd]
    have ih := upFwd_pl cs
    simp only [ih]
    rfl

theorem crossGuides_pl (near far : Int) : ∀ (ks : List Item) (f r : List Int),
    crossGuides near far (ks.map Item.pl) f r = crossGuides near far ks f r
  | [], _, _ => rfl
  | c :: cs, f, r => by
    simp only [List.map_cons, crossGuides]
    have ih := crossGuides_pl near far cs
    simp only [ih]
    rfl

theorem crossLength_pl (near far : Int) (f r : List Int) : ∀ (ks : List Item) (len : Int),
    crossLength near far f r (ks.map Item.pl) len = crossLength near far f r ks len
  | [], _ => rfl
  | c :: cs, len => by
    simp only [List.map_cons, crossLength]
    have ih := crossLength_pl near far f r cs
    simp only [ih]
    rfl

theorem weak_set {a b : Item} (h : b.weak = a.weak) (f r : List Int) (m c : Int) (hl : a.leaf = false) :
    Item.pl { b with fwd := f, rev := r, mlength := m, clength := c }
      = Item.pl { a with fwd := f, rev := r, mlength := m, clength := c } := by
  have hb : b.leaf = a.leaf := of_weak h Item.leaf (fun _ => rfl)
  exact congrArg (fun i : Item => { i with fwd := f, rev := r, mlength := m, clength := c }) h

theorem weak_leaf {a b : Item} (h : b.weak = a.weak) (hl : a.leaf = true) : b.pl = a.pl := by
  have hb : b.leaf = a.leaf := of_weak h Item.leaf (fun _ => rfl)
  have e1 : ∀ i : Item, i.leaf = true → i.weak = i.pl := by
    intro i hi
    simp [Item.weak, Item.pl, hi]
  rw [← e1 a hl, ← e1 b (hb.trans hl), h]

theorem upStep_rel (s : Slice) {a b : Item} {ks ls : List Item} (h : b.weak = a.weak) (hk : List.Forall₂ PlD ks ls) :
    ERel (fun x y => y.1.pl = x.1.pl ∧ x.1.align = a.align ∧ List.Forall₂ PlD x.2 y.2 ∧ x.2 = ks)
      (upStep s a ks) (upStep s b ls) := by
  have hl : b.leaf = a.leaf := of_weak h Item.leaf (fun _ => rfl)
  have hp : b.placement = a.placement := of_weak h Item.placement (fun _ => rfl)
  have hn : b.near = a.near := of_weak h Item.near (fun _ => rfl)
  have hf : b.far = a.far := of_weak h Item.far (fun _ => rfl)
  have h1 : b.fwd = a.fwd := of_weak h Item.fwd (fun _ => rfl)
  have h2 : b.rev = a.rev := of_weak h Item.rev (fun _ => rfl)
  have h3 : b.balance = a.balance := of_weak h Item.balance (fun _ => rfl)
  have h4 : b.clength = a.clength := of_weak h Item.clength (fun _ => rfl)
  unfold upStep
  rw [hl]
  cases hlf : a.leaf with
  | true => exact ⟨weak_leaf h hlf, rfl, hk, rfl⟩
  | false =>
    simp only [Bool.false_eq_true, if_false, upBoth, hp]
    cases isWith s a.placement with
    | true =>
      simp only [if_true, upWith, hf, hn, h2]
      have e1 := of_pls hk (fun is => upRev a.far a.far a.rev is.reverse)
        (fun is => by rw [← List.map_reverse, upRev_pl])
      have e2 := of_pls hk (fun is => upFwd a.near a.fwd is) (fun is => upFwd_pl is _ _)
      rw [e1, h1, e2]
      cases upRev a.far a.far a.rev ks.reverse with
      | error e => simp [ERel, bind, Except.bind]
      | ok x =>
        cases upFwd a.near a.fwd ks with
        | error e => simp [ERel, bind, Except.bind]
        | ok y =>
          simp only [bind, Except.bind, ERel]
          rw [show max (y.1 + x.1) b.clength = max (y.1 + x.1) a.clength by rw [h4],
            show balanced b.balance y.2 = balanced a.balance y.2 by rw [h3]]
          exact ⟨weak_set h _ _ _ _ hlf, trivial, hk, trivial⟩
    | false =>
      simp only [Bool.false_eq_true, if_false, upCross, hf, hn, h1, h2]
      have e1 := of_pls hk (fun is => crossGuides a.near a.far is a.fwd a.rev) (fun is => crossGuides_pl _ _ is _ _)
      rw [e1]
      cases crossGuides a.near a.far ks a.fwd a.rev with
      | error e => simp [ERel, bind, Except.bind]
      | ok x =>
        obtain ⟨f, r⟩ := x
        have e2 := of_pls hk (fun is => crossLength a.near a.far f r is (a.near + a.far)) (fun is => crossLength_pl _ _ _ _ is _)
        simp only [bind, Except.bind, e2]
        cases crossLength a.near a.far f r ks (a.near + a.far) with
        | error e => simp [ERel]
        | ok y =>
          simp only [ERel, h4]
          exact ⟨weak_set h _ _ _ _ hlf, trivial, hk, trivial⟩

theorem weak_of_pl {a b : Item} (h : b.pl = a.pl) : b.weak = a.weak :=
  of_pl h Item.weak (fun _ => rfl)

theorem downRev_rel {ks ls : List Item} (h : List.Forall₂ PlD ks ls) : ∀ (rlen : Int) (rest : List Int),
    ERel (fun x y => List.Forall₂ PlD x.1 y.1 ∧ x.2 = y.2 ∧ x.1.map Item.key = ks.map Item.key) (downRev rlen rest ks) (downRev rlen rest ls) := by
  induction h with
  | nil => intros; simp [downRev, ERel]
  | @cons c d cs ds hcd hs ih =>
    intro rlen rest
    have hu : d.usesRev = c.usesRev := of_pl hcd.1 Item.usesRev (fun _ => rfl)
    have hc : d.clength + d.space = c.clength + c.space := of_pl hcd.1 (fun i => i.clength + i.space) (fun _ => rfl)
    have hi : imposeChild d rlen d.rev rest = imposeChild c rlen c.rev rest :=
      of_pl hcd.1 (fun i => imposeChild i rlen i.rev rest) (fun _ => rfl)
    simp only [downRev, hu, hc, hi]
    split
    · cases imposeChild c rlen c.rev rest with
      | error e => simp [ERel, bind, Except.bind]
      | ok x =>
        obtain ⟨rl, gs, rest', ch⟩ := x
        have hset : PlD { c with rev := gs } { d with rev := gs } :=
          ⟨congrArg (fun i : Item => { i with rev := gs }) hcd.1, hcd.2⟩
        simp only [bind, Except.bind]
        cases ch with
        | true => simp only [if_true, ERel]; exact ⟨.cons hset hs, trivial, rfl⟩
        | false =>
          simp only [Bool.false_eq_true, if_false]
          refine (ih (rl + (c.clength + c.space)) rest').bind ?_
          rintro ⟨xs, p⟩ ⟨ys, q⟩ ⟨k1, k2, k3⟩
          exact ⟨.cons hset k1, k2, by simp only [List.map_cons, List.cons.injEq]; exact ⟨rfl, k3⟩⟩
    · refine (ih (rlen + (c.clength + c.space)) rest).bind ?_
      rintro ⟨xs, p⟩ ⟨ys, q⟩ ⟨k1, k2, k3⟩
      exact ⟨.cons hcd k1, k2, congrArg (fun l => c.key :: l) k3⟩

theorem downFwd_rel {ks ls : List Item} (h : List.Forall₂ PlD ks ls) : ∀ (len : Int) (rest : List Int),
    ERel (fun x y => List.Forall₂ PlD x.1 y.1 ∧ x.2 = y.2 ∧ x.1.map Item.key = ks.map Item.key) (downFwd len rest ks) (downFwd len rest ls) := by
  induction h with
  | nil => intros; simp [downFwd, ERel]
  | @cons c d cs ds hcd hs ih =>
    intro len rest
    have hu : d.usesFwd = c.usesFwd := of_pl hcd.1 Item.usesFwd (fun _ => rfl)
    have hc : d.clength = c.clength := of_pl hcd.1 Item.clength (fun _ => rfl)
    have hsp : d.space = c.space := of_pl hcd.1 Item.space (fun _ => rfl)
    have hi : ∀ x, imposeChild d x d.fwd rest = imposeChild c x c.fwd rest := fun x =>
      of_pl hcd.1 (fun i => imposeChild i x i.fwd rest) (fun _ => rfl)
    simp only [downFwd, hu, hc, hi, hsp]
    split
    · cases imposeChild c (len + c.space) c.fwd rest with
      | error e => simp [ERel, bind, Except.bind]
      | ok x =>
        obtain ⟨rl, gs, rest', ch⟩ := x
        have hset : PlD { c with fwd := gs } { d with fwd := gs } :=
          ⟨congrArg (fun i : Item => { i with fwd := gs }) hcd.1, hcd.2⟩
        simp only [hc, hsp] at hset
        simp only [bind, Except.bind]
        cases ch with
        | true => simp only [if_true, ERel]; exact ⟨.cons hset hs, trivial, rfl⟩
        | false =>
          simp only [Bool.false_eq_true, if_false]
          refine (ih (rl + c.clength) rest').bind ?_
          rintro ⟨xs, p⟩ ⟨ys, q⟩ ⟨k1, k2, k3⟩
          exact ⟨.cons hset k1, k2, by simp only [List.map_cons, List.cons.injEq]; exact ⟨rfl, k3⟩⟩
    · refine (ih (len + c.space + c.clength) rest).bind ?_
      rintro ⟨xs, p⟩ ⟨ys, q⟩ ⟨k1, k2, k3⟩
      exact ⟨.cons hcd k1, k2, congrArg (fun l => c.key :: l) k3⟩

theorem downCross_rel {a b : Item} (hab : b.pl = a.pl) {ks ls : List Item} (h : List.Forall₂ PlD ks ls) :
    ERel (fun x y => List.Forall₂ PlD x.1 y.1 ∧ x.2 = y.2 ∧ x.1.map Item.key = ks.map Item.key) (downCross a ks) (downCross b ls) := by
  induction h with
  | nil => simp [downCross, ERel]
  | @cons c d cs ds hcd hs ih =>
    simp only [downCross]
    have hone : ERel (fun x y => PlD x.1 y.1 ∧ x.2 = y.2 ∧ x.1.key = c.key) (downCrossOne a c) (downCrossOne b d) := by
      have hn : b.near = a.near := of_pl hab Item.near (fun _ => rfl)
      have hf : b.far = a.far := of_pl hab Item.far (fun _ => rfl)
      have h1 : b.fwd = a.fwd := of_pl hab Item.fwd (fun _ => rfl)
      have h2 : b.rev = a.rev := of_pl hab Item.rev (fun _ => rfl)
      have e1 : imposeUse d d.usesFwd (a.near + d.fwdIndent) d.fwd a.fwd
          = imposeUse c c.usesFwd (a.near + c.fwdIndent) c.fwd a.fwd :=
        of_pl hcd.1 (fun i => imposeUse i i.usesFwd (a.near + i.fwdIndent) i.fwd a.fwd) (fun _ => rfl)
      have e2 : imposeUse d d.usesRev (a.far + d.revIndent) d.rev a.rev
          = imposeUse c c.usesRev (a.far + c.revIndent) c.rev a.rev :=
        of_pl hcd.1 (fun i => imposeUse i i.usesRev (a.far + i.revIndent) i.rev a.rev) (fun _ => rfl)
      simp only [downCrossOne, hn, hf, h1, h2, e1, e2]
      cases imposeUse c c.usesFwd (a.near + c.fwdIndent) c.fwd a.fwd with
      | error e => simp [ERel, bind, Except.bind]
      | ok x =>
        cases imposeUse c c.usesRev (a.far + c.revIndent) c.rev a.rev with
        | error e => simp [ERel, bind, Except.bind]
        | ok y =>
          simp only [bind, Except.bind, ERel]
          exact ⟨⟨congrArg (fun i : Item => { i with fwd := x.1, rev := y.1 }) hcd.1, hcd.2⟩, trivial, rfl⟩
    refine hone.bind ?_
    rintro ⟨c', p⟩ ⟨d', q⟩ ⟨k1, k2, k3⟩
    refine ih.bind ?_
    rintro ⟨xs, p'⟩ ⟨ys, q'⟩ ⟨m1, m2, m3⟩
    simp only at k2 m2 m3 k3
    simp only [ERel, k2, m2]
    exact ⟨.cons k1 m1, trivial, by simp only [List.map_cons, k3, m3]⟩

theorem downStep_rel (s : Slice) {a b : Item} {ks ls : List Item} (h : b.pl = a.pl) (hk : List.Forall₂ PlD ks ls) :
    ERel (fun x y => x.1 = a ∧ y.1 = b ∧ List.Forall₂ PlD x.2.1 y.2.1 ∧ x.2.2 = y.2.2 ∧ x.2.1.map Item.key = ks.map Item.key)
      (downStep s a ks) (downStep s b ls) := by
  have hl : b.leaf = a.leaf := of_pl h Item.leaf (fun _ => rfl)
  have hp : b.placement = a.placement := of_pl h Item.placement (fun _ => rfl)
  have hn : b.near = a.near := of_pl h Item.near (fun _ => rfl)
  have hf : b.far = a.far := of_pl h Item.far (fun _ => rfl)
  have h1 : b.fwd = a.fwd := of_pl h Item.fwd (fun _ => rfl)
  have h2 : b.rev = a.rev := of_pl h Item.rev (fun _ => rfl)
  unfold downStep
  rw [hl]
  cases a.leaf with
  | true => exact ⟨rfl, rfl, hk, rfl, rfl⟩
  | false =>
    simp only [Bool.false_eq_true, if_false, downBoth, hp]
    refine ERel.bind (R := fun x y => List.Forall₂ PlD x.1 y.1 ∧ x.2 = y.2 ∧ x.1.map Item.key = ks.map Item.key) ?_ ?_
    · cases isWith s a.placement with
      | true =>
        simp only [if_true, downWith, hf, hn, h1, h2]
        refine (downRev_rel (List.rel_reverse hk) a.far a.rev).bind ?_
        rintro ⟨xs, p⟩ ⟨ys, q⟩ ⟨k1, k2, k3⟩
        simp only at k2
        subst k2
        cases p with
        | true =>
          simp only [if_true, ERel]
          exact ⟨List.rel_reverse k1, trivial, by simpa using congrArg List.reverse k3⟩
        | false =>
          simp only [Bool.false_eq_true, if_false]
          exact downFwd_rel hk _ _
      | false =>
        simp only [Bool.false_eq_true, if_false]
        exact downCross_rel h hk
    · rintro ⟨xs, p⟩ ⟨ys, q⟩ ⟨k1, k2, k3⟩
      exact ⟨rfl, rfl, k1, k2, k3⟩

/-! ### layout -/

theorem putAt_pl {c d : Item} (h : d.pl = c.pl) (l q : Int) : d.putAt l q = c.putAt l q :=
  of_pl h (fun i => i.putAt l q) (fun _ => rfl)

theorem layRev_rel {ks ls : List Item} (h : List.Forall₂ PlD ks ls) : ∀ (rlen : Int) (gs : List Int) (rem : Int) (cnt : Nat),
    ERel (fun x y => x.1 = y.1 ∧ List.Forall₂ PlD x.2.1 y.2.1 ∧ x.2.2 = y.2.2) (layRev rlen gs rem cnt ks)
      (layRev rlen gs rem cnt ls) := by
  induction h with
  | nil => intros; simp [layRev, ERel]
  | @cons c d cs ds hcd hs ih =>
    intro rlen gs rem cnt
    have ha : d.align = c.align := of_pl hcd.1 Item.align (fun _ => rfl)
    have hc : d.clength = c.clength := of_pl hcd.1 Item.clength (fun _ => rfl)
    have hsp : d.space = c.space := of_pl hcd.1 Item.space (fun _ => rfl)
    have hg : guideRev d rlen gs = guideRev c rlen gs := of_pl hcd.1 (fun i => guideRev i rlen gs) (fun _ => rfl)
    simp only [layRev, ha, hc, hsp, hg]
    split
    · cases guideRev c rlen gs with
      | error e => simp [ERel, bind, Except.bind]
      | ok x =>
        cases hts : takeShare (c.align == .reverseFill) rem cnt with
        | error e => simp [ERel, bind, Except.bind]
        | ok y =>
          simp only [bind, Except.bind]
          refine ERel.bind (ih _ _ _ _) ?_
          rintro ⟨d1, o1, r1, n1⟩ ⟨d2, o2, r2, n2⟩ ⟨k1, k2, k3⟩
          simp only [Prod.mk.injEq] at k1 k2 k3
          simp only [ERel, k1, putAt_pl hcd.1, k3]
          exact ⟨trivial, k2, trivial⟩
    · exact ⟨rfl, .cons hcd hs, rfl⟩

theorem layFwd_rel (rnd : Int → Int → Int → Int) (z av : Int) {ks ls : List Item} (h : List.Forall₂ PlD ks ls) :
    ∀ (len : Int) (gs : List Int) (rem : Int) (cnt : Nat),
    layFwd rnd z av len gs rem cnt ls = layFwd rnd z av len gs rem cnt ks := by
  induction h with
  | nil => intros; rfl
  | @cons c d cs ds hcd hs ih =>
    intro len gs rem cnt
    have ha : d.align = c.align := of_pl hcd.1 Item.align (fun _ => rfl)
    have hc : d.clength = c.clength := of_pl hcd.1 Item.clength (fun _ => rfl)
    have hsp : d.space = c.space := of_pl hcd.1 Item.space (fun _ => rfl)
    have hg : ∀ x, guideFwd d x gs = guideFwd c x gs := fun x => of_pl hcd.1 (fun i => guideFwd i x gs) (fun _ => rfl)
    have hpa := fun l q => putAt_pl hcd.1 l q
    have hnd := hcd.2
    simp only [layFwd, ha, hc, hsp, hg, ih, hpa]
    cases hal : c.align <;> first | rfl | exact absurd hal hnd

theorem layoutBoth_rel (rnd : Int → Int → Int → Int) (s : Slice) (p : Item) {ks ls : List Item}
    (h : List.Forall₂ PlD ks ls) : layoutBoth rnd s p ls = layoutBoth rnd s p ks := by
  unfold layoutBoth
  split
  · have hcnt : (ls.filter (fun c => c.align.padded)).length = (ks.filter (fun c => c.align.padded)).length := by
      induction h with
      | nil => rfl
      | @cons c d cs ds hcd _ ih =>
        have ha : d.align = c.align := of_pl hcd.1 Item.align (fun _ => rfl)
        simp only [List.filter_cons, ha]
        split <;> simp [ih]
    simp only [layoutWith, hcnt]
    have hr := layRev_rel (List.rel_reverse h) (p.place.length - p.far) p.rev (p.place.length - p.mlength)
      (ks.filter (fun c => c.align.padded)).length
    cases h1 : layRev (p.place.length - p.far) p.rev (p.place.length - p.mlength)
      (ks.filter (fun c => c.align.padded)).length ks.reverse with
    | error e =>
      rw [h1] at hr
      cases h2 : layRev (p.place.length - p.far) p.rev (p.place.length - p.mlength)
        (ks.filter (fun c => c.align.padded)).length ls.reverse with
      | error e' => rw [h2] at hr; simp only [ERel] at hr; rw [hr]
      | ok x => rw [h2] at hr; exact hr.elim
    | ok x =>
      rw [h1] at hr
      cases h2 : layRev (p.place.length - p.far) p.rev (p.place.length - p.mlength)
        (ks.filter (fun c => c.align.padded)).length ls.reverse with
      | error e' => rw [h2] at hr; exact hr.elim
      | ok y =>
        rw [h2] at hr
        obtain ⟨d1, o1, r1, n1⟩ := x
        obtain ⟨d2, o2, r2, n2⟩ := y
        obtain ⟨k1, k2, k3⟩ := hr
        simp only [Prod.mk.injEq] at k1 k3
        obtain ⟨rfl, rfl⟩ := k3
        subst k1
        simp only [bind, Except.bind, layFwd_rel rnd _ _ (List.rel_reverse k2)]
  · induction h with
    | nil => rfl
    | @cons c d cs ds hcd _ ih =>
      have hone : layCrossOne p d = layCrossOne p c := by
        have hnd := hcd.2
        have ha : d.align = c.align := of_pl hcd.1 Item.align (fun _ => rfl)
        have hpa := fun l q => putAt_pl hcd.1 l q
        have h1 : d.fwdIndent = c.fwdIndent := of_pl hcd.1 Item.fwdIndent (fun _ => rfl)
        have h2 : d.revIndent = c.revIndent := of_pl hcd.1 Item.revIndent (fun _ => rfl)
        have h3 : d.clength = c.clength := of_pl hcd.1 Item.clength (fun _ => rfl)
        have h4 : ∀ x, leafOffset d (!d.suppress) p.fwd d.fwd x = leafOffset c (!c.suppress) p.fwd c.fwd x :=
          fun x => of_pl hcd.1 (fun i => leafOffset i (!i.suppress) p.fwd i.fwd x) (fun _ => rfl)
        have h5 : ∀ x, leafOffset d (!d.suppress) p.rev d.rev x = leafOffset c (!c.suppress) p.rev c.rev x :=
          fun x => of_pl hcd.1 (fun i => leafOffset i (!i.suppress) p.rev i.rev x) (fun _ => rfl)
        simp only [layCrossOne, ha, h1, h2, h3, h4, h5, hpa]
        cases hal : c.align <;> first | rfl | exact absurd hal hnd
      simp only [layoutCross, hone, ih]

end Verif.Eve
