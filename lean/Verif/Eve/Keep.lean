import Verif.Eve.Cross
/-! What the passes leave alone. -/
namespace Verif.Eve

/-- The attributes of a view: everything but the results of solving and placing. -/
def Item.attr (i : Item) : Item :=
  { i with place := {}, clength := 0, mlength := 0, fwd := [], rev := [] }

/-- Solving changes lengths (which grow) and guides (whose number stays). -/
structure Grows (a b : Item) : Prop where
  attr : a.attr = b.attr
  clength : a.clength ≤ b.clength
  fwd : a.fwd.length = b.fwd.length
  rev : a.rev.length = b.rev.length

theorem Grows.refl (a : Item) : Grows a a := ⟨rfl, Int.le_refl _, rfl, rfl⟩

theorem Grows.trans {a b c : Item} (h : Grows a b) (h' : Grows b c) : Grows a c :=
  ⟨h.attr.trans h'.attr, Int.le_trans h.clength h'.clength, h.fwd.trans h'.fwd, h.rev.trans h'.rev⟩

section
variable {a b : Item}
theorem attr_placement (h : a.attr = b.attr) : a.placement = b.placement := by
  have := congrArg (fun i : Item => i.placement) h
  simpa [Item.attr] using this
theorem attr_leaf (h : a.attr = b.attr) : a.leaf = b.leaf := by
  unfold Item.leaf; rw [attr_placement h]
theorem attr_indent (h : a.attr = b.attr) : a.indent = b.indent := by
  have := congrArg (fun i : Item => i.indent) h
  simpa [Item.attr] using this
theorem attr_create (h : a.attr = b.attr) : a.create = b.create := by
  have := congrArg (fun i : Item => i.create) h
  simpa [Item.attr] using this
theorem attr_spacing (h : a.attr = b.attr) : a.spacing = b.spacing := by
  have := congrArg (fun i : Item => i.spacing) h
  simpa [Item.attr] using this
theorem attr_align (h : a.attr = b.attr) : a.align = b.align := by
  have := congrArg (fun i : Item => i.align) h
  simpa [Item.attr] using this
theorem attr_suppress (h : a.attr = b.attr) : a.suppress = b.suppress := by
  have := congrArg (fun i : Item => i.suppress) h
  simpa [Item.attr] using this
theorem attr_balance (h : a.attr = b.attr) : a.balance = b.balance := by
  have := congrArg (fun i : Item => i.balance) h
  simpa [Item.attr] using this
theorem attr_margin (h : a.attr = b.attr) : a.margin = b.margin := by
  have := congrArg (fun i : Item => i.margin) h
  simpa [Item.attr] using this
theorem attr_childAlign (h : a.attr = b.attr) : a.childAlign = b.childAlign := by
  have := congrArg (fun i : Item => i.childAlign) h
  simpa [Item.attr] using this
theorem attr_ext (h : a.attr = b.attr) : a.ext = b.ext := by
  have := congrArg (fun i : Item => i.ext) h
  simpa [Item.attr] using this
theorem attr_space (h : a.attr = b.attr) : a.space = b.space := by
  have := congrArg (fun i : Item => i.space) h
  simpa [Item.attr] using this
theorem attr_near (h : a.attr = b.attr) : a.near = b.near := by
  unfold Item.near; rw [attr_ext h, attr_margin h]
theorem attr_far (h : a.attr = b.attr) : a.far = b.far := by
  unfold Item.far; rw [attr_ext h, attr_margin h]
theorem attr_guided (h : a.attr = b.attr) : a.guided ↔ b.guided := by
  unfold Item.guided; rw [attr_leaf h, attr_suppress h, attr_ext h, attr_align h]
theorem attr_usesFwd (h : a.attr = b.attr) : a.usesFwd = b.usesFwd := by
  unfold Item.usesFwd; rw [attr_align h, attr_suppress h]
theorem attr_usesRev (h : a.attr = b.attr) : a.usesRev = b.usesRev := by
  unfold Item.usesRev; rw [attr_align h, attr_suppress h]
end

/-! ### solve_up -/

theorem raise_rest : ∀ {gs base x y : List Int} {off : Int}, raise off gs base = .ok (x, y) →
    base.length = x.length + y.length
  | [], base, x, y, off, h => by
    obtain ⟨rfl, rfl⟩ := raise_nil h; simp
  | g :: gs, base, x, y, off, h => by
    obtain ⟨b, base', x', rfl, rfl, h'⟩ := raise_cons h
    have := raise_rest h'
    simp; omega

theorem upFwd_length : ∀ {cs : List Item} {len l : Int} {rest gs : List Int},
    upFwd len rest cs = .ok (l, gs) → gs.length = rest.length
  | [], len, l, rest, gs, h => by
    simp only [upFwd, Except.ok.injEq, Prod.mk.injEq] at h
    rw [h.2]
  | c :: cs, len, l, rest, gs, h => by
    rcases upFwd_cons h with ⟨_, x, rest', gs', h1, h2, rfl⟩ | ⟨_, h2⟩
    · have := upFwd_length h2
      have := raise_rest h1
      simp; omega
    · exact upFwd_length h2

theorem upRev_cons {rlen add l : Int} {rest gs : List Int} {c : Item} {cs : List Item}
    (h : upRev rlen add rest (c :: cs) = .ok (l, gs)) :
    (c.usesRev = true ∧ ∃ x rest' gs', raise rlen c.rev rest = .ok (x, rest') ∧
      upRev (snap c x c.rev rlen + (c.clength + c.space)) (add + (snap c x c.rev rlen - rlen)) rest' cs
        = .ok (l, gs') ∧ gs = x ++ gs') ∨
    (c.usesRev = false ∧ upRev (rlen + (c.clength + c.space)) add rest cs = .ok (l, gs)) := by
  simp only [upRev] at h
  cases hu : c.usesRev with
  | false => right; rw [hu] at h; simpa using h
  | true =>
    left
    rw [hu] at h
    simp only [if_true] at h
    obtain ⟨⟨x, rest'⟩, h1, h2⟩ := ok_bind h
    obtain ⟨⟨l', gs'⟩, h3, h4⟩ := ok_bind h2
    simp only [Except.ok.injEq, Prod.mk.injEq] at h4
    exact ⟨rfl, x, rest', gs', h1, by rw [← h4.1]; exact h3, h4.2.symm⟩

theorem upRev_length : ∀ {cs : List Item} {rlen add l : Int} {rest gs : List Int},
    upRev rlen add rest cs = .ok (l, gs) → gs.length = rest.length
  | [], _, _, l, rest, gs, h => by
    simp only [upRev, Except.ok.injEq, Prod.mk.injEq] at h
    rw [h.2]
  | c :: cs, _, _, l, rest, gs, h => by
    rcases upRev_cons h with ⟨_, x, rest', gs', h1, h2, rfl⟩ | ⟨_, h2⟩
    · have := upRev_length h2
      have := raise_rest h1
      simp; omega
    · exact upRev_length h2

theorem progression_length (d : Int) : ∀ (xs : List Int) (acc : Int), (progression d acc xs).length = xs.length
  | [], _ => rfl
  | _ :: xs, acc => by simp [progression, progression_length d xs]

theorem balanced_length (b : Bool) (gs : List Int) : (balanced b gs).length = gs.length := by
  unfold balanced
  split
  · split <;> simp [progression, progression_length]
  · rfl

theorem balanced_false (gs : List Int) : balanced false gs = gs := by simp [balanced]

theorem raiseChild_length {u : Bool} {off : Int} {cg gs f : List Int} (h : raiseChild u off cg gs = .ok f) :
    f.length = gs.length := by
  unfold raiseChild at h
  split at h
  · obtain ⟨⟨x, y⟩, h1, h2⟩ := ok_bind h
    simp only [Except.ok.injEq] at h2
    have := raise_rest h1
    rw [← h2]; simp; omega
  · simp only [Except.ok.injEq] at h; rw [h]

theorem crossGuides_length {near far : Int} : ∀ {cs : List Item} {fwd rev fwd' rev' : List Int},
    crossGuides near far cs fwd rev = .ok (fwd', rev') → fwd'.length = fwd.length ∧ rev'.length = rev.length
  | [], fwd, rev, fwd', rev', h => by
    simp only [crossGuides, Except.ok.injEq, Prod.mk.injEq] at h
    rw [h.1, h.2]; exact ⟨rfl, rfl⟩
  | c :: cs, fwd, rev, fwd', rev', h => by
    simp only [crossGuides] at h
    obtain ⟨f, h1, h⟩ := ok_bind h
    obtain ⟨r, h2, h⟩ := ok_bind h
    obtain ⟨k1, k2⟩ := crossGuides_length h
    rw [k1, k2, raiseChild_length h1, raiseChild_length h2]
    exact ⟨rfl, rfl⟩

/-- What `solve_up` leaves behind in a container. -/
def UpOk (s : Slice) (p : Item) (kids : List Item) : Prop :=
  p.leaf = false →
    if isWith s p.placement then
      ∃ p0 : Item, Grows p0 p ∧ ∃ add len fwd, upRev p.far p.far p0.rev kids.reverse = .ok (add, p.rev) ∧
        upFwd p.near p0.fwd kids = .ok (len, fwd) ∧ p.fwd = balanced p.balance fwd ∧
        p.mlength = len + add ∧ p.clength = max (len + add) p0.clength
    else
      ∃ p0 : Item, Grows p0 p ∧ ∃ len, crossGuides p.near p.far kids p0.fwd p0.rev = .ok (p.fwd, p.rev) ∧
        crossLength p.near p.far p.fwd p.rev kids (p.near + p.far) = .ok len ∧
        p.mlength = len ∧ p.clength = max len p0.clength

theorem upStep_ok {s : Slice} {p p' : Item} {kids kids' : List Item} (h : upStep s p kids = .ok (p', kids')) :
    kids' = kids ∧ Grows p p' ∧ UpOk s p' kids := by
  unfold upStep at h
  split at h
  · rename_i hl
    simp only [Except.ok.injEq, Prod.mk.injEq] at h
    obtain ⟨rfl, rfl⟩ := h
    exact ⟨rfl, Grows.refl _, fun h => by rw [h] at hl; cases hl⟩
  · rename_i hl
    obtain ⟨q, h1, h2⟩ := ok_bind h
    simp only [Except.ok.injEq, Prod.mk.injEq] at h2
    obtain ⟨rfl, rfl⟩ := h2
    refine ⟨rfl, ?_⟩
    unfold upBoth at h1
    split at h1
    · rename_i hw
      unfold upWith at h1
      obtain ⟨⟨add, rev⟩, h2, h1⟩ := ok_bind h1
      obtain ⟨⟨len, fwd⟩, h3, h1⟩ := ok_bind h1
      simp only [Except.ok.injEq] at h1
      have hg : Grows p q := by
        rw [← h1]
        refine ⟨rfl, by simp only; omega, ?_, ?_⟩
        · simp only [balanced_length, upFwd_length h3]
        · simp only [upRev_length h2]
      refine ⟨hg, fun _ => ?_⟩
      rw [← attr_placement hg.attr, if_pos hw]
      refine ⟨p, hg, add, len, fwd, ?_, ?_, ?_, ?_, ?_⟩
      · rw [← attr_far hg.attr, ← h1]; exact h2
      · rw [← attr_near hg.attr]; exact h3
      · rw [← h1]
      · rw [← h1]
      · rw [← h1]
    · rename_i hw
      unfold upCross at h1
      obtain ⟨⟨fwd, rev⟩, h2, h1⟩ := ok_bind h1
      obtain ⟨len, h3, h1⟩ := ok_bind h1
      simp only [Except.ok.injEq] at h1
      have hg : Grows p q := by
        rw [← h1]
        obtain ⟨k1, k2⟩ := crossGuides_length h2
        exact ⟨rfl, by simp only; omega, k1.symm, k2.symm⟩
      refine ⟨hg, fun _ => ?_⟩
      rw [← attr_placement hg.attr, if_neg hw]
      refine ⟨p, hg, len, ?_, ?_, ?_, ?_⟩
      · rw [← attr_far hg.attr, ← attr_near hg.attr, ← h1]; exact h2
      · rw [← attr_near hg.attr, ← attr_far hg.attr, ← h1]; exact h3
      · rw [← h1]
      · rw [← h1]

/-! ### solve_down -/

theorem impose_length : ∀ {gs base x y : List Int} {off : Int} {ch : Bool},
    impose off gs base = .ok (x, y, ch) → x.length = gs.length
  | [], base, x, y, off, ch, h => by
    simp only [impose, Except.ok.injEq, Prod.mk.injEq] at h
    rw [← h.1]
  | g :: gs, [], x, y, off, ch, h => by simp [impose] at h
  | g :: gs, b :: base, x, y, off, ch, h => by
    simp only [impose] at h
    obtain ⟨⟨x', y', ch'⟩, h1, h2⟩ := ok_bind h
    simp only [Except.ok.injEq, Prod.mk.injEq] at h2
    rw [← h2.1]
    simp [impose_length h1]

theorem imposeChild_length {c : Item} {off off' : Int} {cg gs x y : List Int} {ch : Bool}
    (h : imposeChild c off cg gs = .ok (off', x, y, ch)) : x.length = cg.length := by
  unfold imposeChild at h
  cases cg with
  | nil =>
    simp only [Except.ok.injEq, Prod.mk.injEq] at h
    rw [← h.2.1]
  | cons g cg =>
    simp only at h
    split at h
    · cases gs with
      | nil => simp at h
      | cons b gs =>
        obtain ⟨⟨a1, b1, c1⟩, h1, h2⟩ := ok_bind h
        simp only [Except.ok.injEq, Prod.mk.injEq] at h2
        rw [← h2.2.1]
        simp [impose_length h1]
    · obtain ⟨⟨a1, b1, c1⟩, h1, h2⟩ := ok_bind h
      simp only [Except.ok.injEq, Prod.mk.injEq] at h2
      rw [← h2.2.1]
      exact impose_length h1

theorem forall₂_refl {α : Type} {R : α → α → Prop} (h : ∀ a, R a a) (xs : List α) : List.Forall₂ R xs xs :=
  List.forall₂_same.2 (fun x _ => h x)

theorem downRev_ok : ∀ {cs cs' : List Item} {rlen : Int} {rest : List Int} {ch : Bool},
    downRev rlen rest cs = .ok (cs', ch) → List.Forall₂ Grows cs cs'
  | [], cs', _, _, ch, h => by
    simp only [downRev, Except.ok.injEq, Prod.mk.injEq] at h
    rw [← h.1]; exact .nil
  | c :: cs, cs', rlen, rest, ch, h => by
    simp only [downRev] at h
    split at h
    · obtain ⟨⟨rlen', gs, rest', ch1⟩, h1, h⟩ := ok_bind h
      have hg : Grows c { c with rev := gs } := ⟨rfl, Int.le_refl _, rfl, (imposeChild_length h1).symm⟩
      dsimp only at h
      split at h
      · simp only [Except.ok.injEq, Prod.mk.injEq] at h
        rw [← h.1]
        exact .cons hg (forall₂_refl Grows.refl _)
      · obtain ⟨⟨cs1, ch2⟩, h2, h⟩ := ok_bind h
        simp only [Except.ok.injEq, Prod.mk.injEq] at h
        rw [← h.1]
        exact .cons hg (downRev_ok h2)
    · obtain ⟨⟨cs1, ch2⟩, h2, h⟩ := ok_bind h
      simp only [Except.ok.injEq, Prod.mk.injEq] at h
      rw [← h.1]
      exact .cons (Grows.refl _) (downRev_ok h2)

theorem downFwd_ok : ∀ {cs cs' : List Item} {len : Int} {rest : List Int} {ch : Bool},
    downFwd len rest cs = .ok (cs', ch) → List.Forall₂ Grows cs cs'
  | [], cs', _, _, ch, h => by
    simp only [downFwd, Except.ok.injEq, Prod.mk.injEq] at h
    rw [← h.1]; exact .nil
  | c :: cs, cs', len, rest, ch, h => by
    simp only [downFwd] at h
    split at h
    · obtain ⟨⟨len', gs, rest', ch1⟩, h1, h⟩ := ok_bind h
      have hg : Grows c { c with fwd := gs } := ⟨rfl, Int.le_refl _, (imposeChild_length h1).symm, rfl⟩
      dsimp only at h
      split at h
      · simp only [Except.ok.injEq, Prod.mk.injEq] at h
        rw [← h.1]
        exact .cons hg (forall₂_refl Grows.refl _)
      · obtain ⟨⟨cs1, ch2⟩, h2, h⟩ := ok_bind h
        simp only [Except.ok.injEq, Prod.mk.injEq] at h
        rw [← h.1]
        exact .cons hg (downFwd_ok h2)
    · obtain ⟨⟨cs1, ch2⟩, h2, h⟩ := ok_bind h
      simp only [Except.ok.injEq, Prod.mk.injEq] at h
      rw [← h.1]
      exact .cons (Grows.refl _) (downFwd_ok h2)

theorem imposeUse_length {c : Item} {u : Bool} {off : Int} {cg gs x : List Int} {ch : Bool}
    (h : imposeUse c u off cg gs = .ok (x, ch)) : x.length = cg.length := by
  unfold imposeUse at h
  split at h
  · obtain ⟨⟨a1, b1, c1, d1⟩, h1, h2⟩ := ok_bind h
    simp only [Except.ok.injEq, Prod.mk.injEq] at h2
    rw [← h2.1]; exact imposeChild_length h1
  · simp only [Except.ok.injEq, Prod.mk.injEq] at h; rw [h.1]

theorem downCrossOne_ok {p c c' : Item} {ch : Bool} (h : downCrossOne p c = .ok (c', ch)) : Grows c c' := by
  unfold downCrossOne at h
  obtain ⟨⟨f, cf⟩, h1, h⟩ := ok_bind h
  obtain ⟨⟨r, cr⟩, h2, h⟩ := ok_bind h
  simp only [Except.ok.injEq, Prod.mk.injEq] at h
  rw [← h.1]
  exact ⟨rfl, Int.le_refl _, (imposeUse_length h1).symm, (imposeUse_length h2).symm⟩

theorem downCross_ok {p : Item} : ∀ {cs cs' : List Item} {ch : Bool},
    downCross p cs = .ok (cs', ch) → List.Forall₂ Grows cs cs'
  | [], cs', ch, h => by
    simp only [downCross, Except.ok.injEq, Prod.mk.injEq] at h
    rw [← h.1]; exact .nil
  | c :: cs, cs', ch, h => by
    simp only [downCross] at h
    obtain ⟨⟨c1, ch1⟩, h1, h⟩ := ok_bind h
    obtain ⟨⟨cs1, ch2⟩, h2, h⟩ := ok_bind h
    simp only [Except.ok.injEq, Prod.mk.injEq] at h
    rw [← h.1]
    exact .cons (downCrossOne_ok h1) (downCross_ok h2)

theorem downStep_ok {s : Slice} {p p' : Item} {kids kids' : List Item} {b : Bool}
    (h : downStep s p kids = .ok (p', kids', b)) : p' = p ∧ List.Forall₂ Grows kids kids' := by
  unfold downStep at h
  split at h
  · simp only [Except.ok.injEq, Prod.mk.injEq] at h
    obtain ⟨rfl, rfl, _⟩ := h
    exact ⟨rfl, forall₂_refl Grows.refl _⟩
  · obtain ⟨⟨ks, ch⟩, h1, h2⟩ := ok_bind h
    simp only [Except.ok.injEq, Prod.mk.injEq] at h2
    obtain ⟨rfl, rfl, _⟩ := h2
    refine ⟨rfl, ?_⟩
    unfold downBoth at h1
    split at h1
    · unfold downWith at h1
      obtain ⟨⟨ks1, ch1⟩, h2, h3⟩ := ok_bind h1
      dsimp only at h3
      split at h3
      · simp only [Except.ok.injEq, Prod.mk.injEq] at h3
        rw [← h3.1]
        have := List.rel_reverse (downRev_ok h2)
        simpa using this
      · exact downFwd_ok h3
    · exact downCross_ok h1

/-! ### the solver -/

/-- A property that solving preserves. -/
def GrowStable (P : Item → List Item → Prop) : Prop :=
  ∀ a ks a' ks', P a ks → Grows a a' → List.Forall₂ Grows ks ks' → P a' ks'

theorem post_up {s : Slice} {P : Item → List Item → Prop} (hP : GrowStable P) {t t' : Tree Item}
    (h : t.post (upStep s) = .ok t') (hp : t.Forall P) :
    (t.visible = true → Grows t.root t'.root) ∧ t'.Forall (fun a ks => P a ks ∧ UpOk s a ks) := by
  obtain ⟨h1, h2⟩ := Tree.post_self (f := upStep s) (fun a ks a' ks' e => (upStep_ok e).1) (R := Grows)
    (fun a ks a' ks' e => (upStep_ok e).2.1) hP h hp
  refine ⟨h1, h2.imp ?_⟩
  rintro a ks ⟨hp, a0, _, e⟩
  exact ⟨hp, (upStep_ok e).2.2⟩

theorem pre_down {s : Slice} {P : Item → List Item → Prop} (hP : GrowStable P) {t t' : Tree Item} {b : Bool}
    (h : t.pre (downStep s) = .ok (t', b)) (hp : t.Forall P) :
    (t.visible = true → t'.root = t.root) ∧ t'.Forall P := by
  refine Tree.pre_kids (σ := id) (R := Grows) (Q := fun _ => True) (P := P)
    (fun a ks a' ks' b e => (downStep_ok e).1) (fun a ks a' hp hg => hP _ _ _ _ hp hg (forall₂_refl Grows.refl _))
    ?_ h hp (fun _ => trivial)
  intro a ks ks' b _ hp e
  have := (downStep_ok e).2
  simp only [id_eq, List.map_id_fun]
  exact ⟨hP _ _ _ _ hp (Grows.refl _) this, by simp, this⟩

theorem solveLoop_ok {s : Slice} {P : Item → List Item → Prop} (hP : GrowStable P) :
    ∀ (n : Nat) {t t' : Tree Item} {b : Bool}, solveLoop s n t = .ok (t', b) →
    t.Forall (fun a ks => P a ks ∧ UpOk s a ks) →
    (t.visible = true → Grows t.root t'.root) ∧ t'.visible = t.visible ∧
      t'.Forall (fun a ks => P a ks ∧ UpOk s a ks)
  | 0, t, t', b, h, hp => by
    simp only [solveLoop, Except.ok.injEq, Prod.mk.injEq] at h
    rw [← h.1]; exact ⟨fun _ => Grows.refl _, rfl, hp⟩
  | n + 1, t, t', b, h, hp => by
    simp only [solveLoop] at h
    obtain ⟨⟨t1, pr⟩, h1, h⟩ := ok_bind h
    obtain ⟨t2, h2, h⟩ := ok_bind h
    dsimp only at h2 h
    obtain ⟨a1, a2⟩ := pre_down hP h1 (hp.imp (fun _ _ h => h.1))
    obtain ⟨b1, b2⟩ := post_up hP h2 a2
    have v1 := Tree.pre_visible h1
    have v2 := Tree.post_visible h2
    split at h
    · obtain ⟨c1, c2, c3⟩ := solveLoop_ok hP n h b2
      refine ⟨fun hv => ?_, by rw [c2, v2, v1], c3⟩
      have x1 := a1 hv
      have x2 := b1 (by rw [v1]; exact hv)
      have x3 := c1 (by rw [v2, v1]; exact hv)
      rw [← x1]; exact x2.trans x3
    · simp only [Except.ok.injEq, Prod.mk.injEq] at h
      rw [← h.1]
      refine ⟨fun hv => ?_, by rw [v2, v1], b2⟩
      rw [← a1 hv]; exact b1 (by rw [v1]; exact hv)

theorem solve_ok {s : Slice} {P : Item → List Item → Prop} (hP : GrowStable P) {t t' : Tree Item} {b : Bool}
    (h : solve s t = .ok (t', b)) (hp : t.Forall P) :
    (t.visible = true → Grows t.root t'.root) ∧ t'.visible = t.visible ∧
      t'.Forall (fun a ks => P a ks ∧ UpOk s a ks) := by
  unfold solve at h
  obtain ⟨t1, h1, h⟩ := ok_bind h
  obtain ⟨a1, a2⟩ := post_up hP h1 hp
  have v1 := Tree.post_visible h1
  obtain ⟨b1, b2, b3⟩ := solveLoop_ok hP _ h a2
  exact ⟨fun hv => (a1 hv).trans (b1 (by rw [v1]; exact hv)), by rw [b2, v1], b3⟩

end Verif.Eve
