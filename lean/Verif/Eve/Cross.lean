import Verif.Eve.Pack
/-! Placing the children of a container across its direction. -/
namespace Verif.Eve

/-- The first guide is at least `v`. -/
def HeadGe (gs : List Int) (v : Int) : Prop := ∃ x xs, gs = x :: xs ∧ v ≤ x

theorem raise_headGe {off : Int} {cg base x y : List Int} {v : Int} (h : raise off cg base = .ok (x, y))
    (hb : HeadGe base v) : HeadGe (x ++ y) v := by
  cases cg with
  | nil =>
    obtain ⟨rfl, rfl⟩ := raise_nil h
    simpa using hb
  | cons g gs =>
    obtain ⟨b, base', x', rfl, rfl, _⟩ := raise_cons h
    obtain ⟨z, zs, e, hz⟩ := hb
    simp only [List.cons.injEq] at e
    exact ⟨_, x' ++ y, rfl, by omega⟩

theorem raise_headGe' {off g : Int} {gs base x y : List Int} (h : raise off (g :: gs) base = .ok (x, y)) :
    HeadGe (x ++ y) (g + off) := by
  obtain ⟨b, base', x', rfl, rfl, _⟩ := raise_cons h
  exact ⟨_, x' ++ y, rfl, by omega⟩

theorem crossGuides_cons {near far : Int} {c : Item} {cs : List Item} {fwd rev fwd' rev' : List Int}
    (h : crossGuides near far (c :: cs) fwd rev = .ok (fwd', rev')) :
    ∃ f r, crossGuides near far cs f r = .ok (fwd', rev') ∧
      (c.usesFwd = true → ∃ x y, raise (near + c.fwdIndent) c.fwd fwd = .ok (x, y) ∧ f = x ++ y) ∧
      (c.usesFwd = false → f = fwd) ∧
      (c.usesRev = true → ∃ x y, raise (far + c.revIndent) c.rev rev = .ok (x, y) ∧ r = x ++ y) ∧
      (c.usesRev = false → r = rev) := by
  simp only [crossGuides] at h
  obtain ⟨f, h1, h⟩ := ok_bind h
  obtain ⟨r, h2, h⟩ := ok_bind h
  refine ⟨f, r, h, ?_, ?_, ?_, ?_⟩
  · intro hu
    unfold raiseChild at h1
    rw [if_pos hu] at h1
    obtain ⟨⟨x, y⟩, h3, h4⟩ := ok_bind h1
    simp only [Except.ok.injEq] at h4
    exact ⟨x, y, h3, h4.symm⟩
  · intro hu
    unfold raiseChild at h1
    rw [if_neg (by simp [hu])] at h1
    simpa using h1.symm
  · intro hu
    unfold raiseChild at h2
    rw [if_pos hu] at h2
    obtain ⟨⟨x, y⟩, h3, h4⟩ := ok_bind h2
    simp only [Except.ok.injEq] at h4
    exact ⟨x, y, h3, h4.symm⟩
  · intro hu
    unfold raiseChild at h2
    rw [if_neg (by simp [hu])] at h2
    simpa using h2.symm

theorem crossGuides_mono {near far v : Int} : ∀ {cs : List Item} {fwd rev fwd' rev' : List Int},
    crossGuides near far cs fwd rev = .ok (fwd', rev') →
    (HeadGe fwd v → HeadGe fwd' v) ∧ (HeadGe rev v → HeadGe rev' v)
  | [], fwd, rev, fwd', rev', h => by
    simp only [crossGuides, Except.ok.injEq, Prod.mk.injEq] at h
    rw [h.1, h.2]; exact ⟨id, id⟩
  | c :: cs, fwd, rev, fwd', rev', h => by
    obtain ⟨f, r, h1, f1, f2, r1, r2⟩ := crossGuides_cons h
    obtain ⟨m1, m2⟩ := crossGuides_mono h1
    constructor
    · intro hb
      apply m1
      cases hu : c.usesFwd with
      | true => obtain ⟨x, y, e1, rfl⟩ := f1 hu; exact raise_headGe e1 hb
      | false => rw [f2 hu]; exact hb
    · intro hb
      apply m2
      cases hu : c.usesRev with
      | true => obtain ⟨x, y, e1, rfl⟩ := r1 hu; exact raise_headGe e1 hb
      | false => rw [r2 hu]; exact hb

theorem crossGuides_ge {near far : Int} : ∀ {cs : List Item} {fwd rev fwd' rev' : List Int},
    crossGuides near far cs fwd rev = .ok (fwd', rev') → ∀ c ∈ cs,
    (c.usesFwd = true → ∀ g gs, c.fwd = g :: gs → HeadGe fwd' (g + (near + c.fwdIndent))) ∧
    (c.usesRev = true → ∀ g gs, c.rev = g :: gs → HeadGe rev' (g + (far + c.revIndent)))
  | [], _, _, _, _, _, c, hc => by simp at hc
  | d :: cs, fwd, rev, fwd', rev', h, c, hc => by
    obtain ⟨f, r, h1, f1, f2, r1, r2⟩ := crossGuides_cons h
    rcases List.mem_cons.1 hc with rfl | hc
    · constructor
      · intro hu g gs e
        obtain ⟨x, y, e1, rfl⟩ := f1 hu
        rw [e] at e1
        exact (crossGuides_mono h1).1 (raise_headGe' e1)
      · intro hu g gs e
        obtain ⟨x, y, e1, rfl⟩ := r1 hu
        rw [e] at e1
        exact (crossGuides_mono h1).2 (raise_headGe' e1)
    · exact crossGuides_ge h1 c hc

theorem crossLength_ge {near far : Int} {fwd rev : List Int} : ∀ {cs : List Item} {len len' : Int},
    crossLength near far fwd rev cs len = .ok len' → len ≤ len' ∧ ∀ c ∈ cs, ∃ f r,
      leafOffset c c.usesFwd fwd c.fwd (near + c.fwdIndent) = .ok f ∧
      leafOffset c c.usesRev rev c.rev (far + c.revIndent) = .ok r ∧ c.clength + f + r ≤ len'
  | [], len, len', h => by
    simp only [crossLength, Except.ok.injEq] at h
    simp; omega
  | c :: cs, len, len', h => by
    simp only [crossLength] at h
    obtain ⟨f, h1, h⟩ := ok_bind h
    obtain ⟨r, h2, h⟩ := ok_bind h
    obtain ⟨k1, k2⟩ := crossLength_ge h
    refine ⟨by omega, fun d hd => ?_⟩
    rcases List.mem_cons.1 hd with rfl | hd
    · exact ⟨f, r, h1, h2, by omega⟩
    · exact k2 d hd

theorem leafOffset_ge {c : Item} {uses : Bool} {guides cg : List Int} {off f : Int}
    (h : leafOffset c uses guides cg off = .ok f)
    (hg : uses = true → ∀ g gs, cg = g :: gs → HeadGe guides (g + off)) : off ≤ f := by
  unfold leafOffset at h
  split at h
  · rename_i hu
    simp only [Bool.and_eq_true] at hu
    cases cg with
    | nil => simp only [Except.ok.injEq] at h; omega
    | cons g gs =>
      obtain ⟨x, xs, e, hx⟩ := hg hu.2 g gs rfl
      subst e
      simp only [Except.ok.injEq] at h
      omega
  · simp only [Except.ok.injEq] at h; omega

theorem tdiv_two_bounds {a l u : Int} (h1 : 2 * l ≤ a) (h2 : a ≤ 2 * u) : l ≤ a.tdiv 2 ∧ a.tdiv 2 ≤ u := by
  rcases Int.le_total 0 a with h | h
  · rw [Int.tdiv_eq_ediv_of_nonneg h]; omega
  · obtain ⟨b, rfl⟩ : ∃ b, a = -b := ⟨-a, by omega⟩
    rw [Int.neg_tdiv, Int.tdiv_eq_ediv_of_nonneg (by omega)]; omega

/-- The bounds of a child across the direction of its container. -/
def Within (p c : Item) : Prop :=
  p.near + c.fwdIndent ≤ c.place.position ∧
    c.place.position + c.place.length ≤ p.place.length - p.far - c.revIndent

theorem layCrossOne_within {p c c' : Item} {len : Int} {rev : List Int} {fwd : List Int}
    (hf : p.fwd = fwd) (hr : p.rev = rev)
    (hgf : c.usesFwd = true → ∀ g gs, c.fwd = g :: gs → HeadGe fwd (g + (p.near + c.fwdIndent)))
    (hgr : c.usesRev = true → ∀ g gs, c.rev = g :: gs → HeadGe rev (g + (p.far + c.revIndent)))
    (hlen : ∃ f r, leafOffset c c.usesFwd fwd c.fwd (p.near + c.fwdIndent) = .ok f ∧
      leafOffset c c.usesRev rev c.rev (p.far + c.revIndent) = .ok r ∧ c.clength + f + r ≤ len)
    (hl : len ≤ p.place.length) (h1 : c.align ≠ .default) (h2 : c.align ≠ .reverseFill)
    (h : layCrossOne p c = .ok c') :
    SameButPlace c c' ∧ c.clength ≤ c'.place.length ∧ Within p c' ∧
      (c.align = .forwardFill → c'.place.position + c'.place.length = p.place.length - p.far) ∧
      (c.align ≠ .forwardFill → c'.place.length = c.clength) := by
  obtain ⟨f, r, e1, e2, hb⟩ := hlen
  have hf0 := leafOffset_ge e1 hgf
  have hr0 := leafOffset_ge e2 hgr
  subst hf hr
  unfold layCrossOne at h
  cases ha : c.align <;> rw [ha] at h <;> dsimp only at h
  · have hu : c.usesFwd = !c.suppress := by simp [Item.usesFwd, ha, Align.fwdSide]
    rw [← hu, e1] at h
    simp only [bind, Except.bind, if_neg (show ¬ Align.forward = .forwardFill by decide), Except.ok.injEq] at h
    subst h
    have i1 : c.revIndent = 0 := by simp [Item.revIndent, ha]
    refine ⟨⟨_, _, rfl⟩, by simp [Item.putAt], ?_, by simp, by simp [Item.putAt]⟩
    simp only [Within, Item.fwdIndent, Item.revIndent, Item.putAt, ha] at *
    omega
  · have hu : c.usesRev = !c.suppress := by simp [Item.usesRev, ha, Align.revSide]
    rw [← hu, e2] at h
    simp only [bind, Except.bind, if_neg (show ¬ Align.reverse = .reverseFill by decide), Except.ok.injEq] at h
    subst h
    refine ⟨⟨_, _, rfl⟩, by simp [Item.putAt], ?_, by simp, by simp [Item.putAt]⟩
    simp only [Within, Item.fwdIndent, Item.revIndent, Item.putAt, ha] at *
    omega
  · simp only [Except.ok.injEq] at h
    subst h
    refine ⟨⟨_, _, rfl⟩, by simp [Item.putAt], ?_, by simp, by simp [Item.putAt]⟩
    simp only [Within, Item.fwdIndent, Item.revIndent, Item.putAt, ha] at *
    have := tdiv_two_bounds (a := p.place.length - p.far - 0 + (p.near + 0) - c.clength) (l := p.near)
      (u := p.place.length - p.far - c.clength) (by omega) (by omega)
    omega
  · simp only [Except.ok.injEq] at h
    subst h
    refine ⟨⟨_, _, rfl⟩, by simp [Item.putAt], ?_, by simp, by simp [Item.putAt]⟩
    simp only [Within, Item.fwdIndent, Item.revIndent, Item.putAt, ha] at *
    have := tdiv_two_bounds (a := p.place.length - p.far - 0 + (p.near + 0) - c.clength) (l := p.near)
      (u := p.place.length - p.far - c.clength) (by omega) (by omega)
    omega
  · have hu : c.usesFwd = !c.suppress := by simp [Item.usesFwd, ha, Align.fwdSide]
    rw [← hu, e1] at h
    simp only [bind, Except.bind, if_true, Except.ok.injEq] at h
    subst h
    refine ⟨⟨_, _, rfl⟩, ?_, ?_, ?_, by simp⟩
    all_goals simp only [Within, Item.fwdIndent, Item.revIndent, Item.putAt, ha] at *
    all_goals omega
  · exact absurd ha h2
  · exact absurd ha h1

theorem layoutCross_cons {p c : Item} {cs cs' : List Item} (h : layoutCross p (c :: cs) = .ok cs') :
    ∃ d ds, layCrossOne p c = .ok d ∧ layoutCross p cs = .ok ds ∧ cs' = d :: ds := by
  simp only [layoutCross] at h
  obtain ⟨d, h1, h⟩ := ok_bind h
  obtain ⟨ds, h2, h⟩ := ok_bind h
  simp only [Except.ok.injEq] at h
  exact ⟨d, ds, h1, h2, h.symm⟩

theorem layoutCross_forall₂ {p : Item} : ∀ {cs cs' : List Item}, layoutCross p cs = .ok cs' →
    List.Forall₂ (fun c d => layCrossOne p c = .ok d) cs cs'
  | [], cs', h => by simp only [layoutCross, Except.ok.injEq] at h; subst h; exact .nil
  | c :: cs, cs', h => by
    obtain ⟨d, ds, h1, h2, rfl⟩ := layoutCross_cons h
    exact .cons h1 (layoutCross_forall₂ h2)

theorem layoutCross_within {p p0 : Item} {kids kids' : List Item} {len : Int}
    (hg : crossGuides p.near p.far kids p0.fwd p0.rev = .ok (p.fwd, p.rev))
    (hlen : crossLength p.near p.far p.fwd p.rev kids (p.near + p.far) = .ok len)
    (hm : p.mlength = len) (hl : p.mlength ≤ p.place.length)
    (hs : ∀ c ∈ kids, c.align ≠ .default ∧ c.align ≠ .reverseFill)
    (hlay : layoutCross p kids = .ok kids') :
    List.Forall₂ (fun c c' => SameButPlace c c' ∧ c.clength ≤ c'.place.length ∧ Within p c' ∧
      (c.align = .forwardFill → c'.place.position + c'.place.length = p.place.length - p.far) ∧
      (c.align ≠ .forwardFill → c'.place.length = c.clength)) kids kids' := by
  have h1 := layoutCross_forall₂ hlay
  have h2 := crossGuides_ge hg
  have h3 := (crossLength_ge hlen).2
  have : ∀ {xs ys : List Item}, List.Forall₂ (fun c d => layCrossOne p c = .ok d) xs ys → (∀ c ∈ xs, c ∈ kids) →
      List.Forall₂ (fun c c' => SameButPlace c c' ∧ c.clength ≤ c'.place.length ∧ Within p c' ∧
      (c.align = .forwardFill → c'.place.position + c'.place.length = p.place.length - p.far) ∧
      (c.align ≠ .forwardFill → c'.place.length = c.clength)) xs ys := by
    intro xs ys h hm'
    induction h with
    | nil => exact .nil
    | @cons c d cs ds h _ ih =>
      have hc := hm' c (by simp)
      refine .cons (layCrossOne_within rfl rfl (h2 c hc).1 (h2 c hc).2 (h3 c hc) (by omega) (hs c hc).1 (hs c hc).2 h)
        (ih (fun e he => hm' e (by simp [he])))
  exact this h1 (fun c hc => hc)

end Verif.Eve
