import Verif.Eve.Adj
/-! What is known of every container after a slice has been run. -/
namespace Verif.Eve

/-- `b` is `a`, placed elsewhere; the length is the same. -/
def Moved (a b : Item) : Prop :=
  ∃ q g, b = { a with place := { a.place with position := q, guides := g } }

/-- `b` is `a` with another outset. -/
def OutsetOnly (a b : Item) : Prop := ∃ o, b = { a with place := { a.place with outset := o } }

theorem OutsetOnly.refl (a : Item) : OutsetOnly a a := ⟨_, rfl⟩
theorem OutsetOnly.trans {a b c : Item} (h : OutsetOnly a b) (h' : OutsetOnly b c) : OutsetOnly a c := by
  obtain ⟨o, rfl⟩ := h
  obtain ⟨o', rfl⟩ := h'
  exact ⟨o', rfl⟩

theorem forall₂_trans {α : Type} {R S T : α → α → Prop} (h : ∀ a b c, R a b → S b c → T a c) :
    ∀ {xs ys zs : List α}, List.Forall₂ R xs ys → List.Forall₂ S ys zs → List.Forall₂ T xs zs
  | _, _, _, .nil, .nil => .nil
  | _, _, _, .cons h1 h2, .cons h3 h4 => .cons (h _ _ _ h1 h3) (forall₂_trans h h2 h4)

/-- Not changed by placing the view. -/
def PlaceStable (P : Item → List Item → Prop) : Prop := ∀ a ks a', P a ks → SameButPlace a a' → P a' ks

theorem UpOk_place (s : Slice) : PlaceStable (UpOk s) := by
  rintro a ks _ h ⟨l, q, rfl⟩ hl
  have h' := h hl
  split at h'
  · rename_i hw
    rw [if_pos (by exact hw)]
    obtain ⟨p0, hg, r⟩ := h'
    exact ⟨p0, ⟨hg.attr, hg.clength, hg.fwd, hg.rev⟩, r⟩
  · rename_i hw
    rw [if_neg (by exact hw)]
    obtain ⟨p0, hg, r⟩ := h'
    exact ⟨p0, ⟨hg.attr, hg.clength, hg.fwd, hg.rev⟩, r⟩

theorem Spaced_place {a : Item} {l q : Int} : ∀ {ks : List Item} {i : Nat}, Spaced a i ks → Spaced (a.putAt l q) i ks
  | [], _, _ => trivial
  | _ :: _, _, h => ⟨h.1, Spaced_place h.2⟩

theorem Adj_place (s : Slice) : PlaceStable (Adj s) := by
  rintro a ks _ h ⟨l, q, rfl⟩ hl
  obtain ⟨h1, h2⟩ := h hl
  refine ⟨h1, ?_⟩
  split at h2
  · rename_i hw
    rw [if_pos (by exact hw)]
    exact ⟨h2.1, h2.2.1, h2.2.2.1, Spaced_place h2.2.2.2.1, h2.2.2.2.2⟩
  · rename_i hw
    rw [if_neg (by exact hw)]; exact h2

/-- Solved: the first pass and the measure. -/
def Solved (s : Slice) (p : Item) (kids : List Item) : Prop := Adj s p kids ∧ UpOk s p kids

theorem spaced_nonneg {p : Item} (h : ∀ x ∈ p.spacing, 0 ≤ x) (hne : p.spacing ≠ []) : ∀ {ks : List Item} {i : Nat},
    Spaced p i ks → ∀ c ∈ ks, 0 ≤ c.space
  | [], _, _ => by simp
  | d :: ds, i, hs => by
    intro c hc
    rcases List.mem_cons.1 hc with rfl | hc
    · rw [hs.1]
      unfold spacingAt
      cases h1 : p.spacing[i]? with
      | some x => exact h x (List.mem_of_getElem? h1)
      | none =>
        simp only [Option.getD_none]
        rw [List.getLastD_eq_getLast?]
        cases h2 : p.spacing.getLast? with
        | none => simp
        | some y => exact h y (List.mem_of_getLast? h2)
    · exact spaced_nonneg h hne hs.2 c hc

theorem FwdSane_of {b : Bool} : ∀ {ks : List Item}, RowSane b ks →
    (∀ c ∈ ks, c.align ≠ .default ∧ 0 ≤ c.clength ∧ GuidesOk c) → FwdSane b ks
  | [], _, _ => trivial
  | c :: cs, hr, h => by
    have hc := h c (by simp)
    refine ⟨?_, hc.1, FwdSane_of hr.2 (fun d hd => h d (by simp [hd]))⟩
    rintro hnr ⟨hl, hs, hf⟩
    have hg := hc.2.2 hl
    refine (hr.1 ⟨hl, hs, ?_, ?_⟩).2
    · intro e
      have : c.align = .forward ∨ c.align = .forwardFill := by
        cases ha : c.align <;> simp_all [Align.isReverse]
      have := hg.1 this
      rw [e] at this
      simp at this; exact hf this
    · cases ha : c.align <;> simp_all [Align.isReverse]

theorem snapsRev_of {b : Bool} : ∀ {ks : List Item}, RowSane b ks →
    (∀ c ∈ ks, c.align ≠ .default ∧ 0 ≤ c.clength ∧ GuidesOk c) →
    ∀ c ∈ ks, c.align.isReverse = true → ¬ c.snapsRev
  | [], _, _ => by simp
  | d :: ds, hr, h => by
    intro c hc hrev
    rcases List.mem_cons.1 hc with rfl | hc
    · rintro ⟨hl, hs, hf⟩
      have hg := (h c (by simp)).2.2 hl
      have hd : c.align = .reverse ∨ c.align = .reverseFill := by
        cases ha : c.align <;> simp_all [Align.isReverse]
      have h1 := (hr.1 ⟨hl, hs, ?_, ?_⟩).1
      · rw [h1] at hrev; cases hrev
      · intro e
        have := hg.2.1 hd
        rw [e] at this
        simp at this; exact hf this
      · rcases hd with h | h <;> simp [h]
    · exact snapsRev_of hr.2 (fun d hd => h d (by simp [hd])) c hc hrev

/-- Children that have been placed in a container that is long enough. -/
def Placed (s : Slice) (p : Item) (kids : List Item) : Prop :=
  (∀ c ∈ kids, c.clength ≤ c.place.length) ∧
  if isWith s p.placement then Packed p.near (p.place.length - p.far) kids
  else ∀ c ∈ kids, Within p c ∧
      (c.align = .forwardFill → c.place.position + c.place.length = p.place.length - p.far) ∧
      (c.align ≠ .forwardFill → c.place.length = c.clength)

theorem mlength_le {s : Slice} {p : Item} {kids : List Item} (h : UpOk s p kids) (hl : p.leaf = false) :
    p.mlength ≤ p.clength := by
  have h' := h hl
  split at h'
  · obtain ⟨p0, hg, add, len, fwd, _, _, _, h1, h2⟩ := h'
    omega
  · obtain ⟨p0, hg, len, _, _, h1, h2⟩ := h'
    omega

theorem layoutBoth_placed {rnd : Int → Int → Int → Int} (hrnd : GoodRnd rnd) {s : Slice} {p : Item}
    {kids kids' : List Item} (hs : Solved s p kids) (hl : p.leaf = false) (hlen : p.clength ≤ p.place.length)
    (h : layoutBoth rnd s p kids = .ok kids') : List.Forall₂ SameButPlace kids kids' ∧ Placed s p kids' := by
  have hm := mlength_le hs.2 hl
  obtain ⟨h1, h2⟩ := hs.1 hl
  have h3 := hs.2 hl
  unfold layoutBoth at h
  unfold Placed
  split at h
  · rename_i hw
    rw [if_pos hw] at h2 h3 ⊢
    obtain ⟨p0, hg, add, len, fwd, k1, k2, k3, k4, k5⟩ := h3
    rw [h2.1, balanced_false] at k3
    obtain ⟨q1, q2, q3⟩ := layoutWith_pack hrnd k1 (k3 ▸ k2) k4 (by omega) h (FwdSane_of h2.2.2.2.2 h1)
      (snapsRev_of h2.2.2.2.2 h1)
      (fun c hc => ⟨spaced_nonneg h2.2.1 h2.2.2.1 h2.2.2.2.1 c hc, (h1 c hc).2.1⟩)
    exact ⟨q1, q2, q3⟩
  · rename_i hw
    rw [if_neg hw] at h2 h3 ⊢
    obtain ⟨p0, hg, len, k1, k2, k3, k4⟩ := h3
    have := layoutCross_within k1 k2 k3 (by omega) (fun c hc => ⟨(h1 c hc).1, h2 c hc⟩) h
    refine ⟨this.imp (fun _ _ h => h.1), ?_, ?_⟩
    · intro d hd
      obtain ⟨c, _, h⟩ := forall₂_mem this d hd
      obtain ⟨l, q, e⟩ := h.1
      have : d.clength = c.clength := by rw [e]; rfl
      rw [this]; exact h.2.1
    · intro d hd
      obtain ⟨c, _, h⟩ := forall₂_mem this d hd
      obtain ⟨l, q, e⟩ := h.1
      have e1 : d.clength = c.clength := by rw [e]; rfl
      have e2 : d.align = c.align := by rw [e]; rfl
      rw [e1, e2]; exact h.2.2

/-- After `layout`. -/
def LaidOut (rnd : Int → Int → Int → Int) (s : Slice) (E : Item → List Item → Prop) (p : Item) (kids : List Item) :
    Prop :=
  p.clength ≤ p.place.length ∧
    (p.leaf = false → Placed s p kids ∧ ∃ ks0, List.Forall₂ SameButPlace ks0 kids ∧
      Solved s p ks0 ∧ E p ks0 ∧ layoutBoth rnd s p ks0 = .ok kids)

theorem layoutStep_self {rnd : Int → Int → Int → Int} {s : Slice} {a a' : Item} {ks ks' : List Item} {b : Bool}
    (h : layoutStep rnd s a ks = .ok (a', ks', b)) : a' = a := by
  unfold layoutStep at h
  split at h
  · simp only [Except.ok.injEq, Prod.mk.injEq] at h; exact h.1.symm
  · obtain ⟨ks1, _, h2⟩ := ok_bind h
    simp only [Except.ok.injEq, Prod.mk.injEq] at h2; exact h2.1.symm

/-- A leaf has no children. -/
def LeafOk (p : Item) (kids : List Item) : Prop := p.leaf = true → kids = []

theorem layout_ok {rnd : Int → Int → Int → Int} (hrnd : GoodRnd rnd) {s : Slice} {E : Item → List Item → Prop}
    (hE : PlaceStable E) {length : Int} {t t' : Tree Item}
    (h : layout rnd s length t = .ok t') (hp : t.Forall (fun a ks => Solved s a ks ∧ LeafOk a ks ∧ E a ks))
    (hl : length = 0 ∨ t.root.clength ≤ length) :
    (t.visible = true → t'.root = t.root.putAt (if length ≠ 0 then length else t.root.clength) t.root.place.position) ∧
    t'.visible = t.visible ∧ t'.Forall (fun a ks => LaidOut rnd s E a ks ∧ LeafOk a ks) := by
  unfold layout at h
  obtain ⟨⟨u, b⟩, h1, h2⟩ := ok_bind h
  simp only [Except.ok.injEq] at h2
  subst h2
  have hv : u.visible = t.visible := (Tree.pre_visible h1).trans rfl
  cases t with
  | node v a ks =>
  have hp' : (Tree.setRoot (.node v a ks) (a.putAt (if length ≠ 0 then length else a.clength) a.place.position)).Forall
      (fun a ks => Solved s a ks ∧ LeafOk a ks ∧ E a ks) := by
    cases v with
    | false => simp [Tree.setRoot, Tree.visible, Tree.Forall]
    | true =>
      simp only [Tree.setRoot, Tree.visible, Tree.kids]
      rw [Tree.Forall_node] at hp ⊢
      refine ⟨⟨⟨?_, ?_⟩, hp.1.2.1, ?_⟩, hp.2⟩
      · exact Adj_place s _ _ _ hp.1.1.1 ⟨_, _, rfl⟩
      · exact UpOk_place s _ _ _ hp.1.1.2 ⟨_, _, rfl⟩
      · exact hE _ _ _ hp.1.2.2 ⟨_, _, rfl⟩
  have key := Tree.pre_kids (f := layoutStep rnd s) (σ := id) (R := SameButPlace)
    (Q := fun a => a.clength ≤ a.place.length) (P := fun a ks => Solved s a ks ∧ LeafOk a ks ∧ E a ks)
    (P' := fun a ks => LaidOut rnd s E a ks ∧ LeafOk a ks)
    (fun a ks a' ks' b e => layoutStep_self e) ?_ ?_ h1 hp' ?_
  · refine ⟨fun hv => key.1 (by exact hv), hv, key.2⟩
  · rintro a ks a' ⟨⟨k1, k2⟩, k3, k4⟩ hs
    refine ⟨⟨Adj_place s _ _ _ k1 hs, UpOk_place s _ _ _ k2 hs⟩, ?_, hE _ _ _ k4 hs⟩
    obtain ⟨l, q, rfl⟩ := hs
    exact k3
  · rintro a ks ks' b hq ⟨hs, hlf, hE'⟩ e
    simp only [id_eq, List.map_id_fun] at e ⊢
    unfold layoutStep at e
    split at e
    · rename_i hleaf
      simp only [Except.ok.injEq, Prod.mk.injEq] at e
      have hk := hlf hleaf
      rw [← e.2.1, hk]
      exact ⟨⟨⟨hq, fun h => by rw [h] at hleaf; cases hleaf⟩, fun _ => rfl⟩, by simp, .nil⟩
    · rename_i hleaf
      have hleaf' : a.leaf = false := by simpa using hleaf
      obtain ⟨ks1, e1, e2⟩ := ok_bind e
      simp only [Except.ok.injEq, Prod.mk.injEq] at e2
      obtain ⟨_, rfl, _⟩ := e2
      obtain ⟨q1, q2⟩ := layoutBoth_placed hrnd hs hleaf' hq e1
      exact ⟨⟨⟨hq, fun _ => ⟨q2, ks, q1, hs, hE', e1⟩⟩, fun h => absurd h hleaf⟩, q2.1, q1⟩
  · intro _
    simp only [Tree.setRoot, Tree.root]
    rcases hl with hl | hl
    · rw [if_neg (by simpa using hl)]; exact Int.le_refl _
    · simp only [Tree.root] at hl
      split
      · exact hl
      · exact Int.le_refl _

/-- After the outsets. -/
def Outset (s : Slice) (L : Item → List Item → Prop) (p : Item) (kids : List Item) : Prop :=
  (∃ p1 ks1, OutsetOnly p1 p ∧ List.Forall₂ OutsetOnly ks1 kids ∧ L p1 ks1) ∧
    ∃ p0, OutsetOnly p0 p ∧ outsetsStep s p0 kids = .ok (p, kids)

theorem outsetsStep_ok {s : Slice} {a a' : Item} {ks ks' : List Item} (h : outsetsStep s a ks = .ok (a', ks')) :
    ks' = ks ∧ OutsetOnly a a' := by
  unfold outsetsStep at h
  simp only [Except.ok.injEq, Prod.mk.injEq] at h
  refine ⟨h.2.symm, ?_⟩
  rw [← h.1]
  split
  · unfold outsetsWith; split <;> exact ⟨_, rfl⟩
  · unfold outsetsCross; split <;> exact ⟨_, rfl⟩

theorem outsets_ok {s : Slice} {L : Item → List Item → Prop} {t t' : Tree Item}
    (h : t.post (outsetsStep s) = .ok t') (hp : t.Forall L) :
    (t.visible = true → OutsetOnly t.root t'.root) ∧ t'.visible = t.visible ∧ t'.Forall (Outset s L) := by
  obtain ⟨h1, h2⟩ := Tree.post_self (f := outsetsStep s) (fun a ks a' ks' e => (outsetsStep_ok e).1) (R := OutsetOnly)
    (fun a ks a' ks' e => (outsetsStep_ok e).2)
    (P := fun p kids => ∃ p1 ks1, OutsetOnly p1 p ∧ List.Forall₂ OutsetOnly ks1 kids ∧ L p1 ks1)
    (by
      rintro a ks a' ks' ⟨p1, ks1, k1, k2, k3⟩ hr hrs
      exact ⟨p1, ks1, k1.trans hr, forall₂_trans (R := OutsetOnly) (S := OutsetOnly) (T := OutsetOnly) (fun _ _ _ h h' => OutsetOnly.trans h h') k2 hrs, k3⟩) h
    (hp.imp (fun a ks h => ⟨a, ks, OutsetOnly.refl a, forall₂_refl OutsetOnly.refl ks, h⟩))
  refine ⟨h1, Tree.post_visible h, h2.imp ?_⟩
  rintro a ks ⟨h1, a0, h2, h3⟩
  exact ⟨h1, a0, h2, h3⟩

/-- A view after `flatten` has run on its container (whose origin is `d`) and on itself. -/
def Shifted (d : Int) (a b : Item) : Prop :=
  b = pushGuides { a with place := { a.place with position := a.place.position + d } }

/-- After `flatten`. -/
def Final (o : Options) (L : Item → List Item → Prop) (p : Item) (kids : List Item) : Prop :=
  ∃ p1 q ks1, L p1 ks1 ∧ p = pushGuides { p1 with place := { p1.place with position := q } } ∧
    List.Forall₂ (Shifted (origin o p)) ks1 kids

theorem pushGuides_eq (p : Item) : ∃ g, pushGuides p = { p with place := { p.place with guides := g } } := by
  unfold pushGuides
  split <;> exact ⟨_, rfl⟩

theorem flatten_ok {o : Options} {L : Item → List Item → Prop} {t t' : Tree Item} {b : Bool}
    (h : t.pre (flattenStep o) = .ok (t', b)) (hp : t.Forall L) :
    (t.visible = true → t'.root = pushGuides t.root) ∧ t'.Forall (Final o L) := by
  refine Tree.pre_kids (f := flattenStep o) (σ := pushGuides)
    (R := fun a b => ∃ q, b = { a with place := { a.place with position := q } }) (Q := fun _ => True)
    (P := fun p ks => ∃ p1 q, L p1 ks ∧ p = { p1 with place := { p1.place with position := q } })
    (P' := Final o L) ?_ ?_ ?_ h (hp.imp (fun a ks h => ⟨a, a.place.position, h, rfl⟩)) (fun _ => trivial)
  · intro a ks a' ks' b e
    unfold flattenStep at e
    split at e <;> (simp only [Except.ok.injEq, Prod.mk.injEq] at e; exact e.1.symm)
  · rintro a ks a' ⟨p1, q, h1, rfl⟩ ⟨q', rfl⟩
    exact ⟨p1, q', h1, rfl⟩
  · rintro a ks ks' b - ⟨p1, q, h1, h2⟩ e
    obtain ⟨g, hg⟩ := pushGuides_eq a
    have ho : origin o (pushGuides a) = origin o a := by rw [hg]; rfl
    unfold flattenStep at e
    split at e
    · rename_i hc
      simp only [Except.ok.injEq, Prod.mk.injEq] at e
      obtain ⟨_, rfl, _⟩ := e
      refine ⟨⟨p1, q, ks, h1, by rw [h2], ?_⟩, by simp, forall₂_refl (fun a => ⟨_, rfl⟩) _⟩
      rw [ho]
      have : origin o a = 0 := by unfold origin; rw [if_pos hc]
      rw [this, List.forall₂_map_right_iff]
      refine forall₂_refl (fun c => ?_) _
      simp [Shifted]
    · rename_i hc
      simp only [Except.ok.injEq, Prod.mk.injEq] at e
      obtain ⟨_, rfl, _⟩ := e
      refine ⟨⟨p1, q, ks, h1, by rw [h2], ?_⟩, by simp, ?_⟩
      · rw [ho]
        have : origin o a = a.place.position := by unfold origin; rw [if_neg hc]
        rw [this, List.forall₂_map_right_iff, List.forall₂_map_right_iff]
        refine List.forall₂_same.2 (fun c _ => ?_)
        rfl
      · rw [List.forall₂_map_right_iff]
        exact forall₂_refl (fun a => ⟨_, rfl⟩) _

/-- The results of the passes of a slice. -/
structure Passes (rnd : Int → Int → Int → Int) (s : Slice) (o : Options) (length : Int) (t t' : Tree Item) where
  ta : Tree Item
  ts : Tree Item
  settled : Bool
  tl : Tree Item
  tu : Tree Item
  b : Bool
  adjusted : t.post (adjustStep s) = .ok ta
  solved : solve s ta = .ok (ts, settled)
  laid : layout rnd s length ts = .ok tl
  outset : tl.post (outsetsStep s) = .ok tu
  flat : tu.pre (flattenStep o) = .ok (t', b)

theorem passes {rnd : Int → Int → Int → Int} {s : Slice} {o : Options} {length : Int} {t t' : Tree Item}
    (h : runSlice rnd s o length t = .ok t') : Nonempty (Passes rnd s o length t t') := by
  unfold runSlice at h
  obtain ⟨ta, h1, h⟩ := ok_bind h
  obtain ⟨⟨ts, st⟩, h2, h⟩ := ok_bind h
  obtain ⟨tl, h3, h⟩ := ok_bind h
  obtain ⟨tu, h4, h⟩ := ok_bind h
  obtain ⟨⟨tf, b⟩, h5, h⟩ := ok_bind h
  simp only [Except.ok.injEq] at h
  subst h
  exact ⟨⟨ta, ts, st, tl, tu, b, h1, h2, h3, h4, h5⟩⟩

theorem LeafOk_stable : GrowStable LeafOk := by
  intro a ks a' ks' h hg hk hl
  rw [← attr_leaf hg.attr] at hl
  have := h hl
  subst this
  cases hk
  rfl

theorem adjust_leafOk {s : Slice} {t t' : Tree Item} (h : t.post (adjustStep s) = .ok t') (hp : t.Forall LeafOk) :
    t'.Forall LeafOk := by
  refine (Tree.post_gen (T := OwnAdj) (S := ByParent) (P0 := LeafOk) (fun a ks a' ks' e => (adjustStep_ok e).1)
    ?_ ?_ ?_ h hp).2
  · intro a ks ks' h1 h2 hl
    have := h1 hl
    subst this; cases h2; rfl
  · intro a ks a' ks' h1 e
    obtain ⟨ho, he⟩ := adjustStep_ok e
    rcases he with ⟨hl, rfl⟩ | ⟨hl, hr, hw⟩
    · exact ⟨fun _ => h1 hl, forall₂_refl (fun a => ⟨_, _, _, _, _, rfl, fun _ => ⟨rfl, rfl⟩⟩) _⟩
    · refine ⟨fun h => ?_, hr.imp (fun _ _ h => h.1)⟩
      rw [← attr_leaf ho.attr, hl] at h; cases h
  · rintro a _ ks h1 ⟨al, su, sp, f, r, rfl, _⟩ hl
    exact h1 hl

/-- What is known of every container after a slice has been run; `E` is anything known after solving. -/
theorem run_final {rnd : Int → Int → Int → Int} (hrnd : GoodRnd rnd) {s : Slice} {o : Options} {length : Int}
    {t t' : Tree Item} (ps : Passes rnd s o length t t')
    (hp : t.Forall (fun p ks => (p.leaf = false → Sane s p ks) ∧ LeafOk p ks))
    (hl : length = 0 ∨ ps.ts.root.clength ≤ length) {E : Item → List Item → Prop} (hE : PlaceStable E)
    (he : ps.ts.Forall E) :
    t'.Forall (Final o (Outset s (fun p ks => LaidOut rnd s E p ks ∧ LeafOk p ks))) := by
  obtain ⟨_, h1⟩ := adjust_ok ps.adjusted (hp.imp (fun _ _ h => h.1))
  have h1' := adjust_leafOk ps.adjusted (hp.imp (fun _ _ h => h.2))
  obtain ⟨_, _, h2⟩ := solve_ok (Adj_stable s) ps.solved h1
  obtain ⟨_, _, h2'⟩ := solve_ok LeafOk_stable ps.solved h1'
  obtain ⟨_, _, h3⟩ := layout_ok hrnd hE ps.laid
    ((h2.and (h2'.and he)).imp (fun a ks h => ⟨h.1, h.2.1.1, h.2.2⟩)) hl
  obtain ⟨_, _, h4⟩ := outsets_ok ps.outset h3
  exact (flatten_ok ps.flat h4).2

theorem inOrder_of_packed {p : Item} {d : Int} : ∀ {ks1 ks : List Item} {i : Nat} {lo hi : Int},
    List.Forall₂ (fun a b : Item => b.place.position = a.place.position + d ∧ b.place.length = a.place.length) ks1 ks →
    Spaced p i ks1 → Packed lo hi ks1 → InOrder p i (lo + d) (hi + d) ks
  | _, _, _, _, _, .nil, _, h => by simp only [Packed, InOrder] at *; omega
  | _, _, i, _, _, .cons h hs, hsp, hpk => by
    simp only [Packed, Spaced, InOrder] at *
    refine ⟨by omega, ?_⟩
    have := inOrder_of_packed hs hsp.2 hpk.2
    rw [h.1, h.2, show ∀ a b c : Int, a + b + c = a + c + b by intros; omega]
    exact this

/-- The parts of `Final` in one place: the container as it was laid out, and its children. -/
theorem final_unfold {rnd : Int → Int → Int → Int} {s : Slice} {o : Options} {E : Item → List Item → Prop} {p : Item}
    {kids : List Item} (h : Final o (Outset s (fun p ks => LaidOut rnd s E p ks ∧ LeafOk p ks)) p kids) :
    ∃ p1 ks0 ks1, p1.attr = p.attr ∧ p1.place.length = p.place.length ∧ p1.clength = p.clength ∧ p1.fwd = p.fwd ∧ p1.rev = p.rev ∧
      p1.mlength = p.mlength ∧
      p.clength ≤ p.place.length ∧ LeafOk p kids ∧
      List.Forall₂ (fun a b : Item => b.attr = a.attr ∧ b.place.position = a.place.position + origin o p ∧
        b.place.length = a.place.length ∧ b.clength = a.clength ∧ b.fwd = a.fwd ∧ b.rev = a.rev) ks1 kids ∧
      (p.leaf = false → Placed s p1 ks1 ∧ List.Forall₂ SameButPlace ks0 ks1 ∧ Solved s p1 ks0 ∧ E p1 ks0 ∧
        layoutBoth rnd s p1 ks0 = .ok ks1) := by
  obtain ⟨p2, q, ks2, ⟨⟨p1, ks1, k1, k2, k3, k4⟩, _⟩, h2, h3⟩ := h
  obtain ⟨o1, rfl⟩ := k1
  obtain ⟨g, hg⟩ := pushGuides_eq { { p1 with place := { p1.place with outset := o1 } } with
    place := { { p1.place with outset := o1 } with position := q } }
  rw [hg] at h2
  have hrel : List.Forall₂ (fun a b : Item => b.attr = a.attr ∧ b.place.position = a.place.position + origin o p ∧
        b.place.length = a.place.length ∧ b.clength = a.clength ∧ b.fwd = a.fwd ∧ b.rev = a.rev) ks1 kids := by
    refine forall₂_trans ?_ k2 h3
    rintro a _ c ⟨o2, rfl⟩ hs
    unfold Shifted at hs
    obtain ⟨g', hg'⟩ := pushGuides_eq { { a with place := { a.place with outset := o2 } } with
      place := { { a.place with outset := o2 } with position := a.place.position + origin o p } }
    rw [hs]
    simp only at hg' ⊢
    rw [hg']
    exact ⟨rfl, rfl, rfl, rfl, rfl, rfl⟩
  have hlf : LeafOk p kids := by
    intro hl
    have : p1.leaf = true := by rw [h2] at hl; exact hl
    have := k4 this
    subst this
    cases hrel; rfl
  have ha : p1.attr = p.attr := by rw [h2]; rfl
  by_cases hl : p.leaf = false
  · obtain ⟨j1, ks0, j2, j3, j4, j5⟩ := k3.2 (by rw [attr_leaf ha]; exact hl)
    exact ⟨p1, ks0, ks1, ha, by rw [h2], by rw [h2], by rw [h2], by rw [h2], by rw [h2], by rw [h2]; exact k3.1, hlf, hrel,
      fun _ => ⟨j1, j2, j3, j4, j5⟩⟩
  · exact ⟨p1, [], ks1, ha, by rw [h2], by rw [h2], by rw [h2], by rw [h2], by rw [h2], by rw [h2]; exact k3.1, hlf, hrel,
      fun h => absurd h hl⟩

theorem contained_of_final {rnd : Int → Int → Int → Int} {s : Slice} {o : Options} {E : Item → List Item → Prop} {p : Item}
    {kids : List Item} (h : Final o (Outset s (fun p ks => LaidOut rnd s E p ks ∧ LeafOk p ks)) p kids)
    (hlp : p.leaf = false) :
    Contained s o p kids ∧ p.clength ≤ p.place.length := by
  obtain ⟨p1, ks0, ks1, ha, hpl, hcl, _, _, _, hc, hlf, hrel, hnl⟩ := final_unfold h
  obtain ⟨j1, j2, j3, _, _⟩ := hnl hlp
  refine ⟨?_, hc⟩
  have hn := attr_near ha
  have hf := attr_far ha
  have hadj := (j3.1 (by rw [attr_leaf ha]; exact hlp)).2
  have hpl2 := j1.2
  unfold Contained
  rw [attr_placement ha] at hadj hpl2
  split at hpl2
  · rename_i hw
    rw [if_pos hw] at hadj ⊢
    have hsp : Spaced p 0 ks1 := by
      have : ∀ {xs ys : List Item} {i : Nat}, List.Forall₂ SameButPlace xs ys → Spaced p1 i xs → Spaced p i ys := by
        intro xs ys i hxy
        induction hxy generalizing i with
        | nil => intro _; trivial
        | cons hcd _ ih =>
          obtain ⟨l, q, rfl⟩ := hcd
          simp only [Spaced, spacingAt, attr_spacing ha]
          exact fun h => ⟨h.1, ih h.2⟩
      exact this j2 hadj.2.2.2.1
    have := inOrder_of_packed (d := origin o p) (hrel.imp (fun a b h => ⟨h.2.1, h.2.2.1⟩)) hsp hpl2
    rw [hn, hf, hpl] at this
    unfold Item.near Item.far at this
    rw [show origin o p + p.ext.frame.1 + p.margin.1 = p.ext.frame.1 + p.margin.1 + origin o p by omega,
      show origin o p + p.place.length - p.ext.frame.2 - p.margin.2
        = p.place.length - (p.ext.frame.2 + p.margin.2) + origin o p by omega]
    exact this
  · rename_i hw
    rw [if_neg hw]
    intro c hc
    obtain ⟨d, hd, e⟩ := forall₂_mem hrel c hc
    have := (hpl2 d hd).1
    unfold Within at this
    rw [hn, hf, hpl] at this
    unfold Item.near Item.far at this
    have e1 : (if c.align = .forward ∨ c.align = .forwardFill then c.indent else 0) = d.fwdIndent := by
      rw [attr_align e.1, attr_indent e.1]
      unfold Item.fwdIndent
      cases d.align <;> simp
    have e2 : (if c.align = .reverse ∨ c.align = .reverseFill then c.indent else 0) = d.revIndent := by
      rw [attr_align e.1, attr_indent e.1]
      unfold Item.revIndent
      cases d.align <;> simp
    rw [e1, e2, e.2.1, e.2.2.1]
    omega

end Verif.Eve
