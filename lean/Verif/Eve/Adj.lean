import Verif.Eve.Keep
/-! The first pass: alignments, spacing and the guides of leaves. -/
namespace Verif.Eve

theorem forall₂_mem {α β : Type} {R : α → β → Prop} {xs : List α} {ys : List β} (h : List.Forall₂ R xs ys) :
    ∀ d ∈ ys, ∃ c ∈ xs, R c d := by
  induction h with
  | nil => simp
  | cons hcd _ ih =>
    intro d hd
    rcases List.mem_cons.1 hd with rfl | hd
    · exact ⟨_, by simp, hcd⟩
    · obtain ⟨c, hc, h⟩ := ih d hd
      exact ⟨c, by simp [hc], h⟩

/-- What the turn of a view changes in it. -/
structure OwnAdj (a b : Item) : Prop where
  attr : a.attr = b.attr
  clength : a.clength = b.clength
  leaf : a.leaf = true → b = a

/-- What the turn of its container changes in a view. -/
def ByParent (a b : Item) : Prop :=
  ∃ al su sp f r, b = { a with align := al, suppress := su, space := sp, fwd := f, rev := r } ∧
    (a.leaf = false → f = a.fwd ∧ r = a.rev)

/-- Child number `i` has the spacing of that number. -/
def Spaced (p : Item) : Nat → List Item → Prop
  | _, [] => True
  | i, c :: cs => c.space = spacingAt p i ∧ Spaced p (i + 1) cs

/-- A leaf that is aligned by its guides has as many of them as were measured. -/
def GuidesOk (c : Item) : Prop :=
  c.leaf = true →
    ((c.align = .forward ∨ c.align = .forwardFill) → c.fwd.length = c.ext.guides.length) ∧
    ((c.align = .reverse ∨ c.align = .reverseFill) → c.rev.length = c.ext.guides.length) ∧
    ((c.align = .center ∨ c.align = .proportional) → c.suppress = true)

/-- A container after the first pass. -/
def Adj (s : Slice) (p : Item) (kids : List Item) : Prop :=
  p.leaf = false →
  (∀ c ∈ kids, c.align ≠ .default ∧ 0 ≤ c.clength ∧ GuidesOk c) ∧
  if isWith s p.placement then
    p.balance = false ∧ (∀ x ∈ p.spacing, 0 ≤ x) ∧ p.spacing ≠ [] ∧ Spaced p 0 kids ∧ RowSane false kids
  else ∀ c ∈ kids, c.align ≠ .reverseFill

theorem setSpaces_spaced {p : Item} {last : Int} (hl : p.spacing.getLastD 0 = last) :
    ∀ (kids : List Item) (i : Nat), Spaced p i ((setSpaces (p.spacing.drop i) last kids).map mark)
  | [], i => by simp [setSpaces, Spaced]
  | c :: cs, i => by
    have hm : ∀ d : Item, (mark d).space = d.space := fun d => by unfold mark; split <;> rfl
    cases h : p.spacing.drop i with
    | nil =>
      have hlen : p.spacing.length ≤ i := by
        have := congrArg List.length h
        simp at this; omega
      have ih := setSpaces_spaced hl cs (i + 1)
      rw [List.drop_of_length_le (by omega)] at ih
      simp only [setSpaces, List.map_cons, Spaced, hm]
      refine ⟨?_, ih⟩
      unfold spacingAt
      rw [List.getElem?_eq_none hlen, hl]; rfl
    | cons x xs =>
      have h1 : p.spacing[i]? = some x := by
        have := congrArg List.head? h
        simpa [List.head?_drop] using this
      have h2 : p.spacing.drop (i + 1) = xs := by
        have := congrArg List.tail h
        simpa [List.tail_drop] using this
      have ih := setSpaces_spaced hl cs (i + 1)
      rw [h2] at ih
      simp only [setSpaces, List.map_cons, Spaced, hm]
      refine ⟨?_, ih⟩
      unfold spacingAt
      rw [h1]; rfl

/-- One child before and after the turn of its container. -/
def Resolved (p c d : Item) : Prop :=
  ByParent c d ∧ d.align = (inherit p c).align ∧ GuidesOk d ∧ (d.guided ↔ (inherit p c).guided)

theorem resolved_one (p c : Item) (sp : Int) :
    Resolved p c (mark { leafGuides (resolve p c) with space := sp }) ∧
    Resolved p c (mark (leafGuides (resolve p c))) := by
  have key : ∀ d : Item, ByParent c d → d.align = (inherit p c).align → d.suppress = c.suppress →
      (d.leaf = true → ((d.align = .forward ∨ d.align = .forwardFill) → d.fwd.length = d.ext.guides.length) ∧
      ((d.align = .reverse ∨ d.align = .reverseFill) → d.rev.length = d.ext.guides.length)) →
      Resolved p c (mark d) := by
    intro d hb ha hs hg
    obtain ⟨al, su, sp, f, r, e, hl⟩ := hb
    have hleaf : d.leaf = c.leaf := by rw [e]; rfl
    have hext : d.ext = c.ext := by rw [e]
    unfold mark
    split
    · rename_i hside
      refine ⟨⟨al, su, sp, f, r, e, hl⟩, ha, ?_, ?_⟩
      · intro h
        refine ⟨(hg h).1, (hg h).2, ?_⟩
        intro h'
        exfalso
        rcases h' with h' | h' <;> rw [h'] at hside <;> simp [Align.fwdSide, Align.revSide] at hside
      · unfold Item.guided
        rw [hleaf, hext, ha, hs]; rfl
    · rename_i hside
      refine ⟨⟨al, true, sp, f, r, by rw [e], hl⟩, ha, ?_, ?_⟩
      · intro h
        refine ⟨?_, ?_, fun _ => rfl⟩
        · intro h'
          exfalso
          rcases h' with h' | h' <;> simp only [] at h' <;> rw [h'] at hside <;>
            simp [Align.fwdSide, Align.revSide] at hside
        · intro h'
          exfalso
          rcases h' with h' | h' <;> simp only [] at h' <;> rw [h'] at hside <;>
            simp [Align.fwdSide, Align.revSide] at hside
      · unfold Item.guided
        constructor
        · intro h; exact absurd h.2.1 (by simp)
        · intro h
          exfalso
          have := h.2.2.2
          rw [← ha] at this
          rcases this with h | h | h | h <;> rw [h] at hside <;> simp [Align.fwdSide, Align.revSide] at hside
  have h0 : ∀ sp, ByParent c { leafGuides (resolve p c) with space := sp } ∧
      (leafGuides (resolve p c)).align = (inherit p c).align ∧
      (leafGuides (resolve p c)).suppress = c.suppress ∧
      ((leafGuides (resolve p c)).leaf = true →
        (((leafGuides (resolve p c)).align = .forward ∨ (leafGuides (resolve p c)).align = .forwardFill) →
          (leafGuides (resolve p c)).fwd.length = (leafGuides (resolve p c)).ext.guides.length) ∧
      (((leafGuides (resolve p c)).align = .reverse ∨ (leafGuides (resolve p c)).align = .reverseFill) →
          (leafGuides (resolve p c)).rev.length = (leafGuides (resolve p c)).ext.guides.length)) := by
    intro sp
    have hr : resolve p c = { c with align := (inherit p c).align } := by
      unfold resolve inherit; split <;> rfl
    rw [hr]
    generalize (inherit p c).align = al
    unfold leafGuides
    split
    · rename_i hl
      have hl' : c.leaf = true := hl
      split
      all_goals first
        | (rename_i h; refine ⟨⟨al, c.suppress, sp, _, _, rfl, fun h => by rw [hl'] at h; cases h⟩, rfl, rfl, ?_⟩
           intro _; simp only [] at h; subst h; simp)
        | (rename_i h1 h2 h3 h4; refine ⟨⟨al, c.suppress, sp, _, _, rfl, fun h => ⟨rfl, rfl⟩⟩, rfl, rfl, ?_⟩
           intro _
           exact ⟨fun h => by rcases h with h | h; exact absurd h h1; exact absurd h h2,
             fun h => by rcases h with h | h; exact absurd h h3; exact absurd h h4⟩)
    · rename_i hl
      refine ⟨⟨al, c.suppress, sp, c.fwd, c.rev, rfl, fun _ => ⟨rfl, rfl⟩⟩, rfl, rfl, ?_⟩
      intro h; exact absurd h hl
  constructor
  · exact key _ (h0 sp).1 (h0 sp).2.1 (h0 sp).2.2.1 (h0 sp).2.2.2
  · exact key _ (h0 (leafGuides (resolve p c)).space).1 (h0 0).2.1 (h0 0).2.2.1 (h0 0).2.2.2

theorem setSpaces_resolved {p : Item} : ∀ (kids : List Item) (ss : List Int) (last : Int),
    List.Forall₂ (Resolved p) kids
      ((setSpaces ss last (kids.map (fun c => leafGuides (resolve p c)))).map mark)
  | [], ss, last => by cases ss <;> simp [setSpaces]
  | c :: cs, [], last => by
    simp only [List.map_cons, setSpaces]
    exact .cons (resolved_one p c last).1 (setSpaces_resolved cs [] last)
  | c :: cs, x :: xs, last => by
    simp only [List.map_cons, setSpaces]
    exact .cons (resolved_one p c x).1 (setSpaces_resolved cs xs last)

theorem map_resolved {p : Item} : ∀ (kids : List Item),
    List.Forall₂ (Resolved p) kids ((kids.map (fun c => leafGuides (resolve p c))).map mark)
  | [] => by simp
  | c :: cs => by
    simp only [List.map_cons]
    exact .cons (resolved_one p c 0).2 (map_resolved cs)

theorem RowSane_resolved {p : Item} : ∀ {kids kids' : List Item} {b : Bool},
    List.Forall₂ (Resolved p) kids kids' → RowSane b (kids.map (inherit p)) → RowSane b kids'
  | [], _, _, .nil, _ => by simp [RowSane]
  | c :: cs, _, b, .cons (b := d) (l₂ := ds) h hs, hr => by
    simp only [List.map_cons, RowSane] at hr ⊢
    rw [h.2.1]
    refine ⟨fun hg => hr.1 (h.2.2.2.1 hg), RowSane_resolved hs hr.2⟩

theorem adjustStep_ok {s : Slice} {p p' : Item} {kids kids' : List Item}
    (h : adjustStep s p kids = .ok (p', kids')) :
    OwnAdj p p' ∧
    ((p.leaf = true ∧ kids' = kids) ∨
     (p.leaf = false ∧ List.Forall₂ (Resolved p) kids kids' ∧
      (isWith s p.placement = true → p.spacing ≠ [] ∧ Spaced p 0 kids'))) := by
  unfold adjustStep at h
  split at h
  · rename_i hl
    simp only [Except.ok.injEq, Prod.mk.injEq] at h
    obtain ⟨rfl, rfl⟩ := h
    exact ⟨⟨rfl, rfl, fun _ => rfl⟩, Or.inl ⟨hl, rfl⟩⟩
  · rename_i hl
    have hl' : p.leaf = false := by simpa using hl
    split at h
    · unfold adjustWith at h
      cases hs : p.spacing.getLast? with
      | none => rw [hs] at h; simp at h
      | some last =>
        rw [hs] at h
        simp only [Except.ok.injEq, Prod.mk.injEq] at h
        obtain ⟨rfl, rfl⟩ := h
        refine ⟨⟨rfl, rfl, fun h => absurd h hl⟩, Or.inr ⟨hl', setSpaces_resolved _ _ _, fun _ => ⟨?_, ?_⟩⟩⟩
        · rintro e; rw [e] at hs; simp at hs
        · have := setSpaces_spaced (p := p) (last := last)
            (by rw [List.getLastD_eq_getLast?, hs]; rfl) (kids.map (fun c => leafGuides (resolve p c))) 0
          simpa using this
    · rename_i hw
      simp only [adjustCross, Except.ok.injEq, Prod.mk.injEq] at h
      obtain ⟨rfl, rfl⟩ := h
      exact ⟨⟨rfl, rfl, fun h => absurd h hl⟩, Or.inr ⟨hl', map_resolved _, fun h => absurd h hw⟩⟩

theorem Spaced_congr {p p' : Item} (h : p.spacing = p'.spacing) : ∀ {kids : List Item} {i : Nat},
    Spaced p i kids → Spaced p' i kids
  | [], _, _ => trivial
  | c :: cs, i, hs => by
    simp only [Spaced, spacingAt] at hs ⊢
    rw [← h]; exact ⟨hs.1, Spaced_congr h hs.2⟩

theorem adjust_ok {s : Slice} {t t' : Tree Item} (h : t.post (adjustStep s) = .ok t')
    (hp : t.Forall (fun p ks => p.leaf = false → Sane s p ks)) :
    (t.visible = true → OwnAdj t.root t'.root) ∧ t'.Forall (Adj s) := by
  refine Tree.post_gen (T := OwnAdj) (S := ByParent) (fun a ks a' ks' e => (adjustStep_ok e).1) ?_ ?_ ?_ h hp
  · -- the turn of the children
    intro a ks ks' hs hk hl
    obtain ⟨h1, h2⟩ := hs hl
    have hin : ∀ {c d : Item}, OwnAdj c d → (inherit a d).align = (inherit a c).align ∧
        ((inherit a d).guided ↔ (inherit a c).guided) := by
      intro c d hcd
      have e := attr_align hcd.attr
      have e1 : (inherit a d).align = (inherit a c).align := by simp only [inherit]; rw [e]
      refine ⟨e1, ?_⟩
      unfold Item.guided
      rw [e1]
      have e2 : (inherit a d).leaf = (inherit a c).leaf := (attr_leaf hcd.attr).symm
      have e3 : (inherit a d).suppress = (inherit a c).suppress := (attr_suppress hcd.attr).symm
      have e4 : (inherit a d).ext = (inherit a c).ext := (attr_ext hcd.attr).symm
      rw [e2, e3, e4]
    have hrow : ∀ {ks ks' : List Item} {b : Bool}, List.Forall₂ OwnAdj ks ks' →
        RowSane b (ks.map (inherit a)) → RowSane b (ks'.map (inherit a)) := by
      intro ks ks' b hk
      induction hk generalizing b with
      | nil => exact id
      | cons hcd _ ih =>
        simp only [List.map_cons, RowSane]
        rw [(hin hcd).1]
        exact fun h => ⟨fun hg => h.1 ((hin hcd).2.1 hg), ih h.2⟩
    have hall : ∀ d ∈ ks', ∃ c ∈ ks, OwnAdj c d := forall₂_mem hk
    refine ⟨?_, ?_⟩
    · intro d hd
      obtain ⟨c, hc, hcd⟩ := hall d hd
      have := h1 c hc
      rw [(hin hcd).1, ← hcd.clength]; exact this
    · split at h2
      · rw [if_pos (by assumption)]
        exact ⟨h2.1, h2.2.1, hrow hk h2.2.2⟩
      · rw [if_neg (by assumption)]
        intro d hd
        obtain ⟨c, hc, hcd⟩ := hall d hd
        rw [(hin hcd).1]; exact h2 c hc
  · -- the turn of the view
    intro a ks a' ks' hs e
    obtain ⟨ho, he⟩ := adjustStep_ok e
    rcases he with ⟨hl, rfl⟩ | ⟨hl, hr, hw⟩
    · refine ⟨fun h => ?_, forall₂_refl (fun a => ⟨_, _, _, _, _, rfl, fun _ => ⟨rfl, rfl⟩⟩) _⟩
      rw [← attr_leaf ho.attr, hl] at h; cases h
    · refine ⟨fun _ => ?_, hr.imp (fun _ _ h => h.1)⟩
      obtain ⟨h1, h2⟩ := hs hl
      have hall : ∀ d ∈ ks', ∃ c ∈ ks, Resolved a c d := forall₂_mem hr
      refine ⟨?_, ?_⟩
      · intro d hd
        obtain ⟨c, hc, hcd⟩ := hall d hd
        have := h1 c hc
        refine ⟨by rw [hcd.2.1]; exact this.1, ?_, hcd.2.2.1⟩
        obtain ⟨al, su, sp, f, r, e, _⟩ := hcd.1
        rw [e]; exact this.2
      · rw [← attr_placement ho.attr]
        split at h2
        · rename_i hw'
          rw [if_pos hw', ← attr_balance ho.attr, ← attr_spacing ho.attr]
          exact ⟨h2.1, h2.2.1, (hw hw').1, Spaced_congr (attr_spacing ho.attr) (hw hw').2, RowSane_resolved hr h2.2.2⟩
        · rename_i hw'
          rw [if_neg hw']
          intro d hd
          obtain ⟨c, hc, hcd⟩ := hall d hd
          rw [hcd.2.1]; exact h2 c hc
  · -- the turn of its container
    intro a a' ks ha hb hl
    obtain ⟨al, su, sp, f, r, rfl, _⟩ := hb
    obtain ⟨h1, h2⟩ := ha hl
    refine ⟨h1, ?_⟩
    split at h2
    · rename_i hw
      rw [if_pos (by exact hw)]
      exact ⟨h2.1, h2.2.1, h2.2.2.1, by refine Spaced_congr (p := a) ?_ h2.2.2.2.1; rfl, h2.2.2.2.2⟩
    · rename_i hw
      rw [if_neg (by exact hw)]; exact h2

theorem Adj_stable (s : Slice) : GrowStable (Adj s) := by
  intro a ks a' ks' h hg hk hl
  obtain ⟨h1, h2⟩ := h (by rw [attr_leaf hg.attr]; exact hl)
  have hall : ∀ d ∈ ks', ∃ c ∈ ks, Grows c d := forall₂_mem hk
  refine ⟨?_, ?_⟩
  · intro d hd
    obtain ⟨c, hc, g⟩ := hall d hd
    obtain ⟨k1, k2, k3⟩ := h1 c hc
    refine ⟨by rw [← attr_align g.attr]; exact k1, Int.le_trans k2 g.clength, ?_⟩
    unfold GuidesOk at k3 ⊢
    rw [← attr_leaf g.attr, ← attr_align g.attr, ← attr_ext g.attr, ← attr_suppress g.attr, ← g.fwd, ← g.rev]
    exact k3
  · rw [← attr_placement hg.attr]
    split at h2
    · rename_i hw
      rw [if_pos hw, ← attr_balance hg.attr, ← attr_spacing hg.attr]
      refine ⟨h2.1, h2.2.1, h2.2.2.1, ?_, ?_⟩
      · have : ∀ {ks ks' : List Item} {i : Nat}, List.Forall₂ Grows ks ks' → Spaced a i ks → Spaced a' i ks' := by
          intro ks ks' i hk
          induction hk generalizing i with
          | nil => intro; trivial
          | cons hcd _ ih =>
            simp only [Spaced, spacingAt]
            rw [attr_space hcd.attr, attr_spacing hg.attr]
            exact fun h => ⟨h.1, ih h.2⟩
        exact this hk h2.2.2.2.1
      · have : ∀ {ks ks' : List Item} {b : Bool}, List.Forall₂ Grows ks ks' → RowSane b ks → RowSane b ks' := by
          intro ks ks' b hk
          induction hk generalizing b with
          | nil => exact id
          | cons hcd _ ih =>
            simp only [RowSane]
            rw [attr_guided hcd.attr, attr_align hcd.attr]
            exact fun h => ⟨h.1, ih h.2⟩
        exact this hk h2.2.2.2.2
    · rename_i hw
      rw [if_neg hw]
      intro d hd
      obtain ⟨c, hc, g⟩ := hall d hd
      rw [← attr_align g.attr]; exact h2 c hc

end Verif.Eve
