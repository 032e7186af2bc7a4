import Verif.Eve.Rel
/-! What a view keeps of its earlier layouts, and what `view_proxy_t::adjust` makes of it. -/
namespace Verif.Eve

/-- The attributes given by the client. -/
def Item.given (i : Item) : Placement × Int × Bool × List Int × Bool × (Int × Int) × Align :=
  (i.placement, i.indent, i.create, i.spacing, i.balance, i.margin, i.childAlign)

/-- The alignment that results from that of the parent's children. -/
def alignIn (ca : Align) (i : Item) : Align := if i.align = .default then ca else i.align

def Align.leads : Align → Bool
  | .forward | .forwardFill => true
  | _ => false

def Align.trails : Align → Bool
  | .reverse | .reverseFill => true
  | _ => false

/-- `b` is a view that was `a` when it was added, at any later time: `adjust` may have written the
alignment, the suppression of guides, the space before it and its guides; anything else that is
computed is arbitrary. -/
def Hist (s : Slice) (k : Key) (a b : Item) : Prop :=
  b.given = a.given ∧ (a.leaf = true → b.mlength = a.mlength) ∧
  match k with
  | none => b.align = a.align ∧ b.suppress = a.suppress ∧ b.space = a.space ∧ b.place.position = a.place.position ∧
      (a.leaf = true → b.fwd = a.fwd ∧ b.rev = a.rev)
  | some (pl, ca) => pl ≠ .leaf ∧ ca ≠ .default ∧
      (b.align = a.align ∨ b.align = alignIn ca a) ∧
      (b.suppress = a.suppress ∨ (b.suppress = true ∧ (alignIn ca a).fwdSide = false ∧ (alignIn ca a).revSide = false)) ∧
      (isWith s pl = false → b.space = a.space) ∧
      (a.leaf = true → ((alignIn ca a).leads = false → a.fwd = [] ∧ b.fwd = []) ∧
        ((alignIn ca a).trails = false → a.rev = [] ∧ b.rev = []))

/-- The results of measuring are the same. -/
def Meas (a b : Item) : Prop :=
  b.ext = a.ext ∧ b.clength = a.clength ∧ b.place.outset = a.place.outset ∧ b.place.guides = a.place.guides

/-- Without the place it was given. -/
def Item.pl (i : Item) : Item := { i with place := { i.place with position := 0, length := 0 } }

/-- … and, in a container, without the measured length. -/
def Item.weak (i : Item) : Item :=
  { i with place := { i.place with position := 0, length := 0 }, mlength := if i.leaf then i.mlength else 0 }

theorem given_leaf {a b : Item} (h : b.given = a.given) : b.leaf = a.leaf := by
  simp only [Item.given, Prod.mk.injEq] at h
  simp [Item.leaf, h.1]

theorem given_key {a b : Item} (h : b.given = a.given) : b.key = a.key := by
  simp only [Item.given, Prod.mk.injEq] at h
  simp [Item.key, h.1, h.2.2.2.2.2.2]

/-- After the view's own turn in `adjust`. -/
def MidR (s : Slice) (k : Key) (a b : Item) : Prop :=
  Hist s k a b ∧ Meas a b ∧ (a.leaf = false → b.fwd = a.fwd ∧ b.rev = a.rev)

/-- After the turn of the parent. -/
def WeakR (a b : Item) : Prop := b.weak = a.weak ∧ a.align ≠ .default

theorem weak_ext {a b : Item} (h1 : b.given = a.given) (h2 : b.align = a.align) (h3 : b.suppress = a.suppress)
    (h4 : b.space = a.space) (h5 : Meas a b) (h6 : b.fwd = a.fwd) (h7 : b.rev = a.rev)
    (h8 : a.leaf = true → b.mlength = a.mlength) : b.weak = a.weak := by
  have hl := given_leaf h1
  obtain ⟨m1, m2, m3, m4⟩ := h5
  simp only [Item.given, Prod.mk.injEq] at h1
  obtain ⟨g1, g2, g3, g4, g5, g6, g7⟩ := h1
  have hm : (if b.leaf then b.mlength else 0) = if a.leaf then a.mlength else 0 := by
    rw [hl]; split
    · rename_i h; exact h8 h
    · rfl
  simp only [Item.weak, hm, Item.mk.injEq, Place.mk.injEq]
  simp only [g1, g2, g3, g4, g5, g6, g7, h2, h3, h4, h6, h7, m1, m2, m3, m4, and_self]

theorem MidR_root {s : Slice} {a b : Item} (h : MidR s none a b) : b.weak = a.weak := by
  obtain ⟨⟨h1, h2, h3, h4, h5, h6, h7⟩, h8, h9⟩ := h
  cases hl : a.leaf with
  | true => exact weak_ext h1 h3 h4 h5 h8 (h7 hl).1 (h7 hl).2 h2
  | false => exact weak_ext h1 h3 h4 h5 h8 (h9 hl).1 (h9 hl).2 h2

/-- The parent's turn for one child; `sp` is the space before it. -/
def turn (p : Item) (sp : Option Int) (c : Item) : Item :=
  mark (match sp with
    | some x => { leafGuides (resolve p c) with space := x }
    | none => leafGuides (resolve p c))

theorem turn_fields (p : Item) (sp : Option Int) (c : Item) :
    let al := alignIn p.childAlign c
    turn p sp c = { c with
      align := al
      suppress := if al.fwdSide || al.revSide then c.suppress else true
      space := sp.getD c.space
      fwd := if c.leaf && al.leads then c.ext.guides else c.fwd
      rev := if c.leaf && al.trails then (c.ext.guides.map (fun g => c.ext.length - g)).reverse else c.rev } := by
  have key : ∀ d : Item, d.align = alignIn p.childAlign c → d.leaf = c.leaf → leafGuides d = { d with
      fwd := if c.leaf && (alignIn p.childAlign c).leads then d.ext.guides else d.fwd
      rev := if c.leaf && (alignIn p.childAlign c).trails then (d.ext.guides.map (fun g => d.ext.length - g)).reverse else d.rev } := by
    intro d e1 e2
    rw [← e1, ← e2]
    clear e1 e2
    obtain ⟨a1, a2, a3, a4, al, a6, a7, a8, a9, a10, a11, a12, a13, a14, a15, a16⟩ := d
    cases a1 <;> cases al <;> rfl
  have hr : resolve p c = { c with align := alignIn p.childAlign c } := by
    unfold resolve alignIn
    split
    · rfl
    · rfl
  unfold turn
  rw [hr, key { c with align := alignIn p.childAlign c } rfl rfl]
  cases sp <;> (unfold mark; dsimp only [Option.getD]; split <;> rfl)

theorem alignIn_hist {ca : Align} {a b : Item} (hca : ca ≠ .default) (h : b.align = a.align ∨ b.align = alignIn ca a) :
    alignIn ca b = alignIn ca a := by
  unfold alignIn at *
  rcases h with h | h
  · rw [h]
  · rw [h]
    by_cases e : a.align = .default
    · simp [e, hca]
    · simp [e]

theorem turn_weak {s : Slice} {p q c d : Item} {sp : Option Int} (hp : q.given = p.given) (h : MidR s p.key c d)
    (hs : isWith s p.placement = true → sp.isSome) :
    WeakR (turn p sp c) (turn q sp d) := by
  obtain ⟨⟨h1, h2, h3, h4, h5, h6, h7, h8⟩, h9, h10⟩ := h
  have hca : q.childAlign = p.childAlign := by
    simp only [Item.given, Prod.mk.injEq] at hp; exact hp.2.2.2.2.2.2
  have hal := alignIn_hist h4 h5
  have hl := given_leaf h1
  obtain ⟨m1, m2, m3, m4⟩ := h9
  have hsp : sp.getD d.space = sp.getD c.space := by
    cases sp with
    | some x => rfl
    | none =>
      simp only [Option.getD_none]
      apply h7
      cases hw : isWith s p.placement with
      | false => rfl
      | true => simpa using hs hw
  have hsup : (if (alignIn p.childAlign c).fwdSide || (alignIn p.childAlign c).revSide then d.suppress else true)
      = if (alignIn p.childAlign c).fwdSide || (alignIn p.childAlign c).revSide then c.suppress else true := by
    split
    · rename_i hside
      rcases h6 with h6 | ⟨_, k1, k2⟩
      · exact h6
      · rw [k1, k2] at hside; simp at hside
    · rfl
  constructor
  · rw [turn_fields, turn_fields]
    apply weak_ext
    · exact h1
    · simp only [hca]; exact hal
    · simp only [hca, hal]; exact hsup
    · exact hsp
    · exact ⟨m1, m2, m3, m4⟩
    · simp only [hca, hal, hl, m1]
      cases hcl : c.leaf with
      | false => simpa using (h10 hcl).1
      | true =>
        cases hld : (alignIn p.childAlign c).leads with
        | true => simp
        | false => simp [((h8 hcl).1 hld).1, ((h8 hcl).1 hld).2]
    · simp only [hca, hal, hl, m1]
      cases hcl : c.leaf with
      | false => simpa using (h10 hcl).2
      | true =>
        cases hld : (alignIn p.childAlign c).trails with
        | true => simp
        | false => simp [((h8 hcl).2 hld).1, ((h8 hcl).2 hld).2]
    · exact h2
  · rw [turn_fields]
    simp only [alignIn]
    split
    · exact h4
    · assumption

theorem setSpaces_turn (p : Item) : ∀ (ss : List Int) (last : Int) (ks : List Item),
    ∃ sps : List Int, sps.length = ks.length ∧ (∀ (q : Item) (ls : List Item), ls.length = ks.length →
      (setSpaces ss last (ls.map (fun c => leafGuides (resolve q c)))).map mark
        = List.zipWith (fun c x => turn q (some x) c) ls sps)
  | ss, last, [] => ⟨[], rfl, by intro q ls h; simp at h; simp [h, setSpaces]⟩
  | [], last, k :: ks => by
    obtain ⟨sps, h1, h2⟩ := setSpaces_turn p [] last ks
    refine ⟨last :: sps, by simp [h1], ?_⟩
    intro q ls hl
    cases ls with
    | nil => simp at hl
    | cons l ls =>
      simp only [List.length_cons, Nat.add_right_cancel_iff] at hl
      simp only [List.map_cons, setSpaces, List.zipWith_cons_cons, h2 q ls hl]
      rfl
  | x :: ss, last, k :: ks => by
    obtain ⟨sps, h1, h2⟩ := setSpaces_turn p ss last ks
    refine ⟨x :: sps, by simp [h1], ?_⟩
    intro q ls hl
    cases ls with
    | nil => simp at hl
    | cons l ls =>
      simp only [List.length_cons, Nat.add_right_cancel_iff] at hl
      simp only [List.map_cons, setSpaces, List.zipWith_cons_cons, h2 q ls hl]
      rfl

theorem zip_weak {s : Slice} {p q : Item} (hp : q.given = p.given) {ks ls : List Item}
    (h : List.Forall₂ (MidR s p.key) ks ls) : ∀ {sps : List Int}, sps.length = ks.length →
    List.Forall₂ WeakR (List.zipWith (fun c x => turn p (some x) c) ks sps) (List.zipWith (fun c x => turn q (some x) c) ls sps) := by
  induction h with
  | nil => intro sps _; simp
  | cons h _ ih =>
    intro sps hl
    cases sps with
    | nil => simp at hl
    | cons x sps =>
      simp only [List.length_cons, Nat.add_right_cancel_iff] at hl
      simp only [List.zipWith_cons_cons]
      exact .cons (turn_weak hp h (by simp)) (ih hl)

theorem turn_key (p : Item) (sp : Option Int) (c : Item) : (turn p sp c).key = c.key := by
  rw [turn_fields]; rfl

theorem zip_key (p : Item) : ∀ (ks : List Item) (sps : List Int), sps.length = ks.length →
    (List.zipWith (fun c x => turn p (some x) c) ks sps).map Item.key = ks.map Item.key
  | [], _, _ => by simp
  | k :: ks, [], h => by simp at h
  | k :: ks, x :: sps, h => by
    simp only [List.zipWith_cons_cons, List.map_cons, turn_key, zip_key p ks sps (by simpa using h)]

theorem map_weak {ks ls : List Item} (h : List.Forall₂ WeakR ks ls) : ls.map Item.weak = ks.map Item.weak := by
  induction h with
  | nil => rfl
  | cons h _ ih => simp only [List.map_cons, h.1, ih]

theorem map_of_weak {β : Type} {g : Item → β} (hg : ∀ i, g i.weak = g i) {ks ls : List Item}
    (h : ls.map Item.weak = ks.map Item.weak) : ls.map g = ks.map g := by
  have := congrArg (List.map g) h
  simpa [List.map_map, Function.comp_def, hg] using this

theorem adjustStep_rel (s : Slice) (k : Key) (a b : Item) (ks ls : List Item) (h : Hist s k a b ∧ Meas a b)
    (hk : List.Forall₂ (MidR s a.key) ks ls) :
    ERel (fun x y => MidR s k x.1 y.1 ∧ List.Forall₂ WeakR x.2 y.2 ∧ x.2.map Item.key = ks.map Item.key ∧
      x.1.key = a.key ∧ (x.2 ≠ [] → a.leaf = false)) (adjustStep s a ks) (adjustStep s b ls) := by
  obtain ⟨h1, h2⟩ := h
  have hg := h1.1
  have hlf := given_leaf hg
  unfold adjustStep
  rw [hlf]
  have mid : ∀ (f r f' r' : List Int), a.leaf = false → f = f' → r = r' → MidR s k { a with fwd := f, rev := r }
      { b with fwd := f', rev := r' } := by
    rintro f r _ _ hl rfl rfl
    refine ⟨⟨h1.1, h1.2.1, ?_⟩, h2, fun _ => ⟨rfl, rfl⟩⟩
    have h3 := h1.2.2
    cases k with
    | none => exact ⟨h3.1, h3.2.1, h3.2.2.1, h3.2.2.2.1, fun h => by
        have : a.leaf = true := h
        rw [hl] at this; cases this⟩
    | some x => exact ⟨h3.1, h3.2.1, h3.2.2.1, h3.2.2.2.1, h3.2.2.2.2.1, fun h => by
        have : a.leaf = true := h
        rw [hl] at this; cases this⟩
  cases hl : a.leaf with
  | true =>
    simp only [if_true, ERel]
    cases hk with
    | nil => exact ⟨⟨h1, h2, by simp [hl]⟩, .nil, trivial, trivial, by simp⟩
    | cons hc _ =>
      have := hc.1.2.2.1
      simp [Item.leaf] at hl
      exact absurd hl this
  | false =>
    simp only [Bool.false_eq_true, if_false]
    have hpl : b.placement = a.placement := by simp only [Item.given, Prod.mk.injEq] at hg; exact hg.1
    have hsp : b.spacing = a.spacing := by simp only [Item.given, Prod.mk.injEq] at hg; exact hg.2.2.2.1
    rw [hpl]
    have hlen := hk.length_eq
    cases hw : isWith s a.placement with
    | true =>
      simp only [if_true, adjustWith]
      cases hlast : a.spacing.getLast? with
      | none =>
        have hb : b.spacing.getLast? = none := by rw [hsp]; exact hlast
        rw [hb]
        simp [ERel]
      | some last =>
        have hb : b.spacing.getLast? = some last := by rw [hsp]; exact hlast
        rw [hb]
        obtain ⟨sps, k1, k2⟩ := setSpaces_turn a a.spacing last ks
        have e1 := k2 a ks rfl
        have e2 := k2 b ls hlen.symm
        rw [← hsp] at e2
        have hz := zip_weak hg hk k1
        rw [← e1, ← e2] at hz
        have hm := map_weak hz
        refine ⟨mid _ _ _ _ hl ?_ ?_, hz, ?_, rfl, fun _ => trivial⟩
        · rw [map_of_weak (g := fun c => if c.usesFwd then c.fwd.length else 0) (fun i => rfl) hm]
        · rw [map_of_weak (g := fun c => if c.usesRev then c.rev.length else 0) (fun i => rfl) hm]
        · show List.map Item.key (List.map mark (setSpaces a.spacing last (List.map (fun c => leafGuides (resolve a c)) ks))) = _
          rw [e1]; exact zip_key a ks sps k1
    | false =>
      simp only [Bool.false_eq_true, if_false, adjustCross]
      have hz : List.Forall₂ WeakR ((ks.map (fun c => leafGuides (resolve a c))).map mark)
          ((ls.map (fun c => leafGuides (resolve b c))).map mark) := by
        rw [List.map_map, List.map_map, List.forall₂_map_left_iff, List.forall₂_map_right_iff]
        refine hk.imp (fun c d h => ?_)
        exact turn_weak (sp := none) hg h (by simp [hw])
      have hm := map_weak hz
      refine ⟨mid _ _ _ _ hl ?_ ?_, hz, ?_, rfl, fun _ => trivial⟩
      · rw [map_of_weak (g := fun c => if c.usesFwd then c.fwd.length else 0) (fun i => rfl) hm]
      · rw [map_of_weak (g := fun c => if c.usesRev then c.rev.length else 0) (fun i => rfl) hm]
      · simp only [List.map_map]
        exact List.map_congr_left (fun c _ => turn_key a none c)

end Verif.Eve
