import Verif.Eve.Congr
/-! A slice of a layout forgets what earlier layouts left behind. -/
namespace Verif.Eve

mutual
theorem Tree.post_count {α : Type} {f : α → List α → Except Err (α × List α)} : ∀ (t t' : Tree α), t.post f = .ok t' →
    t'.count = t.count
  | .node false a ks, t', h => by
    simp only [Tree.post, Except.ok.injEq] at h
    rw [← h]
  | .node true a ks, t', h => by
    obtain ⟨ks', a', as', h1, h2, e⟩ := Tree.post_node_ok h
    subst e
    simp only [Tree.count]
    rw [Tree.setRoots_count, Tree.posts_count ks ks' h1]
theorem Tree.posts_count {α : Type} {f : α → List α → Except Err (α × List α)} : ∀ (ts ts' : List (Tree α)),
    Tree.post.posts f ts = .ok ts' → Tree.count.counts ts' = Tree.count.counts ts
  | [], ts', h => by
    simp only [Tree.post.posts, Except.ok.injEq] at h
    rw [← h]
  | t :: ts, ts', h => by
    obtain ⟨t1, ts1, h1, h2, rfl⟩ := Tree.posts_cons_ok h
    simp only [Tree.count.counts, Tree.post_count t t1 h1, Tree.posts_count ts ts1 h2]
theorem Tree.setRoots_count {α : Type} : ∀ (ts : List (Tree α)) (as : List α),
    Tree.count.counts (Tree.setRoots ts as) = Tree.count.counts ts
  | [], _ => by simp [Tree.setRoots]
  | .node v a ks :: ts, as => by
    simp only [Tree.setRoots]
    split
    · cases as with
      | nil => simp only [Tree.count.counts, Tree.setRoots_count ts]
      | cons b bs =>
        simp only [Tree.count.counts, Tree.setRoots_count ts, Tree.setRoot, Tree.count, Tree.kids]
    · simp only [Tree.count.counts, Tree.setRoots_count ts]
end

/-- A child: the same, except for the place; its parent is a container. -/
def KidR (k : Key) (a b : Item) : Prop := PlD a b ∧ ∀ ca, k ≠ some (.leaf, ca)

/-- The topmost view: its position is not touched by a layout. -/
def TopR (a b : Item) : Prop := b.pl = a.pl ∧ b.place.position = a.place.position

theorem upStep_place {s : Slice} {a a' : Item} {ks ks' : List Item} (h : upStep s a ks = .ok (a', ks')) :
    a'.place = a.place ∧ (a.leaf = true → a' = a) ∧ a'.key = a.key ∧ ks' = ks := by
  unfold upStep at h
  split at h
  · simp only [Except.ok.injEq, Prod.mk.injEq] at h
    exact ⟨by rw [← h.1], fun _ => h.1.symm, by rw [← h.1], h.2.symm⟩
  · rename_i hl
    obtain ⟨p, h1, h2⟩ := ok_bind h
    simp only [Except.ok.injEq, Prod.mk.injEq] at h2
    refine ⟨?_, fun h => absurd h hl, ?_, h2.2.symm⟩ <;> rw [← h2.1]
    all_goals
      unfold upBoth at h1
      split at h1
      · unfold upWith at h1
        obtain ⟨x, _, h1⟩ := ok_bind h1
        obtain ⟨y, _, h1⟩ := ok_bind h1
        simp only [Except.ok.injEq] at h1
        rw [← h1]
        try rfl
      · unfold upCross at h1
        obtain ⟨x, _, h1⟩ := ok_bind h1
        obtain ⟨y, _, h1⟩ := ok_bind h1
        simp only [Except.ok.injEq] at h1
        rw [← h1]
        try rfl

/-- The first measuring. -/
def UpIn (k : Key) (a b : Item) : Prop :=
  b.weak = a.weak ∧ (k = none → b.place.position = a.place.position) ∧
    (k ≠ none → a.align ≠ .default ∧ ∀ ca, k ≠ some (.leaf, ca))

def UpOut (k : Key) (a b : Item) : Prop :=
  b.pl = a.pl ∧ (k = none → b.place.position = a.place.position) ∧
    (k ≠ none → a.align ≠ .default ∧ ∀ ca, k ≠ some (.leaf, ca))

theorem forall₂_ne {α : Type} {R : α → α → Prop} {xs ys : List α} {P : Prop} (h : List.Forall₂ R xs ys)
    (hp : ∀ x y, R x y → P) : List.Forall₂ (fun x y => R x y ∧ P) xs ys := h.imp (fun _ _ h => ⟨h, hp _ _ h⟩)

theorem up_rel (s : Slice) {t u : Tree Item} (h : Same UpIn none t u) :
    ERel (Pair TopR KidR) (t.post (upStep s)) (u.post (upStep s)) := by
  refine (post_rel (M := UpOut) (W := KidR) ?_ t u none h).imp ?_
  · intro k a b ks ls ⟨h1, h2, h3⟩ hk
    have hk' : List.Forall₂ PlD ks ls := hk.imp (fun c d h => ⟨h.1, (h.2.2 (by simp [Item.key])).1⟩)
    have hkk : List.Forall₂ (KidR a.key) ks ls :=
      hk.imp (fun c d h => ⟨⟨h.1, (h.2.2 (by simp [Item.key])).1⟩, (h.2.2 (by simp [Item.key])).2⟩)
    have hr := upStep_rel s h1 hk'
    cases e1 : upStep s a ks with
    | error e =>
      rw [e1] at hr
      cases e2 : upStep s b ls with
      | error e' => rw [e2] at hr; exact hr
      | ok y => rw [e2] at hr; exact hr.elim
    | ok x =>
      rw [e1] at hr
      cases e2 : upStep s b ls with
      | error e' => rw [e2] at hr; exact hr.elim
      | ok y =>
        rw [e2] at hr
        obtain ⟨k1, k2, k3, k4⟩ := hr
        obtain ⟨p1, _, p2, p3⟩ := upStep_place (a' := x.1) (ks' := x.2) e1
        obtain ⟨q1, _, q2, q3⟩ := upStep_place (a' := y.1) (ks' := y.2) e2
        refine ⟨⟨k1, fun hn => ?_, fun hn => by rw [k2]; exact h3 hn⟩, ?_, by rw [p3], p2⟩
        · rw [p1, q1]; exact h2 hn
        · rw [p3, q3]; exact hkk
  · intro x y hp
    exact ⟨hp.1, fun hv => ⟨⟨(hp.2 hv).1.1, (hp.2 hv).1.2.1 rfl⟩, (hp.2 hv).2⟩⟩

theorem pl_up {t u : Tree Item} (h : Pair TopR KidR t u) : Same UpIn none t u :=
  Same_iff.2 (h.imp (fun a b h => ⟨weak_of_pl h.1, fun _ => h.2, by simp⟩)
    (fun k a b hk h => ⟨weak_of_pl h.1.1, fun e => absurd e hk, fun _ => ⟨h.1.2, h.2⟩⟩))

theorem kids_key {k : Key} {ks ls xs ys : List Item} (h : List.Forall₂ (KidR k) ks ls)
    (hm : xs.map Item.key = ks.map Item.key) (hp : List.Forall₂ PlD xs ys) : List.Forall₂ (KidR k) xs ys := by
  cases h with
  | nil =>
    have : xs = [] := by simpa using hm
    subst this
    cases hp
    exact .nil
  | cons h _ => exact hp.imp (fun _ _ e => ⟨e, h.2⟩)

theorem down_rel (s : Slice) {t u : Tree Item} (h : Pair TopR KidR t u) :
    ERel (fun x y => Pair TopR KidR x.1 y.1 ∧ x.2 = y.2) (t.pre (downStep s)) (u.pre (downStep s)) := by
  refine pre_rel (A := KidR) ?_ ?_ h
  · intro k _ a b ks ls hab hk
    refine (downStep_rel s hab.1.1 (hk.imp (fun _ _ h => h.1))).imp ?_
    rintro x y ⟨k1, k2, k3, k4, k5⟩
    exact ⟨by rw [k1, k2]; exact hab, kids_key hk k5 k3, k4, k5, by rw [k1]⟩
  · intro a b ks ls hab hk
    refine (downStep_rel s hab.1 (hk.imp (fun _ _ h => h.1))).imp ?_
    rintro x y ⟨k1, k2, k3, k4, k5⟩
    exact ⟨by rw [k1, k2]; exact hab, kids_key hk k5 k3, k4, k5, by rw [k1]⟩

theorem solveLoop_rel (s : Slice) : ∀ (n : Nat) {t u : Tree Item}, Pair TopR KidR t u →
    ERel (fun x y => Pair TopR KidR x.1 y.1 ∧ x.2 = y.2) (solveLoop s n t) (solveLoop s n u)
  | 0, t, u, h => by simpa [solveLoop, ERel] using h
  | n + 1, t, u, h => by
    simp only [solveLoop]
    refine (down_rel s h).bind ?_
    rintro ⟨t1, b⟩ ⟨u1, b'⟩ ⟨h1, h2⟩
    simp only at h1 h2
    subst h2
    refine (up_rel s (pl_up h1)).bind ?_
    intro t2 u2 h3
    cases b with
    | true => simpa using solveLoop_rel s n h3
    | false => simpa [ERel] using h3

theorem pl_eq {a b : Item} (h : b.pl = a.pl) (h1 : b.place.position = a.place.position)
    (h2 : b.place.length = a.place.length) : a = b := by
  have e : ∀ i : Item, i = { i.pl with place := { i.pl.place with position := i.place.position, length := i.place.length } } :=
    fun _ => rfl
  rw [e a, e b, h, h1, h2]

/-- Equal. -/
def EqR (_ : Key) (a b : Item) : Prop := a = b

theorem forall₂_eqR {k : Key} (xs : List Item) : List.Forall₂ (EqR k) xs xs := forall₂_refl (fun _ => rfl) xs

theorem eq_of_forall₂ {k : Key} {xs ys : List Item} (h : List.Forall₂ (EqR k) xs ys) : xs = ys := by
  induction h with
  | nil => rfl
  | cons h _ ih => rw [h, ih]

theorem layout_rel (rnd : Int → Int → Int → Int) (s : Slice) (length : Int) {t u : Tree Item} (h : Pair TopR KidR t u)
    (hv : t.visible = true) :
    ERel (Pair Eq EqR) (layout rnd s length t) (layout rnd s length u) := by
  obtain ⟨h1, h2⟩ := h
  obtain ⟨⟨k1, k2⟩, k3⟩ := h2 hv
  have hc : u.root.clength = t.root.clength := of_pl k1 Item.clength (fun _ => rfl)
  unfold layout
  have hroot : ({ t.root with place := { t.root.place with length := if length ≠ 0 then length else t.root.clength } } : Item)
      = { u.root with place := { u.root.place with length := if length ≠ 0 then length else u.root.clength } } := by
    refine pl_eq ?_ k2 ?_
    · exact k1
    · simp only [hc]
  have hstep : PreStep (layoutStep rnd s) Eq KidR EqR Eq := by
    rintro a _ ks ls rfl hk
    unfold layoutStep
    split
    · rename_i hl
      cases hk with
      | nil => exact ⟨rfl, .nil, rfl, rfl, rfl⟩
      | cons h _ =>
        refine absurd ?_ (h.2 a.childAlign)
        simp only [Item.leaf, beq_iff_eq] at hl
        simp [Item.key, hl]
    · rw [layoutBoth_rel rnd s a (hk.imp (fun _ _ h => h.1))]
      cases e : layoutBoth rnd s a ks with
      | error e => simp [ERel, bind, Except.bind]
      | ok xs =>
        refine ⟨rfl, forall₂_eqR _, rfl, ?_, rfl⟩
        have := layoutBoth_same e
        show xs.map Item.key = _
        clear e hk
        induction this with
        | nil => rfl
        | cons h _ ih =>
          obtain ⟨l, q, rfl⟩ := h
          simp only [List.map_cons, ih]
          rfl
  refine ERel.bind (R := fun x y => Pair Eq EqR x.1 y.1 ∧ x.2 = y.2) ?_ ?_
  · refine pre_rel (A := EqR) (fun k _ => hstep) hstep ?_
    refine ⟨h1, fun _ => ⟨?_, k3⟩⟩
    exact hroot
  · rintro ⟨x, _⟩ ⟨y, _⟩ ⟨hp, _⟩
    exact hp

theorem outsets_rel (s : Slice) {t u : Tree Item} (h : Pair Eq EqR t u) :
    ERel (Pair Eq EqR) (t.post (outsetsStep s)) (u.post (outsetsStep s)) := by
  refine post_rel (R := EqR) (M := EqR) (W := EqR) ?_ t u none (Same_iff.2 h)
  rintro k a _ ks ls rfl hk
  have hkl := eq_of_forall₂ hk
  subst hkl
  cases e : outsetsStep s a ks with
  | error e => simp [ERel]
  | ok x =>
    obtain ⟨k1, o, k2⟩ := outsetsStep_ok (a' := x.1) (ks' := x.2) e
    exact ⟨rfl, forall₂_eqR _, by rw [k1], by rw [k2]; rfl⟩

theorem flatten_rel (o : Options) {t u : Tree Item} (h : Pair Eq EqR t u) :
    ERel (fun x y => Pair Eq EqR x.1 y.1 ∧ x.2 = y.2) (t.pre (flattenStep o)) (u.pre (flattenStep o)) := by
  have hstep : PreStep (flattenStep o) Eq EqR EqR Eq := by
    rintro a _ ks ls rfl hk
    have hkl := eq_of_forall₂ hk
    subst hkl
    obtain ⟨g, hg⟩ := pushGuides_eq a
    unfold flattenStep
    split
    · exact ⟨rfl, forall₂_eqR _, rfl, rfl, by rw [hg]; rfl⟩
    · refine ⟨rfl, forall₂_eqR _, rfl, ?_, by rw [hg]; rfl⟩
      simp only [List.map_map]
      rfl
  exact pre_rel (A := EqR) (fun k _ => hstep) hstep h

/-- A slice of a layout gives the same result for a view in use as for one that was never laid out. -/
theorem runSlice_rel (rnd : Int → Int → Int → Int) (s : Slice) (o : Options) (length : Int) {t u : Tree Item}
    (h : Same (fun k a b => Hist s k a b ∧ Meas a b) none t u) (hc : u.count = t.count) (hv : t.visible = true) :
    ERel (Pair Eq EqR) (runSlice rnd s o length t) (runSlice rnd s o length u) := by
  unfold runSlice
  refine ERel.bind (R := fun x y => Pair (UpIn none) UpIn x y ∧ y.count = x.count ∧ x.visible = true) ?_ ?_
  · have := post_rel (f := adjustStep s) (R := fun k a b => Hist s k a b ∧ Meas a b) (M := MidR s)
      (W := fun k a b => WeakR a b ∧ ∀ ca, k ≠ some (.leaf, ca)) ?_ t u none h
    · cases e1 : t.post (adjustStep s) with
      | error e =>
        rw [e1] at this
        cases e2 : u.post (adjustStep s) with
        | error e' => rw [e2] at this; exact this
        | ok y => rw [e2] at this; exact this.elim
      | ok x =>
        rw [e1] at this
        cases e2 : u.post (adjustStep s) with
        | error e' => rw [e2] at this; exact this.elim
        | ok y =>
          rw [e2] at this
          refine ⟨Pair.imp ?_ ?_ this, by rw [Tree.post_count _ _ e1, Tree.post_count _ _ e2, hc],
            by rw [Tree.post_visible e1]; exact hv⟩
          · intro a b hm
            exact ⟨MidR_root hm, fun _ => hm.1.2.2.2.2.2.1, by simp⟩
          · intro k a b hk hm
            exact ⟨hm.1.1, fun e => absurd e hk, fun _ => ⟨hm.1.2, hm.2⟩⟩
    · intro k a b ks ls hab hk
      refine (adjustStep_rel s k a b ks ls hab hk).imp ?_
      rintro x y ⟨k1, k2, k3, k4, k5⟩
      refine ⟨k1, ?_, k3, k4⟩
      cases hx : x.2 with
      | nil =>
        rw [hx] at k2
        cases hy : y.2 with
        | nil => exact .nil
        | cons _ _ => rw [hy] at k2; cases k2
      | cons c cs =>
        have hlf := k5 (by simp [hx])
        rw [← hx]
        refine k2.imp (fun _ _ e => ⟨e, fun ca e' => ?_⟩)
        simp only [Item.key, Option.some.injEq, Prod.mk.injEq] at e'
        simp [Item.leaf, e'.1] at hlf
  rintro t1 u1 ⟨h1, h2, h3⟩
  refine ERel.bind (R := fun x y => Pair TopR KidR x.1 y.1 ∧ x.1.visible = true) ?_ ?_
  · have hs : ERel (fun x y => Pair TopR KidR x.1 y.1 ∧ x.2 = y.2) (solve s t1) (solve s u1) := by
      unfold solve
      refine (up_rel s (Same_iff.2 h1)).bind ?_
      intro t2 u2 h4
      rw [h2]
      exact solveLoop_rel s _ h4
    cases e1 : solve s t1 with
    | error e =>
      rw [e1] at hs
      cases e2 : solve s u1 with
      | error e' => rw [e2] at hs; exact hs
      | ok y => rw [e2] at hs; exact hs.elim
    | ok x =>
      rw [e1] at hs
      cases e2 : solve s u1 with
      | error e' => rw [e2] at hs; exact hs.elim
      | ok y =>
        rw [e2] at hs
        refine ⟨hs.1, ?_⟩
        obtain ⟨x1, x2⟩ := x
        obtain ⟨_, hvis, _⟩ := solve_ok (P := fun _ _ => True) (fun _ _ _ _ _ _ _ => trivial) e1 (Tree.forall_true _)
        rw [hvis]; exact h3
  rintro ⟨t2, _⟩ ⟨u2, _⟩ ⟨h4, h5⟩
  refine (layout_rel rnd s length h4 h5).bind ?_
  intro t3 u3 h6
  refine (outsets_rel s h6).bind ?_
  intro t4 u4 h7
  refine (flatten_rel o h7).bind ?_
  rintro ⟨t5, _⟩ ⟨u5, _⟩ ⟨h8, _⟩
  exact h8

end Verif.Eve
