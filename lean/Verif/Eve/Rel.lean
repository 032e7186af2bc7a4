import Verif.Eve.Twin
/-! Two layouts side by side: traversals of related trees give related trees. -/
namespace Verif.Eve

/-- Both calls fail alike, or both succeed with related results. -/
def ERel {α β : Type} (R : α → β → Prop) : Except Err α → Except Err β → Prop
  | .ok a, .ok b => R a b
  | .error e, .error e' => e = e'
  | _, _ => False

theorem ERel.bind {α β γ δ : Type} {R : α → β → Prop} {S : γ → δ → Prop} {x : Except Err α} {y : Except Err β}
    {f : α → Except Err γ} {g : β → Except Err δ} (h : ERel R x y) (hf : ∀ a b, R a b → ERel S (f a) (g b)) :
    ERel S (x >>= f) (y >>= g) := by
  cases x <;> cases y <;> simp_all [ERel, Bind.bind, Except.bind]

theorem ERel.imp {α β : Type} {R S : α → β → Prop} {x : Except Err α} {y : Except Err β}
    (h : ERel R x y) (hf : ∀ a b, R a b → S a b) : ERel S x y := by
  cases x <;> cases y <;> simp_all [ERel]

theorem ERel.of_eq {α : Type} {R : α → α → Prop} (hr : ∀ a, R a a) {x y : Except Err α} (h : x = y) : ERel R x y := by
  subst h; cases x <;> simp_all [ERel]

/-- What a view passes to its children: its direction, and their alignment. -/
abbrev Key := Option (Placement × Align)
def Item.key (i : Item) : Key := some (i.placement, i.childAlign)

mutual
/-- The visible views are related, one by one. -/
def Same (R : Key → Item → Item → Prop) : Key → Tree Item → Tree Item → Prop
  | k, .node v a ks, .node w b ls => v = w ∧ (v = true → R k a b ∧ Sames R a.key ks ls)
def Sames (R : Key → Item → Item → Prop) : Key → List (Tree Item) → List (Tree Item) → Prop
  | _, [], [] => True
  | k, t :: ts, u :: us => Same R k t u ∧ Sames R k ts us
  | _, _, _ => False
end

/-- The topmost views are related by `R`, the others by `W`. -/
def Pair (R : Item → Item → Prop) (W : Key → Item → Item → Prop) (t u : Tree Item) : Prop :=
  t.visible = u.visible ∧ (t.visible = true → R t.root u.root ∧ Sames W t.root.key t.kids u.kids)

theorem Same_iff {W : Key → Item → Item → Prop} {k : Key} {t u : Tree Item} : Same W k t u ↔ Pair (W k) W t u := by
  cases t; cases u
  simp only [Same, Pair, Tree.visible, Tree.root, Tree.kids]

mutual
theorem Same.imp {R R' : Key → Item → Item → Prop} (hR : ∀ k a b, k ≠ none → R k a b → R' k a b) :
    ∀ {t u : Tree Item} {k : Key}, k ≠ none → Same R k t u → Same R' k t u
  | .node v a ks, .node w b ls, k, hk, h => by
    simp only [Same] at h ⊢
    exact ⟨h.1, fun hv => ⟨hR _ _ _ hk (h.2 hv).1, Sames.imp hR (by simp [Item.key]) (h.2 hv).2⟩⟩
theorem Sames.imp {R R' : Key → Item → Item → Prop} (hR : ∀ k a b, k ≠ none → R k a b → R' k a b) :
    ∀ {ts us : List (Tree Item)} {k : Key}, k ≠ none → Sames R k ts us → Sames R' k ts us
  | [], [], _, _, _ => by simp only [Sames]
  | t :: ts, u :: us, k, hk, h => by
    simp only [Sames] at h ⊢
    exact ⟨Same.imp hR hk h.1, Sames.imp hR hk h.2⟩
  | [], _ :: _, _, _, h => by simp only [Sames] at h
  | _ :: _, [], _, _, h => by simp only [Sames] at h
end

theorem Pair.imp {R0 R0' : Item → Item → Prop} {W W' : Key → Item → Item → Prop} (h0 : ∀ a b, R0 a b → R0' a b)
    (hR : ∀ k a b, k ≠ none → W k a b → W' k a b) {t u : Tree Item} (h : Pair R0 W t u) : Pair R0' W' t u :=
  ⟨h.1, fun hv => ⟨h0 _ _ (h.2 hv).1, Sames.imp hR (by simp [Item.key]) (h.2 hv).2⟩⟩

theorem Sames.roots {W : Key → Item → Item → Prop} : ∀ {ts us : List (Tree Item)} {k : Key}, Sames W k ts us →
    List.Forall₂ (W k) (Tree.roots ts) (Tree.roots us)
  | [], [], _, _ => .nil
  | .node v a ks :: ts, .node w b ls :: us, k, h => by
    simp only [Sames, Same] at h
    obtain ⟨⟨rfl, h1⟩, h2⟩ := h
    cases v with
    | false => simpa [Tree.roots, Tree.visible] using h2.roots
    | true =>
      simp only [Tree.roots, Tree.visible, if_true, Tree.root]
      exact .cons (h1 rfl).1 h2.roots
  | [], _ :: _, _, h => by simp only [Sames] at h
  | _ :: _, [], _, h => by simp only [Sames] at h

theorem roots_of_pairs {M : Item → Item → Prop} {W : Key → Item → Item → Prop} {ts us : List (Tree Item)}
    (h : List.Forall₂ (Pair M W) ts us) : List.Forall₂ M (Tree.roots ts) (Tree.roots us) := by
  induction h with
  | nil => exact .nil
  | @cons t u ts us h _ ih =>
    obtain ⟨hv, h1⟩ := h
    simp only [Tree.roots]
    rw [← hv]
    split
    · rename_i hv'
      exact .cons (h1 hv').1 ih
    · exact ih

theorem setRoots_pairs {M : Item → Item → Prop} {W : Key → Item → Item → Prop} {k : Key} {ts us : List (Tree Item)}
    (h : List.Forall₂ (Pair M W) ts us) :
    ∀ {as bs : List Item}, as.map Item.key = (Tree.roots ts).map Item.key → List.Forall₂ (W k) as bs →
      Sames W k (Tree.setRoots ts as) (Tree.setRoots us bs) := by
  induction h with
  | nil => intros; simp [Tree.setRoots, Sames]
  | @cons t u ts us h _ ih =>
    intro as bs hl hw
    obtain ⟨hv, h1⟩ := h
    simp only [Tree.setRoots]
    simp only [Tree.roots] at hl
    rw [← hv]
    split
    · rename_i hv'
      rw [if_pos hv'] at hl
      cases hw with
      | nil => simp at hl
      | cons hab hw =>
        simp only [List.map_cons, List.cons.injEq] at hl
        simp only [Sames]
        refine ⟨?_, ih hl.2 hw⟩
        have h2 := (h1 hv').2
        cases t; cases u
        simp only [Tree.setRoot, Tree.visible, Tree.kids, Tree.root, Same] at *
        exact ⟨hv, fun _ => ⟨hab, by rw [hl.1]; exact h2⟩⟩
    · rename_i hv'
      rw [if_neg hv'] at hl
      simp only [Sames]
      refine ⟨?_, ih hl hw⟩
      cases t; cases u
      simp only [Tree.visible, Same] at *
      exact ⟨hv, fun h => absurd h hv'⟩

section
variable {f : Item → List Item → Except Err (Item × List Item)} {R M W : Key → Item → Item → Prop}
    (hf : ∀ k a b ks ls, R k a b → List.Forall₂ (M a.key) ks ls →
      ERel (fun x y => M k x.1 y.1 ∧ List.Forall₂ (W a.key) x.2 y.2 ∧ x.2.map Item.key = ks.map Item.key ∧
        x.1.key = a.key) (f a ks) (f b ls))
include hf

mutual
theorem post_rel : ∀ (t u : Tree Item) (k : Key), Same R k t u → ERel (Pair (M k) W) (t.post f) (u.post f)
  | .node v a ks, .node w b ls, k, h => by
    simp only [Same] at h
    obtain ⟨rfl, h⟩ := h
    cases v with
    | false => simp [Tree.post, ERel, Pair, Tree.visible]
    | true =>
      obtain ⟨h1, h2⟩ := h rfl
      simp only [Tree.post]
      refine (posts_rel ks ls a.key h2).bind ?_
      intro ks' ls' hk
      refine (hf k a b _ _ h1 (roots_of_pairs hk)).bind ?_
      rintro ⟨a', as⟩ ⟨b', bs⟩ ⟨m1, m2, m3, m4⟩
      refine ⟨rfl, fun _ => ⟨m1, ?_⟩⟩
      simp only at m4
      simp only [Tree.root, Tree.kids, m4]
      exact setRoots_pairs hk m3 m2
theorem posts_rel : ∀ (ts us : List (Tree Item)) (k : Key), Sames R k ts us →
    ERel (List.Forall₂ (Pair (M k) W)) (Tree.post.posts f ts) (Tree.post.posts f us)
  | [], [], _, _ => by simp [Tree.post.posts, ERel]
  | t :: ts, u :: us, k, h => by
    simp only [Sames] at h
    simp only [Tree.post.posts]
    refine (post_rel t u k h.1).bind ?_
    intro t' u' h1
    refine (posts_rel ts us k h.2).bind ?_
    intro ts' us' h2
    exact .cons h1 h2
  | [], _ :: _, _, h => by simp only [Sames] at h
  | _ :: _, [], _, h => by simp only [Sames] at h
end
end

section
variable {f : Item → List Item → Except Err (Item × List Item × Bool)} {B A A' : Key → Item → Item → Prop}

/-- What a member function of a preorder traversal does with related views. -/
def PreStep (f : Item → List Item → Except Err (Item × List Item × Bool)) (A0 : Item → Item → Prop)
    (B A : Key → Item → Item → Prop) (A0' : Item → Item → Prop) : Prop :=
  ∀ a b ks ls, A0 a b → List.Forall₂ (B a.key) ks ls →
      ERel (fun x y => A0' x.1 y.1 ∧ List.Forall₂ (A a.key) x.2.1 y.2.1 ∧ x.2.2 = y.2.2 ∧
        x.2.1.map Item.key = ks.map Item.key ∧ x.1.key = a.key) (f a ks) (f b ls)

variable (hf : ∀ k, k ≠ none → PreStep f (A k) B A (A' k))
include hf

mutual
theorem preAt_rel : ∀ (t u : Tree Item) (a b : Item) (k : Key), k ≠ none → Same B k t u → A k a b → a.key = t.root.key →
    ERel (fun x y => Same A' k x.1 y.1 ∧ x.2 = y.2) (t.preAt f a) (u.preAt f b)
  | .node v a0 ks, .node w b0 ls, a, b, k, hk, h, hab, hkey => by
    simp only [Same] at h
    obtain ⟨rfl, h⟩ := h
    cases v with
    | false => simp [Tree.preAt, ERel, Same]
    | true =>
      obtain ⟨_, h2⟩ := h rfl
      simp only [Tree.root] at hkey
      rw [← hkey] at h2
      simp only [Tree.preAt]
      refine (hf k hk a b _ _ hab h2.roots).bind ?_
      rintro ⟨a', as, x⟩ ⟨b', bs, y⟩ ⟨m1, m2, m3, m4, m5⟩
      refine (pres_rel ks ls as bs _ (by simp [Item.key]) h2 m2 m4).bind ?_
      rintro ⟨ks', x'⟩ ⟨ls', y'⟩ ⟨n1, n2⟩
      simp only at m3 n1 n2 m1 m5
      simp only [ERel, Same, m3, n2, and_true, true_and]
      exact fun _ => ⟨m1, by rw [m5]; exact n1⟩
theorem pres_rel : ∀ (ts us : List (Tree Item)) (as bs : List Item) (k : Key), k ≠ none → Sames B k ts us →
    List.Forall₂ (A k) as bs → as.map Item.key = (Tree.roots ts).map Item.key →
    ERel (fun x y => Sames A' k x.1 y.1 ∧ x.2 = y.2) (Tree.pre.pres f ts as) (Tree.pre.pres f us bs)
  | [], [], _, _, _, _, _, _, _ => by simp [Tree.pre.pres, ERel, Sames]
  | .node v a ks :: ts, .node w b ls :: us, as, bs, k, hk, h, hab, hl => by
    simp only [Sames] at h
    have hvw : v = w := by have := h.1; simp only [Same] at this; exact this.1
    subst hvw
    simp only [Tree.roots, Tree.visible, Tree.root] at hl
    simp only [Tree.pre.pres, Tree.visible, Tree.root]
    cases v with
    | false =>
      simp only [Bool.false_eq_true, if_false] at hl ⊢
      refine (pres_rel ts us as bs k hk h.2 hab hl).bind ?_
      rintro ⟨ts', x⟩ ⟨us', y⟩ ⟨n1, n2⟩
      simp only at n1 n2
      simp only [ERel, Sames, Same, n2, and_true, true_and]
      exact ⟨by simp, n1⟩
    | true =>
      simp only [if_true] at hl ⊢
      cases hab with
      | nil => simp at hl
      | @cons x y xs ys hxy hab =>
        simp only [List.map_cons, List.cons.injEq] at hl
        simp only [List.headD_cons, List.tail_cons]
        refine (preAt_rel (.node true a ks) (.node true b ls) x y k hk h.1 hxy hl.1).bind ?_
        rintro ⟨t', x1⟩ ⟨u', y1⟩ ⟨p1, p2⟩
        refine (pres_rel ts us xs ys k hk h.2 hab hl.2).bind ?_
        rintro ⟨ts', x2⟩ ⟨us', y2⟩ ⟨n1, n2⟩
        simp only at p1 p2 n1 n2
        simp only [ERel, Sames, n2, p2, and_true]
        exact ⟨p1, n1⟩
  | [], _ :: _, _, _, _, _, h, _, _ => by simp only [Sames] at h
  | _ :: _, [], _, _, _, _, h, _, _ => by simp only [Sames] at h
end

/-- A preorder traversal: the topmost view is related by `A0` before and `A0'` after. -/
theorem pre_rel {A0 A0' : Item → Item → Prop} (h0 : PreStep f A0 B A A0') {t u : Tree Item} (h : Pair A0 B t u) :
    ERel (fun x y => Pair A0' A' x.1 y.1 ∧ x.2 = y.2) (t.pre f) (u.pre f) := by
  match t, u, h with
  | .node v a ks, .node w b ls, h =>
    obtain ⟨hv, h⟩ := h
    simp only [Tree.visible] at hv h
    subst hv
    cases v with
    | false => simp [Tree.pre, Tree.preAt, ERel, Pair, Tree.visible]
    | true =>
      obtain ⟨h1, h2⟩ := h rfl
      simp only [Tree.root, Tree.kids] at h1 h2
      simp only [Tree.pre, Tree.preAt, Tree.root]
      refine (h0 a b _ _ h1 h2.roots).bind ?_
      rintro ⟨a', as, x⟩ ⟨b', bs, y⟩ ⟨m1, m2, m3, m4, m5⟩
      refine (pres_rel hf ks ls as bs _ (by simp [Item.key]) h2 m2 m4).bind ?_
      rintro ⟨ks', x'⟩ ⟨ls', y'⟩ ⟨n1, n2⟩
      simp only at m3 n1 n2 m1 m5
      simp only [ERel, m3, n2, and_true]
      refine ⟨rfl, fun _ => ⟨m1, ?_⟩⟩
      simp only [Tree.root, Tree.kids, m5]
      exact n1
end

end Verif.Eve
