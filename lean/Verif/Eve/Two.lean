import Verif.Eve.Run
/-! The two slices of a view: a pass over one of them is the pass over that slice alone. -/
namespace Verif.Eve
namespace Tree
variable {α β : Type}

/-- The tree with other data. -/
def map (f : α → β) : Tree α → Tree β
  | .node v a ks => .node v (f a) (maps ks)
where
  maps : List (Tree α) → List (Tree β)
    | [] => []
    | t :: ts => map f t :: maps ts

@[simp] theorem map_visible (f : α → β) (t : Tree α) : (t.map f).visible = t.visible := by
  cases t; simp [map, visible]
@[simp] theorem map_root (f : α → β) (t : Tree α) : (t.map f).root = f t.root := by
  cases t; simp [map, root]
theorem map_setRoot (f : α → β) (t : Tree α) (a : α) : (t.setRoot a).map f = (t.map f).setRoot (f a) := by
  cases t; simp [map, setRoot, visible, kids]

theorem roots_maps (f : α → β) : ∀ ts : List (Tree α), roots (map.maps f ts) = (roots ts).map f
  | [] => rfl
  | t :: ts => by
    simp only [map.maps, roots, map_visible, map_root, roots_maps f ts]
    split <;> simp

theorem maps_setRoots (f : α → β) : ∀ (ts : List (Tree α)) (as : List α),
    map.maps f (setRoots ts as) = setRoots (map.maps f ts) (as.map f)
  | [], as => by simp [setRoots, map.maps]
  | t :: ts, as => by
    simp only [map.maps, setRoots, map_visible]
    split
    · cases as with
      | nil => simp only [map.maps, List.map_nil]; rw [maps_setRoots f ts []]; rfl
      | cons a as => simp only [map.maps, List.map_cons]; rw [maps_setRoots f ts as, map_setRoot]
    · simp only [map.maps]; rw [maps_setRoots f ts as]

mutual
theorem count_map (f : α → β) : ∀ t : Tree α, (t.map f).count = t.count
  | .node v a ks => by simp only [map, count, counts_map f ks]
theorem counts_map (f : α → β) : ∀ ts : List (Tree α), count.counts (map.maps f ts) = count.counts ts
  | [] => rfl
  | t :: ts => by simp only [map.maps, count.counts, counts_map f ts, count_map f t]
end

theorem setRoots_short : ∀ (ts : List (Tree α)) (as bs : List α), (roots ts).length ≤ as.length →
    setRoots ts (as ++ bs) = setRoots ts as
  | [], _, _, _ => rfl
  | t :: ts, as, bs, h => by
    simp only [setRoots, roots] at h ⊢
    split
    · rename_i hv
      simp only [hv, if_true, List.length_cons] at h
      cases as with
      | nil => simp at h
      | cons a as =>
        simp only [List.cons_append]
        rw [setRoots_short ts as bs (by simpa using h)]
    · rename_i hv
      rw [if_neg hv] at h
      rw [setRoots_short ts as bs h]

end Tree

/-- A view without the data of one slice. -/
def Proxy.without (s : Slice) (p : Proxy) : Proxy := p.set s {}

@[simp] theorem get_set (s : Slice) (p : Proxy) (i : Item) : (p.set s i).get s = i := by cases s <;> rfl
@[simp] theorem without_set (s : Slice) (p : Proxy) (i : Item) : (p.set s i).without s = p.without s := by
  cases s <;> rfl

/-- A member function that leaves the number of children alone. -/
def KeepsCount {γ : Type} (f : Item → List Item → Except Err γ) (g : γ → List Item) : Prop :=
  ∀ a ks r, f a ks = .ok r → (g r).length = ks.length

theorem map_zip_get (s : Slice) : ∀ (ks : List Proxy) (is : List Item), is.length = ks.length →
    (List.zipWith (Proxy.set s) ks is).map (Proxy.get s) = is
  | [], [], _ => rfl
  | [], _ :: _, h => by simp at h
  | _ :: _, [], h => by simp at h
  | k :: ks, i :: is, h => by
    simp only [List.zipWith_cons_cons, List.map_cons, get_set]
    rw [map_zip_get s ks is (by simpa using h)]

theorem map_zip_without (s : Slice) : ∀ (ks : List Proxy) (is : List Item), is.length = ks.length →
    (List.zipWith (Proxy.set s) ks is).map (Proxy.without s) = ks.map (Proxy.without s)
  | [], [], _ => rfl
  | [], _ :: _, h => by simp at h
  | _ :: _, [], h => by simp at h
  | k :: ks, i :: is, h => by
    simp only [List.zipWith_cons_cons, List.map_cons, without_set]
    rw [map_zip_without s ks is (by simpa using h)]

theorem liftStep_ok {s : Slice} {f : Item → List Item → Except Err (Item × List Item)} {p p' : Proxy}
    {ks ks' : List Proxy} (h : liftStep s f p ks = .ok (p', ks')) :
    ∃ i is, f (p.get s) (ks.map (Proxy.get s)) = .ok (i, is) ∧ p' = p.set s i ∧
      ks' = List.zipWith (Proxy.set s) ks is := by
  unfold liftStep at h
  obtain ⟨⟨i, is⟩, h1, h2⟩ := ok_bind h
  simp only [Except.ok.injEq, Prod.mk.injEq] at h2
  exact ⟨i, is, h1, h2.1.symm, h2.2.symm⟩

theorem liftStep'_ok {s : Slice} {f : Item → List Item → Except Err (Item × List Item × Bool)} {p p' : Proxy}
    {ks ks' : List Proxy} {b : Bool} (h : liftStep' s f p ks = .ok (p', ks', b)) :
    ∃ i is, f (p.get s) (ks.map (Proxy.get s)) = .ok (i, is, b) ∧ p' = p.set s i ∧
      ks' = List.zipWith (Proxy.set s) ks is := by
  unfold liftStep' at h
  obtain ⟨⟨i, is, b'⟩, h1, h2⟩ := ok_bind h
  simp only [Except.ok.injEq, Prod.mk.injEq] at h2
  obtain ⟨h3, h4, rfl⟩ := h2
  exact ⟨i, is, h1, h3.symm, h4.symm⟩

section
variable {s : Slice} {f : Item → List Item → Except Err (Item × List Item)}
  (hf : KeepsCount f (fun r => r.2))
include hf

mutual
theorem post_lift : ∀ (t t' : Tree Proxy), t.post (liftStep s f) = .ok t' →
    (t.map (Proxy.get s)).post f = .ok (t'.map (Proxy.get s)) ∧
    t'.map (Proxy.without s) = t.map (Proxy.without s)
  | .node false a ks, t', h => by
    simp only [Tree.post, Except.ok.injEq] at h
    subst h
    simp [Tree.map, Tree.post]
  | .node true a ks, t', h => by
    obtain ⟨ks', a', as', h1, h2, rfl⟩ := Tree.post_node_ok h
    obtain ⟨i, is, h3, rfl, rfl⟩ := liftStep_ok h2
    obtain ⟨g1, g2⟩ := posts_lift ks ks' h1
    have hlen : is.length = (Tree.roots ks').length := by
      have := hf _ _ _ h3; simpa using this
    constructor
    · simp only [Tree.map, Tree.post, g1, bind, Except.bind]
      rw [Tree.roots_maps, h3]
      simp only [get_set, Tree.maps_setRoots]
      rw [map_zip_get s _ _ hlen]
    · simp only [Tree.map, Tree.maps_setRoots, without_set]
      rw [map_zip_without s _ _ hlen, ← Tree.roots_maps, Tree.setRoots_roots, g2]
theorem posts_lift : ∀ (ts ts' : List (Tree Proxy)), Tree.post.posts (liftStep s f) ts = .ok ts' →
    Tree.post.posts f (Tree.map.maps (Proxy.get s) ts) = .ok (Tree.map.maps (Proxy.get s) ts') ∧
    Tree.map.maps (Proxy.without s) ts' = Tree.map.maps (Proxy.without s) ts
  | [], ts', h => by
    simp only [Tree.post.posts, Except.ok.injEq] at h
    subst h
    simp [Tree.map.maps, Tree.post.posts]
  | t :: ts, ts', h => by
    obtain ⟨u, us, h1, h2, rfl⟩ := Tree.posts_cons_ok h
    obtain ⟨a1, a2⟩ := post_lift t u h1
    obtain ⟨b1, b2⟩ := posts_lift ts us h2
    simp only [Tree.map.maps, Tree.post.posts, a1, b1, bind, Except.bind, a2, b2]
    trivial
end
end

section
variable {s : Slice} {f : Item → List Item → Except Err (Item × List Item × Bool)}
  (hf : KeepsCount f (fun r => r.2.1))
include hf

theorem pres_lift : ∀ (n : Nat) (ts : List (Tree Proxy)) (as : List Proxy) (ts' : List (Tree Proxy)) (b : Bool),
    Tree.count.counts ts ≤ n → as.length = (Tree.roots ts).length →
    as.map (Proxy.without s) = (Tree.roots ts).map (Proxy.without s) →
    Tree.pre.pres (liftStep' s f) ts as = .ok (ts', b) →
    Tree.pre.pres f (Tree.map.maps (Proxy.get s) ts) (as.map (Proxy.get s))
      = .ok (Tree.map.maps (Proxy.get s) ts', b) ∧
    Tree.map.maps (Proxy.without s) ts' = Tree.map.maps (Proxy.without s) ts
  | n, [], as, ts', b, _, _, _, h => by
    simp only [Tree.pres_nil, Tree.pres_false, Tree.pres_true, Except.ok.injEq, Prod.mk.injEq] at h
    obtain ⟨rfl, rfl⟩ := h
    simp [Tree.map.maps, Tree.pres_nil, Tree.pres_false, Tree.pres_true]
  | n, .node false a ks :: ts, as, ts', b, hn, hl, hw, h => by
    obtain ⟨us, h1, rfl⟩ := Tree.pres_false_ok h
    simp only [Tree.count.counts, Tree.count] at hn
    simp only [Tree.roots, Tree.visible, Bool.false_eq_true, if_false] at hl hw
    cases n with
    | zero => omega
    | succ n =>
      obtain ⟨a1, a2⟩ := pres_lift n ts as us b (by omega) hl hw h1
      simp only [Tree.map.maps, Tree.map, Tree.pres_nil, Tree.pres_false, Tree.pres_true, a1, a2, bind, Except.bind]
      trivial
  | n, .node true a ks :: ts, as, ts', b, hn, hl, hw, h => by
    obtain ⟨t', b1, us, b2, h1, h2, rfl, rfl⟩ := Tree.pres_true_ok h
    obtain ⟨a', as', c1, ks', c2, e1, e2, rfl, rfl⟩ := Tree.pre_node_ok h1
    obtain ⟨i, is, h3, rfl, rfl⟩ := liftStep'_ok e1
    simp only [Tree.count.counts, Tree.count] at hn
    simp only [Tree.roots, Tree.visible, if_true, Tree.root, List.length_cons, List.map_cons] at hl hw
    cases n with
    | zero => omega
    | succ n =>
    cases as with
    | nil => simp at hl
    | cons x xs =>
      have hlen : is.length = (Tree.roots ks).length := by
        have := hf _ _ _ h3; simpa using this
      obtain ⟨a1, a2⟩ := pres_lift n ks _ ks' c2 (by omega) (by simp [hlen])
        (map_zip_without s _ _ hlen) e2
      simp only [List.map_cons, List.cons.injEq] at hw
      obtain ⟨d1, d2⟩ := pres_lift n ts xs us b2 (by omega) (by simpa using hl) hw.2 h2
      rw [map_zip_get s _ _ hlen] at a1
      constructor
      · simp only [Tree.map.maps, Tree.map, Tree.pres_nil, Tree.pres_false, Tree.pres_true, List.map_cons, List.headD_cons, List.tail_cons]
        rw [Tree.roots_maps]
        simp only [List.headD_cons] at h3
        simp only [h3, bind, Except.bind, a1, d1, get_set]
      · simp only [Tree.map.maps, Tree.map, without_set, List.headD_cons, a2, d2, hw.1]

theorem pre_lift {t t' : Tree Proxy} {b : Bool} (h : t.pre (liftStep' s f) = .ok (t', b)) :
    (t.map (Proxy.get s)).pre f = .ok (t'.map (Proxy.get s), b) ∧
    t'.map (Proxy.without s) = t.map (Proxy.without s) := by
  match t, h with
  | .node false a ks, h =>
    simp only [Tree.pre_false, Tree.pre_true, Except.ok.injEq, Prod.mk.injEq] at h
    obtain ⟨rfl, rfl⟩ := h
    simp [Tree.map, Tree.pre_false, Tree.pre_true]
  | .node true a ks, h =>
    obtain ⟨a', as', c1, ks', c2, e1, e2, rfl, rfl⟩ := Tree.pre_node_ok h
    obtain ⟨i, is, h3, rfl, rfl⟩ := liftStep'_ok e1
    have hlen : is.length = (Tree.roots ks).length := by
      have := hf _ _ _ h3; simpa using this
    obtain ⟨a1, a2⟩ := pres_lift hf _ ks _ ks' c2 (Nat.le_refl _) (by simp [hlen])
      (map_zip_without s _ _ hlen) e2
    rw [map_zip_get s _ _ hlen] at a1
    constructor
    · simp only [Tree.map, Tree.pre_false, Tree.pre_true]
      rw [Tree.roots_maps, h3]
      simp only [bind, Except.bind, a1, get_set]
    · simp only [Tree.map, without_set, a2]
end

end Verif.Eve
