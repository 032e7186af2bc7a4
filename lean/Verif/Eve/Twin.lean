import Verif.Eve.Props
/-! The two coordinate systems, for a whole layout. -/
namespace Verif.Eve

/-- A view without its position. -/
def Item.noPos (i : Item) : Item := { i with place := i.place.at 0 }

theorem noPos_push (i : Item) : (pushGuides i).noPos = pushGuides i.noPos := by
  cases h : i.align <;> simp [pushGuides, Item.noPos, Place.at, h]

theorem noPos_push_eq {a b : Item} (h : a.noPos = b.noPos) : (pushGuides a).noPos = (pushGuides b).noPos := by
  rw [noPos_push, noPos_push, h]

theorem flattenStep_noPos {o : Options} {a a' : Item} {ks ks' : List Item} {b : Bool}
    (h : flattenStep o a ks = .ok (a', ks', b)) : a' = pushGuides a ∧ ks'.map Item.noPos = ks.map Item.noPos := by
  unfold flattenStep at h
  dsimp only at h
  split at h
  · simp only [Except.ok.injEq, Prod.mk.injEq] at h
    obtain ⟨rfl, rfl, _⟩ := h
    exact ⟨rfl, rfl⟩
  · simp only [Except.ok.injEq, Prod.mk.injEq] at h
    obtain ⟨rfl, rfl, _⟩ := h
    refine ⟨rfl, ?_⟩
    rw [List.map_map]
    rfl

theorem headD_noPos {as bs : List Item} {x : Item} (h : as.map Item.noPos = (x :: bs).map Item.noPos) (a : Item) :
    (as.headD a).noPos = x.noPos ∧ as.tail.map Item.noPos = bs.map Item.noPos := by
  cases as with
  | nil => simp at h
  | cons c cs =>
    simp only [List.map_cons, List.cons.injEq] at h
    exact ⟨h.1, h.2⟩

theorem pres_noPos {o : Options} : ∀ (n : Nat) (ts : List (Tree Item)) (as : List Item) (ts' : List (Tree Item)) (b : Bool),
    Tree.count.counts ts ≤ n → as.map Item.noPos = (Tree.roots ts).map Item.noPos →
    Tree.pre.pres (flattenStep o) ts as = .ok (ts', b) →
    Tree.map.maps Item.noPos ts' = Tree.map.maps Item.noPos (Tree.mapVisible.mapVisibles pushGuides ts)
  | _, [], as, ts', b, _, _, h => by
    simp only [Tree.pres_nil, Tree.pres_false, Tree.pres_true, Except.ok.injEq, Prod.mk.injEq] at h
    rw [← h.1]; rfl
  | 0, .node v a ks :: ts, as, ts', b, hn, _, _ => by simp [Tree.count.counts, Tree.count] at hn
  | n + 1, .node false a ks :: ts, as, ts', b, hn, ha, h => by
    obtain ⟨ts1, h1, rfl⟩ := Tree.pres_false_ok h
    have := pres_noPos n ts as ts1 _ (by simp [Tree.count.counts, Tree.count] at hn; omega)
      (by simpa [Tree.roots, Tree.visible] using ha) h1
    simp only [Tree.map.maps, Tree.mapVisible.mapVisibles, Tree.mapVisible, this]
  | n + 1, .node true a ks :: ts, as, ts', b, hn, ha, h => by
    simp only [Tree.pres_nil, Tree.pres_false, Tree.pres_true] at h
    obtain ⟨⟨a', as', b1⟩, h1, h⟩ := ok_bind h
    obtain ⟨⟨ks', b2⟩, h2, h⟩ := ok_bind h
    obtain ⟨⟨ts1, b3⟩, h3, h⟩ := ok_bind h
    dsimp only at h2 h3 h
    simp only [Except.ok.injEq, Prod.mk.injEq] at h
    rw [← h.1]
    obtain ⟨e1, e2⟩ := flattenStep_noPos h1
    have hr : Tree.roots (.node true a ks :: ts) = a :: Tree.roots ts := by simp [Tree.roots, Tree.visible, Tree.root]
    rw [hr] at ha
    obtain ⟨k1, k2⟩ := headD_noPos ha a
    have g1 := pres_noPos n ks as' ks' _ (by simp [Tree.count.counts, Tree.count] at hn; omega) e2 h2
    have g2 := pres_noPos n ts as.tail ts1 _ (by simp [Tree.count.counts, Tree.count] at hn; omega) k2 h3
    simp only [Tree.map.maps, Tree.mapVisible.mapVisibles, Tree.mapVisible, Tree.map, g1, g2, e1]
    rw [noPos_push_eq k1]

theorem pre_noPos {o : Options} {t t' : Tree Item} {b : Bool} (h : t.pre (flattenStep o) = .ok (t', b)) :
    t'.map Item.noPos = (t.mapVisible pushGuides).map Item.noPos := by
  match t, h with
  | .node false a ks, h =>
    simp only [Tree.pre_false, Tree.pre_true, Except.ok.injEq, Prod.mk.injEq] at h
    rw [← h.1]; rfl
  | .node true a ks, h =>
    obtain ⟨x', kx, c1, ksx, c2, e1, e2, rfl, _⟩ := Tree.pre_node_ok h
    obtain ⟨k1, k2⟩ := flattenStep_noPos e1
    have := pres_noPos _ ks kx ksx _ (Nat.le_refl _) k2 e2
    simp only [Tree.map, Tree.mapVisible, this, k1]

/-- Positions apart, the result of a slice does not depend on the coordinate system. -/
theorem run_noPos {rnd : Int → Int → Int → Int} {s : Slice} {o o' : Options} {length : Int} {t t1 t2 : Tree Item}
    (h1 : runSlice rnd s o length t = .ok t1) (h2 : runSlice rnd s o' length t = .ok t2) :
    t1.map Item.noPos = t2.map Item.noPos := by
  obtain ⟨ps⟩ := passes h1
  obtain ⟨qs⟩ := passes h2
  have e1 := qs.adjusted
  rw [ps.adjusted] at e1
  simp only [Except.ok.injEq] at e1
  have e2 := qs.solved
  rw [← e1, ps.solved] at e2
  simp only [Except.ok.injEq, Prod.mk.injEq] at e2
  have e3 := qs.laid
  rw [← e2.1, ps.laid] at e3
  simp only [Except.ok.injEq] at e3
  have e4 := qs.outset
  rw [← e3, ps.outset] at e4
  simp only [Except.ok.injEq] at e4
  have e5 := qs.flat
  rw [← e4] at e5
  rw [pre_noPos ps.flat, pre_noPos e5]

mutual
theorem Tree.map_map' {α β γ : Type} (f : α → β) (g : β → γ) : ∀ t : Tree α, (t.map f).map g = t.map (g ∘ f)
  | .node v a ks => by simp only [Tree.map, Tree.maps_maps f g ks]; rfl
theorem Tree.maps_maps {α β γ : Type} (f : α → β) (g : β → γ) : ∀ ts : List (Tree α),
    Tree.map.maps g (Tree.map.maps f ts) = Tree.map.maps (g ∘ f) ts
  | [] => rfl
  | t :: ts => by simp only [Tree.map.maps, Tree.map_map' f g t, Tree.maps_maps f g ts]
end

mutual
/-- Two maps together decide a third. -/
theorem Tree.map_pair {α β γ δ : Type} {f : α → β} {g : α → γ} {k : α → δ}
    (hk : ∀ a b, f a = f b → g a = g b → k a = k b) : ∀ t u : Tree α,
    t.map f = u.map f → t.map g = u.map g → t.map k = u.map k
  | .node v a ks, .node v' a' ks', h1, h2 => by
    simp only [Tree.map, Tree.node.injEq] at h1 h2 ⊢
    exact ⟨h1.1, hk _ _ h1.2.1 h2.2.1, Tree.maps_pair hk ks ks' h1.2.2 h2.2.2⟩
theorem Tree.maps_pair {α β γ δ : Type} {f : α → β} {g : α → γ} {k : α → δ}
    (hk : ∀ a b, f a = f b → g a = g b → k a = k b) : ∀ ts us : List (Tree α),
    Tree.map.maps f ts = Tree.map.maps f us → Tree.map.maps g ts = Tree.map.maps g us →
    Tree.map.maps k ts = Tree.map.maps k us
  | [], [], _, _ => rfl
  | [], u :: us, h, _ => by simp [Tree.map.maps] at h
  | t :: ts, [], h, _ => by simp [Tree.map.maps] at h
  | t :: ts, u :: us, h1, h2 => by
    simp only [Tree.map.maps, List.cons.injEq] at h1 h2 ⊢
    exact ⟨Tree.map_pair hk t u h1.1 h2.1, Tree.maps_pair hk ts us h1.2 h2.2⟩
end

mutual
theorem Tree.map_mapVisible {α β : Type} {f : α → α} {g : β → β} {k : α → β} (h : ∀ a, k (f a) = g (k a)) :
    ∀ t : Tree α, (t.mapVisible f).map k = (t.map k).mapVisible g
  | .node false a ks => by simp only [Tree.mapVisible, Tree.map]
  | .node true a ks => by simp only [Tree.mapVisible, Tree.map, h, Tree.maps_mapVisibles h ks]
theorem Tree.maps_mapVisibles {α β : Type} {f : α → α} {g : β → β} {k : α → β} (h : ∀ a, k (f a) = g (k a)) :
    ∀ ts : List (Tree α), Tree.map.maps k (Tree.mapVisible.mapVisibles f ts) = Tree.mapVisible.mapVisibles g (Tree.map.maps k ts)
  | [] => rfl
  | t :: ts => by
    simp only [Tree.map.maps, Tree.mapVisible.mapVisibles, Tree.map_mapVisible h t, Tree.maps_mapVisibles h ts]
end

mutual
theorem Tree.mapVisible_id {α : Type} : ∀ t : Tree α, t.mapVisible id = t
  | .node false a ks => by simp only [Tree.mapVisible]
  | .node true a ks => by simp only [Tree.mapVisible, Tree.mapVisibles_id ks, id]
theorem Tree.mapVisibles_id {α : Type} : ∀ ts : List (Tree α), Tree.mapVisible.mapVisibles id ts = ts
  | [] => rfl
  | t :: ts => by simp only [Tree.mapVisible.mapVisibles, Tree.mapVisible_id t, Tree.mapVisibles_id ts]
end

mutual
theorem Tree.mapVisible_congr {α β : Type} {f g : α → α} {k : α → β} : ∀ t : Tree α,
    t.Forall (fun a _ => k (f a) = k (g a)) → (t.mapVisible f).map k = (t.mapVisible g).map k
  | .node false a ks, _ => by simp only [Tree.mapVisible]
  | .node true a ks, h => by
    simp only [Tree.Forall] at h
    simp only [Tree.mapVisible, Tree.map, h.1, Tree.mapVisibles_congr ks h.2]
theorem Tree.mapVisibles_congr {α β : Type} {f g : α → α} {k : α → β} : ∀ ts : List (Tree α),
    Tree.Forall.Foralls (fun a _ => k (f a) = k (g a)) ts →
    Tree.map.maps k (Tree.mapVisible.mapVisibles f ts) = Tree.map.maps k (Tree.mapVisible.mapVisibles g ts)
  | [], _ => rfl
  | t :: ts, h => by
    simp only [Tree.Forall.Foralls] at h
    simp only [Tree.map.maps, Tree.mapVisible.mapVisibles, Tree.mapVisible_congr t h.1, Tree.mapVisibles_congr ts h.2]
end

/-- The vertical extents of a view do not depend on the horizontal position it was given. -/
def Proxy.indifferent (p : Proxy) : Prop :=
  ∀ f, p.measureVertical = some f → ∀ e v ph pv x, f e v (ph.at x) pv = f e v ph pv

/-- A view without its horizontal position. -/
def Proxy.noPos (p : Proxy) : Proxy := { p with h := p.h.noPos }

theorem calculateVertical_noPos {p : Proxy} (h : p.indifferent) :
    (calculateVertical p.noPos).v = (calculateVertical p).v := by
  unfold calculateVertical Proxy.noPos
  cases hm : p.measureVertical with
  | none => rfl
  | some f =>
    simp only
    congr 1
    exact h f hm _ _ _ _ _

/-- C65, for a whole layout. -/
theorem C65_layout_nested_is_flat {rnd : Int → Int → Int → Int} {width height wn hn wf hf : Int} {t tn tf : Tree Proxy}
    (en : adjust rnd .nested width height t = .ok (tn, wn, hn)) (ef : adjust rnd .flat width height t = .ok (tf, wf, hf))
    (hi : t.Forall (fun p _ => p.indifferent)) :
    (tn.map Proxy.h).absolute 0 = (tf.map Proxy.h).places ∧ (tn.map Proxy.v).absolute 0 = (tf.map Proxy.v).places ∧
      wn = wf ∧ hn = hf := by
  obtain ⟨t1, r1, a1, a2, a3, a4, a5, a6⟩ := adjust_parts en
  obtain ⟨t2, r2, b1, b2, b3, b4, b5, b6⟩ := adjust_parts ef
  have hc : ∀ p : Proxy, (calculateVertical p).h = p.h := by
    intro p; unfold calculateVertical; split <;> rfl
  have hh : ∀ (u u' : Tree Proxy), u'.map (Proxy.without .vertical) = (u.mapVisible calculateVertical).map (Proxy.without .vertical) →
      u'.map Proxy.h = u.map Proxy.h := by
    intro u u' e
    have e' := congrArg (Tree.map Proxy.h) e
    rw [Tree.map_map', Tree.map_map'] at e'
    have e2 : u'.map Proxy.h = (u.mapVisible calculateVertical).map Proxy.h := e'
    rw [e2, Tree.map_mapVisible (g := id) (fun a => hc a)]
    exact Tree.mapVisible_id _
  have n1 := hh _ _ a4
  have n2 := hh _ _ b4
  have np := run_noPos a1 b1
  have kk : t1.map Proxy.noPos = t2.map Proxy.noPos := by
    refine Tree.map_pair (f := fun p => p.h.noPos) (g := Proxy.without .horizontal) ?_ t1 t2 ?_ (a3.trans b3.symm)
    · intro a b e1 e2
      have e3 := congrArg Proxy.v e2
      have e4 := congrArg Proxy.measure e2
      have e5 := congrArg Proxy.measureVertical e2
      unfold Proxy.noPos
      rw [e1]
      cases a; cases b
      simp only [Proxy.without, Proxy.set] at e3 e4 e5
      subst e3 e4 e5
      rfl
    · rw [Tree.map_map', Tree.map_map'] at np
      exact np
  have hi1 : ∀ u : Tree Proxy, u.map (Proxy.without .horizontal) = t.map (Proxy.without .horizontal) →
      u.Forall (fun p _ => p.indifferent) := by
    intro u e
    have h2 : (t.map (Proxy.without .horizontal)).Forall (fun p _ => p.indifferent) :=
      (Tree.forall_map t).2 hi
    rw [← e, Tree.forall_map] at h2
    exact h2
  have vv : (t1.mapVisible calculateVertical).map Proxy.v = (t2.mapVisible calculateVertical).map Proxy.v := by
    have key : ∀ u : Tree Proxy, u.Forall (fun p _ => p.indifferent) →
        (u.mapVisible calculateVertical).map Proxy.v = ((u.map Proxy.noPos).mapVisible calculateVertical).map Proxy.v := by
      intro u hu
      have s1 : (u.mapVisible calculateVertical).map Proxy.v
          = (u.mapVisible (fun p => { p with v := (calculateVertical p.noPos).v })).map Proxy.v :=
        Tree.mapVisible_congr u (hu.imp (fun p _ h => (calculateVertical_noPos h).symm))
      rw [s1]
      have s2 : (u.mapVisible (fun p => { p with v := (calculateVertical p.noPos).v })).map Proxy.noPos
          = (u.map Proxy.noPos).mapVisible calculateVertical := by
        refine Tree.map_mapVisible (fun p => ?_) u
        unfold calculateVertical Proxy.noPos
        cases p.measureVertical <;> rfl
      rw [← s2, Tree.map_map']
      rfl
    rw [key t1 (hi1 t1 a3), key t2 (hi1 t2 b3), kk]
  rw [← vv] at b2
  refine ⟨?_, C65_nested_is_flat a2 b2, ?_, ?_⟩
  · rw [n1, n2]
    exact C65_nested_is_flat a1 b1
  · have := congrArg Tree.root np
    rw [← n1, ← n2] at this
    rw [Tree.map_root, Tree.map_root, Tree.map_root, Tree.map_root] at this
    have := congrArg (fun i : Item => i.place.length) this
    rw [a5, b5]; exact this
  · have := congrArg Tree.root (run_noPos a2 b2)
    rw [Tree.map_root, Tree.map_root, Tree.map_root, Tree.map_root] at this
    have := congrArg (fun i : Item => i.place.length) this
    rw [a6, b6]; exact this

end Verif.Eve
