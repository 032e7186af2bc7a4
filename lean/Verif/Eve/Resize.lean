import Verif.Eve.ResizeSpec
/-! A layout depends on the views and the size, not on the layouts before it. -/
namespace Verif.Eve

/-! ### two trees side by side -/

mutual
/-- The same views are visible, and they are related. -/
def VisRel {α β : Type} (R : α → β → Prop) : Tree α → Tree β → Prop
  | .node v a ks, .node w b ls => v = w ∧ (v = true → R a b ∧ VisRels R ks ls)
def VisRels {α β : Type} (R : α → β → Prop) : List (Tree α) → List (Tree β) → Prop
  | [], [] => True
  | t :: ts, u :: us => VisRel R t u ∧ VisRels R ts us
  | _, _ => False
end

mutual
theorem VisRel.map {α β γ δ : Type} {R : α → β → Prop} {f : γ → α} {g : δ → β} : ∀ {t : Tree γ} {u : Tree δ},
    VisRel R (t.map f) (u.map g) ↔ VisRel (fun a b => R (f a) (g b)) t u
  | .node v a ks, .node w b ls => by
    simp only [Tree.map, VisRel, VisRels.map (R := R) (f := f) (g := g)]
theorem VisRels.map {α β γ δ : Type} {R : α → β → Prop} {f : γ → α} {g : δ → β} : ∀ {ts : List (Tree γ)} {us : List (Tree δ)},
    VisRels R (Tree.map.maps f ts) (Tree.map.maps g us) ↔ VisRels (fun a b => R (f a) (g b)) ts us
  | [], [] => by simp only [Tree.map.maps, VisRels]
  | [], _ :: _ => by simp only [Tree.map.maps, VisRels]
  | _ :: _, [] => by simp only [Tree.map.maps, VisRels]
  | t :: ts, u :: us => by
    simp only [Tree.map.maps, VisRels, VisRel.map (R := R) (f := f) (g := g), VisRels.map (R := R) (f := f) (g := g)]
end

mutual
theorem VisRel.of_same : ∀ {k : Key} {t u : Tree Item}, Same EqR k t u → VisRel Eq t u
  | k, .node v a ks, .node w b ls, h => by
    simp only [Same] at h
    simp only [VisRel]
    exact ⟨h.1, fun hv => ⟨(h.2 hv).1, VisRels.of_sames (h.2 hv).2⟩⟩
theorem VisRels.of_sames : ∀ {k : Key} {ts us : List (Tree Item)}, Sames EqR k ts us → VisRels Eq ts us
  | _, [], [], _ => by simp only [VisRels]
  | _, [], _ :: _, h => by simp only [Sames] at h
  | _, _ :: _, [], h => by simp only [Sames] at h
  | _, t :: ts, u :: us, h => by
    simp only [Sames] at h
    simp only [VisRels]
    exact ⟨VisRel.of_same h.1, VisRels.of_sames h.2⟩
end

mutual
theorem VisRel.places : ∀ {t u : Tree Item}, VisRel Eq t u → t.places = u.places
  | .node v a ks, .node w b ls, h => by
    simp only [VisRel] at h
    obtain ⟨rfl, h⟩ := h
    cases v with
    | false => simp only [Tree.places]
    | true =>
      obtain ⟨rfl, h2⟩ := h rfl
      simp only [Tree.places, VisRels.placess h2]
theorem VisRels.placess : ∀ {ts us : List (Tree Item)}, VisRels Eq ts us → Tree.places.placess ts = Tree.places.placess us
  | [], [], _ => rfl
  | [], _ :: _, h => by simp only [VisRels] at h
  | _ :: _, [], h => by simp only [VisRels] at h
  | t :: ts, u :: us, h => by
    simp only [VisRels] at h
    simp only [Tree.places.placess, VisRel.places h.1, VisRels.placess h.2]
end

theorem VisRel.of_pair {t u : Tree Item} (h : Pair Eq EqR t u) : VisRel Eq t u :=
  VisRel.of_same (k := none) (Same_iff.2 h)

/-! ### strip -/

mutual
theorem Tree.strip_map {α β : Type} (f : α → β) : ∀ t : Tree α, (t.map f).strip = t.strip.map f
  | .node v a ks => by simp only [Tree.map, Tree.strip, Tree.strips_maps f ks]
theorem Tree.strips_maps {α β : Type} (f : α → β) : ∀ ts : List (Tree α),
    Tree.strip.strips (Tree.map.maps f ts) = Tree.map.maps f (Tree.strip.strips ts)
  | [] => rfl
  | t :: ts => by simp only [Tree.map.maps, Tree.strip.strips, Tree.strip_map f t, Tree.strips_maps f ts]
end

mutual
theorem HistT_strip {s : Slice} : ∀ {k : Key} {t u : Tree Item}, HistT s k t.strip u.strip ↔ HistT s k t u
  | k, .node v a ks, .node w b ls => by simp only [Tree.strip, HistT, HistTs_strip]
theorem HistTs_strip {s : Slice} : ∀ {k : Key} {ts us : List (Tree Item)},
    HistTs s k (Tree.strip.strips ts) (Tree.strip.strips us) ↔ HistTs s k ts us
  | _, [], [] => by simp only [Tree.strip.strips, HistTs]
  | _, [], _ :: _ => by simp only [Tree.strip.strips, HistTs]
  | _, _ :: _, [] => by simp only [Tree.strip.strips, HistTs]
  | _, t :: ts, u :: us => by simp only [Tree.strip.strips, HistTs, HistT_strip, HistTs_strip]
end

theorem HistT.shown {s : Slice} {k : Key} {t t' u u' : Tree Item} (h : HistT s k t u) (ht : t'.strip = t.strip)
    (hu : u'.strip = u.strip) : HistT s k t' u' := by
  rw [← HistT_strip, ht, hu, HistT_strip]; exact h

mutual
theorem HistT.count {s : Slice} : ∀ {k : Key} {t u : Tree Item}, HistT s k t u → u.count = t.count
  | k, .node v a ks, .node w b ls, h => by
    simp only [HistT] at h
    simp only [Tree.count, HistTs.counts h.2]
theorem HistTs.counts {s : Slice} : ∀ {k : Key} {ts us : List (Tree Item)}, HistTs s k ts us →
    Tree.count.counts us = Tree.count.counts ts
  | _, [], [], _ => rfl
  | _, [], _ :: _, h => by simp only [HistTs] at h
  | _, _ :: _, [], h => by simp only [HistTs] at h
  | _, t :: ts, u :: us, h => by
    simp only [HistTs] at h
    simp only [Tree.count.counts, HistT.count h.1, HistTs.counts h.2]
end

mutual
theorem Tree.mapVisible_count {α : Type} (f : α → α) : ∀ t : Tree α, (t.mapVisible f).count = t.count
  | .node false a ks => by simp only [Tree.mapVisible]
  | .node true a ks => by simp only [Tree.mapVisible, Tree.count, Tree.mapVisibles_counts f ks]
theorem Tree.mapVisibles_counts {α : Type} (f : α → α) : ∀ ts : List (Tree α),
    Tree.count.counts (Tree.mapVisible.mapVisibles f ts) = Tree.count.counts ts
  | [] => rfl
  | t :: ts => by
    simp only [Tree.mapVisible.mapVisibles, Tree.count.counts, Tree.mapVisible_count f t, Tree.mapVisibles_counts f ts]
end

/-! ### the view as it was added, and later -/

/-- The placeable of the view. -/
def Proxy.stat (p : Proxy) : (Ext × Ext) × Option (Ext → Ext → Place → Place → Ext) := (p.measure, p.measureVertical)

/-- The views `t` are those of `t0` at a later time. -/
structure Later (t0 t : Tree Proxy) : Prop where
  hist : ∀ s, HistT s none (t0.map (Proxy.get s)) (t.map (Proxy.get s))
  stat : (t.map Proxy.stat).strip = (t0.map Proxy.stat).strip

theorem hist_self {s : Slice} {k : Key} {a : Item} (h : a.fwd = [] ∧ a.rev = [])
    (hk : ∀ pl ca, k = some (pl, ca) → pl ≠ .leaf ∧ ca ≠ .default) : Hist s k a a := by
  refine ⟨rfl, fun _ => rfl, ?_⟩
  cases k with
  | none => exact ⟨rfl, rfl, rfl, rfl, fun _ => ⟨rfl, rfl⟩⟩
  | some x =>
    obtain ⟨pl, ca⟩ := x
    obtain ⟨h1, h2⟩ := hk pl ca rfl
    exact ⟨h1, h2, .inl rfl, .inl rfl, fun _ => rfl, fun _ => ⟨fun _ => ⟨h.1, h.1⟩, fun _ => ⟨h.2, h.2⟩⟩⟩

mutual
theorem Fresh.histT (s : Slice) : ∀ (k : Key) (t : Tree Proxy), Fresh t →
    (∀ pl ca, k = some (pl, ca) → pl ≠ .leaf ∧ ca ≠ .default) → HistT s k (t.map (Proxy.get s)) (t.map (Proxy.get s))
  | k, .node v a ks, h, hk => by
    simp only [Fresh, Tree.All] at h
    simp only [Tree.map, HistT]
    have h1 := h.1.1 s
    refine ⟨hist_self ⟨h1.1, h1.2.1⟩ hk, Fresh.histTs s _ ks h.2 ?_⟩
    intro hne pl ca e
    have h2 := h1.2.2 hne
    simp only [Item.key, Option.some.injEq, Prod.mk.injEq] at e
    rw [← e.1, ← e.2]
    refine ⟨fun e' => ?_, h2.2⟩
    simp [Item.leaf, e'] at h2
theorem Fresh.histTs (s : Slice) : ∀ (k : Key) (ts : List (Tree Proxy)), Tree.All.Alls (fun p kids =>
    (∀ s, (p.get s).fwd = [] ∧ (p.get s).rev = [] ∧
      (kids ≠ [] → (p.get s).leaf = false ∧ (p.get s).childAlign ≠ .default)) ∧
    ∀ f, p.measureVertical = some f → ∀ e v ph pv pv', f e v ph pv = f e v ph pv') ts →
    (ts ≠ [] → ∀ pl ca, k = some (pl, ca) → pl ≠ .leaf ∧ ca ≠ .default) →
    HistTs s k (Tree.map.maps (Proxy.get s) ts) (Tree.map.maps (Proxy.get s) ts)
  | k, [], _, _ => by simp only [Tree.map.maps, HistTs]
  | k, t :: ts, h, hk => by
    simp only [Tree.All.Alls] at h
    simp only [Tree.map.maps, HistTs]
    exact ⟨Fresh.histT s k t h.1 (hk (by simp)), Fresh.histTs s k ts h.2 (fun _ => hk (by simp))⟩
end

theorem Later.refl {t : Tree Proxy} (h : Fresh t) : Later t t :=
  ⟨fun s => Fresh.histT s none t h (by simp), rfl⟩

theorem Later.shown {t0 t t' : Tree Proxy} (h : Later t0 t) (e : t'.strip = t.strip) : Later t0 t' := by
  refine ⟨fun s => (h.hist s).shown rfl ?_, ?_⟩
  · rw [Tree.strip_map, Tree.strip_map, e]
  · rw [← h.stat, Tree.strip_map, Tree.strip_map, e]

theorem Later.shown_left {t0 t t' : Tree Proxy} (h : Later t0 t) (e : t'.strip = t0.strip) : Later t' t := by
  refine ⟨fun s => (h.hist s).shown ?_ rfl, ?_⟩
  · rw [Tree.strip_map, Tree.strip_map, e]
  · rw [h.stat, Tree.strip_map, Tree.strip_map, e]

/-- What a view keeps is not touched. -/
theorem hev_keep {s : Slice} {k : Key} {b b' : Item} (h1 : b'.given = b.given) (h2 : b'.mlength = b.mlength)
    (h3 : b'.align = b.align) (h4 : b'.suppress = b.suppress) (h5 : b'.space = b.space)
    (h6 : b'.place.position = b.place.position) (h7 : b'.fwd = b.fwd) (h8 : b'.rev = b.rev) : Hev s k b b' := by
  refine ⟨given_key h1, fun a h => ⟨h1.trans h.1, fun hl => h2.trans (h.2.1 hl), ?_⟩⟩
  have h9 := h.2.2
  cases k with
  | none => simpa only [h3, h4, h5, h6, h7, h8] using h9
  | some x => simpa only [h3, h4, h5, h6, h7, h8] using h9

mutual
theorem mapVisible_evo {s : Slice} {f : Proxy → Proxy} (hf : ∀ k p, Hev s k (p.get s) ((f p).get s)) :
    ∀ (k : Key) (t : Tree Proxy), EvoT s k (t.map (Proxy.get s)) ((t.mapVisible f).map (Proxy.get s))
  | k, .node false a ks => by simp only [Tree.mapVisible]; exact EvoT.refl s k _
  | k, .node true a ks => by
    simp only [Tree.mapVisible, Tree.map, EvoT]
    exact ⟨trivial, hf k a, mapVisibles_evo hf _ ks⟩
theorem mapVisibles_evo {s : Slice} {f : Proxy → Proxy} (hf : ∀ k p, Hev s k (p.get s) ((f p).get s)) :
    ∀ (k : Key) (ts : List (Tree Proxy)), EvoTs s k (Tree.map.maps (Proxy.get s) ts)
      (Tree.map.maps (Proxy.get s) (Tree.mapVisible.mapVisibles f ts))
  | k, [] => by simp only [Tree.mapVisible.mapVisibles, Tree.map.maps, EvoTs]
  | k, t :: ts => by
    simp only [Tree.mapVisible.mapVisibles, Tree.map.maps, EvoTs]
    exact ⟨mapVisible_evo hf k t, mapVisibles_evo hf k ts⟩
end

theorem calculate_hev (s : Slice) (k : Key) (p : Proxy) : Hev s k (p.get s) ((calculate p).get s) := by
  cases s <;> exact hev_keep rfl rfl rfl rfl rfl rfl rfl rfl

theorem calculateVertical_h (p : Proxy) : (calculateVertical p).h = p.h := by unfold calculateVertical; split <;> rfl
theorem calculateVertical_stat (p : Proxy) : (calculateVertical p).stat = p.stat := by unfold calculateVertical; split <;> rfl

theorem calculateVertical_hev (s : Slice) (k : Key) (p : Proxy) : Hev s k (p.get s) ((calculateVertical p).get s) := by
  cases s with
  | horizontal =>
    have : (calculateVertical p).get .horizontal = p.get .horizontal := calculateVertical_h p
    rw [this]; exact Hev.refl _ _ _
  | vertical =>
    unfold calculateVertical
    split <;> exact hev_keep rfl rfl rfl rfl rfl rfl rfl rfl

theorem Later.mapVisible {t0 t : Tree Proxy} {f : Proxy → Proxy} (h : Later t0 t)
    (hf : ∀ s k p, Hev s k (p.get s) ((f p).get s)) (hs : ∀ p, (f p).stat = p.stat) : Later t0 (t.mapVisible f) := by
  refine ⟨fun s => (h.hist s).evo (mapVisible_evo (hf s) none t), ?_⟩
  rw [Tree.map_mapVisible (g := id) (fun a => hs a), Tree.mapVisible_id]
  exact h.stat

theorem map_of_without {s : Slice} {t u : Tree Proxy} (e : t.map (Proxy.without s) = u.map (Proxy.without s)) {γ : Type}
    (g : Proxy → γ) (hg : ∀ p, g (p.without s) = g p) : t.map g = u.map g := by
  have e' := congrArg (Tree.map g) e
  rw [Tree.map_map', Tree.map_map'] at e'
  have : g ∘ Proxy.without s = g := funext hg
  rwa [this] at e'

/-- A slice of a layout. -/
theorem Later.runSlice {rnd : Int → Int → Int → Int} {s : Slice} {o : Options} {l : Int} {t0 t t' : Tree Proxy}
    (h : Later t0 t) (e1 : runSlice rnd s o l (t.map (Proxy.get s)) = .ok (t'.map (Proxy.get s)))
    (e2 : t'.map (Proxy.without s) = t.map (Proxy.without s)) : Later t0 t' := by
  refine ⟨fun s' => ?_, ?_⟩
  · by_cases hs : s' = s
    · subst hs
      exact runSlice_hist (h.hist s') e1
    · rw [map_of_without e2 (Proxy.get s')]
      · exact h.hist s'
      · intro p
        cases s <;> cases s' <;> first | rfl | exact absurd rfl hs
  · rw [map_of_without e2 Proxy.stat (fun p => by cases s <;> rfl)]
    exact h.stat

theorem Later.adjust {rnd : Int → Int → Int → Int} {o : Options} {w h rw rh : Int} {t0 t t' : Tree Proxy} (hl : Later t0 t)
    (e : adjust rnd o w h t = .ok (t', rw, rh)) : Later t0 t' := by
  obtain ⟨t1, _, e1, e2, e3, e4, _, _⟩ := adjust_parts e
  have k1 := hl.runSlice (s := .horizontal) e1 e3
  exact (k1.mapVisible calculateVertical_hev calculateVertical_stat).runSlice (s := .vertical) e2 e4

theorem Later.evaluate {rnd : Int → Int → Int → Int} {o : Options} {w h rw rh : Int} {t0 t t' : Tree Proxy} (hl : Later t0 t)
    (e : evaluate rnd o w h t = .ok (t', rw, rh)) : Later t0 t' := by
  unfold Eve.evaluate at e
  rw [post_onEach] at e
  exact (hl.mapVisible calculate_hev (fun _ => rfl)).adjust e

theorem Used.later {rnd : Int → Int → Int → Int} {t0 t : Tree Proxy} (h0 : Fresh t0) (h : Used rnd t0 t) : Later t0 t := by
  induction h with
  | added => exact Later.refl h0
  | evaluated _ e ih => exact ih.evaluate e
  | adjusted _ e ih => exact ih.adjust e
  | shown _ e ih => exact ih.shown e

end Verif.Eve
