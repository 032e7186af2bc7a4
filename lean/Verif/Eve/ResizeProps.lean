import Verif.Eve.Resize
import Verif.Eve.LiftErr
/-! C128: a layout depends on the views and the size, not on the layouts before it. -/
namespace Verif.Eve

mutual
theorem visRel_stat {P : Proxy → List (Tree Proxy) → Prop} : ∀ {t u : Tree Proxy}, t.flags = u.flags →
    (u.map Proxy.stat).strip = (t.map Proxy.stat).strip → t.All P → VisRel (fun p q => q.stat = p.stat ∧ ∃ ks, P p ks) t u
  | .node v a ks, .node w b ls, h1, h2, h3 => by
    simp only [Tree.flags, Tree.map, Tree.node.injEq] at h1
    simp only [Tree.map, Tree.strip, Tree.node.injEq] at h2
    simp only [Tree.All] at h3
    simp only [VisRel]
    exact ⟨h1.1, fun _ => ⟨⟨h2.2.1, ks, h3.1⟩, visRels_stat h1.2.2 h2.2.2 h3.2⟩⟩
theorem visRels_stat {P : Proxy → List (Tree Proxy) → Prop} : ∀ {ts us : List (Tree Proxy)},
    Tree.map.maps (fun _ => ()) ts = Tree.map.maps (fun _ => ()) us →
    Tree.strip.strips (Tree.map.maps Proxy.stat us) = Tree.strip.strips (Tree.map.maps Proxy.stat ts) → Tree.All.Alls P ts →
    VisRels (fun p q => q.stat = p.stat ∧ ∃ ks, P p ks) ts us
  | [], [], _, _, _ => by simp only [VisRels]
  | [], _ :: _, h, _, _ => by simp [Tree.map.maps] at h
  | _ :: _, [], h, _, _ => by simp [Tree.map.maps] at h
  | t :: ts, u :: us, h1, h2, h3 => by
    simp only [Tree.map.maps, Tree.strip.strips, List.cons.injEq] at h1 h2
    simp only [Tree.All.Alls] at h3
    simp only [VisRels]
    exact ⟨visRel_stat h1.1 h2.1 h3.1, visRels_stat h1.2 h2.2 h3.2⟩
end

mutual
theorem measured_same {s : Slice} {f : Proxy → Proxy} {R : Proxy → Proxy → Prop}
    (hf : ∀ k p q, Hist s k (p.get s) (q.get s) → R p q →
      (Hist s k ((f p).get s) ((f q).get s) ∧ Meas ((f p).get s) ((f q).get s)) ∧ ((f p).get s).key = (p.get s).key) :
    ∀ {k : Key} {t u : Tree Proxy}, HistT s k (t.map (Proxy.get s)) (u.map (Proxy.get s)) → VisRel R t u →
      Same (fun k a b => Hist s k a b ∧ Meas a b) k ((t.mapVisible f).map (Proxy.get s)) ((u.mapVisible f).map (Proxy.get s))
  | k, .node v a ks, .node w b ls, h1, h2 => by
    simp only [VisRel] at h2
    obtain ⟨rfl, h2⟩ := h2
    cases v with
    | false => simp [Tree.mapVisible, Tree.map, Same]
    | true =>
      simp only [Tree.map, HistT] at h1
      obtain ⟨h3, h4⟩ := h2 rfl
      obtain ⟨h5, h6⟩ := hf k a b h1.1 h3
      simp only [Tree.mapVisible, Tree.map, Same, h6]
      exact ⟨trivial, fun _ => ⟨h5, measured_sames hf h1.2 h4⟩⟩
theorem measured_sames {s : Slice} {f : Proxy → Proxy} {R : Proxy → Proxy → Prop}
    (hf : ∀ k p q, Hist s k (p.get s) (q.get s) → R p q →
      (Hist s k ((f p).get s) ((f q).get s) ∧ Meas ((f p).get s) ((f q).get s)) ∧ ((f p).get s).key = (p.get s).key) :
    ∀ {k : Key} {ts us : List (Tree Proxy)}, HistTs s k (Tree.map.maps (Proxy.get s) ts) (Tree.map.maps (Proxy.get s) us) →
      VisRels R ts us → Sames (fun k a b => Hist s k a b ∧ Meas a b) k
        (Tree.map.maps (Proxy.get s) (Tree.mapVisible.mapVisibles f ts)) (Tree.map.maps (Proxy.get s) (Tree.mapVisible.mapVisibles f us))
  | _, [], [], _, _ => by simp only [Tree.mapVisible.mapVisibles, Tree.map.maps, Sames]
  | _, [], _ :: _, _, h => by simp only [VisRels] at h
  | _, _ :: _, [], _, h => by simp only [VisRels] at h
  | k, t :: ts, u :: us, h1, h2 => by
    simp only [Tree.map.maps, HistTs] at h1
    simp only [VisRels] at h2
    simp only [Tree.mapVisible.mapVisibles, Tree.map.maps, Sames]
    exact ⟨measured_same hf h1.1 h2.1, measured_sames hf h1.2 h2.2⟩
end

mutual
theorem VisRel.mapVisible {R R' : Proxy → Proxy → Prop} {f g : Proxy → Proxy} (hf : ∀ p q, R p q → R' (f p) (g q)) :
    ∀ {t u : Tree Proxy}, VisRel R t u → VisRel R' (t.mapVisible f) (u.mapVisible g)
  | .node v a ks, .node w b ls, h => by
    simp only [VisRel] at h
    obtain ⟨rfl, h⟩ := h
    cases v with
    | false => simp [Tree.mapVisible, VisRel]
    | true =>
      obtain ⟨h1, h2⟩ := h rfl
      simp only [Tree.mapVisible, VisRel]
      exact ⟨trivial, fun _ => ⟨hf _ _ h1, VisRels.mapVisibles hf h2⟩⟩
theorem VisRels.mapVisibles {R R' : Proxy → Proxy → Prop} {f g : Proxy → Proxy} (hf : ∀ p q, R p q → R' (f p) (g q)) :
    ∀ {ts us : List (Tree Proxy)}, VisRels R ts us → VisRels R' (Tree.mapVisible.mapVisibles f ts) (Tree.mapVisible.mapVisibles g us)
  | [], [], _ => by simp only [Tree.mapVisible.mapVisibles, VisRels]
  | [], _ :: _, h => by simp only [VisRels] at h
  | _ :: _, [], h => by simp only [VisRels] at h
  | t :: ts, u :: us, h => by
    simp only [VisRels] at h
    simp only [Tree.mapVisible.mapVisibles, VisRels]
    exact ⟨VisRel.mapVisible hf h.1, VisRels.mapVisibles hf h.2⟩
end

mutual
theorem VisRel.and {α β : Type} {R S : α → β → Prop} : ∀ {t : Tree α} {u : Tree β}, VisRel R t u → VisRel S t u →
    VisRel (fun a b => R a b ∧ S a b) t u
  | .node v a ks, .node w b ls, h1, h2 => by
    simp only [VisRel] at h1 h2 ⊢
    exact ⟨h1.1, fun hv => ⟨⟨(h1.2 hv).1, (h2.2 hv).1⟩, VisRels.ands (h1.2 hv).2 (h2.2 hv).2⟩⟩
theorem VisRels.ands {α β : Type} {R S : α → β → Prop} : ∀ {ts : List (Tree α)} {us : List (Tree β)}, VisRels R ts us →
    VisRels S ts us → VisRels (fun a b => R a b ∧ S a b) ts us
  | [], [], _, _ => by simp only [VisRels]
  | [], _ :: _, h, _ => by simp only [VisRels] at h
  | _ :: _, [], h, _ => by simp only [VisRels] at h
  | t :: ts, u :: us, h1, h2 => by
    simp only [VisRels] at h1 h2 ⊢
    exact ⟨VisRel.and h1.1 h2.1, VisRels.ands h1.2 h2.2⟩
end

mutual
theorem VisRel.imp {α β : Type} {R S : α → β → Prop} (h : ∀ a b, R a b → S a b) : ∀ {t : Tree α} {u : Tree β}, VisRel R t u →
    VisRel S t u
  | .node v a ks, .node w b ls, h1 => by
    simp only [VisRel] at h1 ⊢
    exact ⟨h1.1, fun hv => ⟨h _ _ (h1.2 hv).1, VisRels.imps h (h1.2 hv).2⟩⟩
theorem VisRels.imps {α β : Type} {R S : α → β → Prop} (h : ∀ a b, R a b → S a b) : ∀ {ts : List (Tree α)} {us : List (Tree β)},
    VisRels R ts us → VisRels S ts us
  | [], [], _ => by simp only [VisRels]
  | [], _ :: _, h => by simp only [VisRels] at h
  | _ :: _, [], h => by simp only [VisRels] at h
  | t :: ts, u :: us, h1 => by
    simp only [VisRels] at h1 ⊢
    exact ⟨VisRel.imp h h1.1, VisRels.imps h h1.2⟩
end

mutual
theorem all_strip {P : Proxy → List (Tree Proxy) → Prop} (hP : ∀ p ks ls, (ks = [] ↔ ls = []) → P p ks → P p ls) :
    ∀ {t u : Tree Proxy}, u.strip = t.strip → t.All P → u.All P
  | .node v a ks, .node w b ls, e, h => by
    simp only [Tree.strip, Tree.node.injEq] at e
    simp only [Tree.All] at h ⊢
    rw [e.2.1]
    refine ⟨hP _ _ _ ?_ h.1, alls_strip hP e.2.2 h.2⟩
    cases ks <;> cases ls <;> simp [Tree.strip.strips] at e ⊢
theorem alls_strip {P : Proxy → List (Tree Proxy) → Prop} (hP : ∀ p ks ls, (ks = [] ↔ ls = []) → P p ks → P p ls) :
    ∀ {ts us : List (Tree Proxy)}, Tree.strip.strips us = Tree.strip.strips ts → Tree.All.Alls P ts → Tree.All.Alls P us
  | [], [], _, h => h
  | [], _ :: _, e, _ => by simp [Tree.strip.strips] at e
  | _ :: _, [], e, _ => by simp [Tree.strip.strips] at e
  | t :: ts, u :: us, e, h => by
    simp only [Tree.strip.strips, List.cons.injEq] at e
    simp only [Tree.All.Alls] at h ⊢
    exact ⟨all_strip hP e.1 h.1, alls_strip hP e.2 h.2⟩
end

theorem Fresh.strip {t u : Tree Proxy} (h : Fresh t) (e : u.strip = t.strip) : Fresh u := by
  refine all_strip ?_ e h
  intro p ks ls hk hp
  refine ⟨fun s => ⟨(hp.1 s).1, (hp.1 s).2.1, fun hn => (hp.1 s).2.2 (fun e => hn (hk.1 e))⟩, hp.2⟩

theorem hist_measured {s : Slice} {k : Key} {a b : Item} (e : Ext) (h : Hist s k a b) :
    Hist s k (a.measured e) (b.measured e) ∧ Meas (a.measured e) (b.measured e) :=
  ⟨h, rfl, rfl, rfl, rfl⟩

/-- The horizontal slice is the same, so the second pass measures the same. -/
def Ready (p q : Proxy) : Prop :=
  q.stat = p.stat ∧ q.v.ext = p.v.ext ∧
    ∀ f, p.measureVertical = some f → ∀ e v ph pv pv', f e v ph pv = f e v ph pv'

theorem adjust_rel {rnd : Int → Int → Int → Int} {o : Options} {w h : Int} {t u : Tree Proxy}
    (hh : Same (fun k a b => Hist .horizontal k a b ∧ Meas a b) none (t.map Proxy.h) (u.map Proxy.h))
    (hv : HistT .vertical none (t.map Proxy.v) (u.map Proxy.v)) (hr : VisRel Ready t u) (hvis : t.visible = true) :
    ERel (fun x y => VisRel (fun p q => p.h = q.h ∧ p.v = q.v) x.1 y.1 ∧ x.2 = y.2)
      (adjust rnd o w h t) (adjust rnd o w h u) := by
  have hc : u.count = t.count := by
    have := hv.count
    rwa [Tree.count_map, Tree.count_map] at this
  have hR := runSlice_rel rnd .horizontal o w hh (by rw [Tree.count_map, Tree.count_map]; exact hc)
    (by rw [Tree.map_visible]; exact hvis)
  unfold adjust
  refine ERel.bind (R := fun x y => VisRel (fun p q => p.h = q.h) x y ∧ x.map (Proxy.without .horizontal) = t.map (Proxy.without .horizontal) ∧
    y.map (Proxy.without .horizontal) = u.map (Proxy.without .horizontal)) ?_ ?_
  · cases e1 : runSliceP rnd .horizontal o w t with
    | error e =>
      have k1 : runSlice rnd .horizontal o w (t.map Proxy.h) = .error e := runSliceP_err e1
      rw [k1] at hR
      cases e2 : runSliceP rnd .horizontal o w u with
      | error e' =>
        have k2 : runSlice rnd .horizontal o w (u.map Proxy.h) = .error e' := runSliceP_err e2
        rw [k2] at hR
        exact hR
      | ok y =>
        have k2 : runSlice rnd .horizontal o w (u.map Proxy.h) = .ok (y.map Proxy.h) := (runSliceP_ok e2).1
        rw [k2] at hR
        exact hR.elim
    | ok x =>
      have k1 : runSlice rnd .horizontal o w (t.map Proxy.h) = .ok (x.map Proxy.h) := (runSliceP_ok e1).1
      rw [k1] at hR
      cases e2 : runSliceP rnd .horizontal o w u with
      | error e' =>
        have k2 : runSlice rnd .horizontal o w (u.map Proxy.h) = .error e' := runSliceP_err e2
        rw [k2] at hR
        exact hR.elim
      | ok y =>
        have k2 : runSlice rnd .horizontal o w (u.map Proxy.h) = .ok (y.map Proxy.h) := (runSliceP_ok e2).1
        rw [k2] at hR
        exact ⟨VisRel.map.1 (VisRel.of_pair hR), (runSliceP_ok e1).2, (runSliceP_ok e2).2⟩
  rintro x y ⟨h1, h2, h3⟩
  rw [post_onEach, post_onEach]
  simp only [bind, Except.bind]
  -- the vertical slice
  have hvx : HistT .vertical none (x.map Proxy.v) (y.map Proxy.v) := by
    rw [map_of_without h2 Proxy.v (fun _ => rfl), map_of_without h3 Proxy.v (fun _ => rfl)]; exact hv
  have hrx : VisRel Ready x y := by
    have k : VisRel Ready (t.map (Proxy.without .horizontal)) (u.map (Proxy.without .horizontal)) := VisRel.map.2 hr
    rw [← h2, ← h3] at k
    exact VisRel.map (f := Proxy.without .horizontal) (g := Proxy.without .horizontal) |>.1 k
  have hs : Same (fun k a b => Hist .vertical k a b ∧ Meas a b) none ((x.mapVisible calculateVertical).map Proxy.v)
      ((y.mapVisible calculateVertical).map Proxy.v) := by
    refine measured_same (s := .vertical) (f := calculateVertical) (R := fun p q => p.h = q.h ∧ Ready p q) ?_ hvx (h1.and hrx)
    rintro k p q hp ⟨e1, e2, e3, e4⟩
    have e5 : q.measureVertical = p.measureVertical := congrArg Prod.snd e2
    have hk : ((calculateVertical p).get .vertical).key = (p.get .vertical).key := by
      unfold calculateVertical; split <;> rfl
    refine ⟨?_, hk⟩
    unfold calculateVertical
    rw [e5]
    cases hm : p.measureVertical with
    | none => simp only [Proxy.get, e3]; exact hist_measured _ hp
    | some f =>
      simp only [Proxy.get, e1, e3]
      rw [e4 f hm q.h.ext p.v.ext q.h.place q.v.place p.v.place]
      exact hist_measured _ hp
  have hvis2 : (x.mapVisible calculateVertical).visible = true := by
    rw [Tree.mapVisible_visible]
    have := congrArg Tree.visible h2
    rw [Tree.map_visible, Tree.map_visible] at this
    rw [this]; exact hvis
  have hV := runSlice_rel rnd .vertical o h hs (by
    rw [Tree.count_map, Tree.count_map, Tree.mapVisible_count, Tree.mapVisible_count]
    have := hvx.count
    rwa [Tree.count_map, Tree.count_map] at this) (by rw [Tree.map_visible]; exact hvis2)
  have hhc : VisRel (fun p q => p.h = q.h) (x.mapVisible calculateVertical) (y.mapVisible calculateVertical) :=
    h1.mapVisible (fun p q e => by rw [calculateVertical_h, calculateVertical_h, e])
  cases e1 : runSliceP rnd .vertical o h (x.mapVisible calculateVertical) with
  | error e =>
    have k1 : runSlice rnd .vertical o h ((x.mapVisible calculateVertical).map Proxy.v) = .error e := runSliceP_err e1
    rw [k1] at hV
    cases e2 : runSliceP rnd .vertical o h (y.mapVisible calculateVertical) with
    | error e' =>
      have k2 : runSlice rnd .vertical o h ((y.mapVisible calculateVertical).map Proxy.v) = .error e' := runSliceP_err e2
      rw [k2] at hV
      exact hV
    | ok y' =>
      have k2 : runSlice rnd .vertical o h ((y.mapVisible calculateVertical).map Proxy.v) = .ok (y'.map Proxy.v) := (runSliceP_ok e2).1
      rw [k2] at hV
      exact hV.elim
  | ok x' =>
    have k1 : runSlice rnd .vertical o h ((x.mapVisible calculateVertical).map Proxy.v) = .ok (x'.map Proxy.v) := (runSliceP_ok e1).1
    rw [k1] at hV
    cases e2 : runSliceP rnd .vertical o h (y.mapVisible calculateVertical) with
    | error e' =>
      have k2 : runSlice rnd .vertical o h ((y.mapVisible calculateVertical).map Proxy.v) = .error e' := runSliceP_err e2
      rw [k2] at hV
      exact hV.elim
    | ok y' =>
      have k2 : runSlice rnd .vertical o h ((y.mapVisible calculateVertical).map Proxy.v) = .ok (y'.map Proxy.v) := (runSliceP_ok e2).1
      rw [k2] at hV
      have r1 : VisRel (fun p q => p.v = q.v) x' y' := VisRel.map.1 (VisRel.of_pair hV)
      have r2 : VisRel (fun p q => p.h = q.h) x' y' := by
        have k : VisRel (fun p q : Proxy => p.h = q.h) ((x.mapVisible calculateVertical).map (Proxy.without .vertical))
            ((y.mapVisible calculateVertical).map (Proxy.without .vertical)) := VisRel.map.2 hhc
        rw [← (runSliceP_ok e1).2, ← (runSliceP_ok e2).2] at k
        exact VisRel.map (f := Proxy.without .vertical) (g := Proxy.without .vertical) |>.1 k
      have r3 := r2.and r1
      refine ⟨r3, ?_⟩
      have hvx' : x'.visible = true := by
        have := congrArg Tree.visible (runSliceP_ok e1).2
        rw [Tree.map_visible, Tree.map_visible] at this
        rw [this]; exact hvis2
      obtain ⟨v, a, ks⟩ := x'
      obtain ⟨v', b, ls⟩ := y'
      simp only [Tree.visible] at hvx'
      simp only [VisRel] at r3
      have := (r3.2 hvx').1
      simp only [Tree.root, this.1, this.2]

mutual
theorem HistT_left : ∀ {k : Key} {t : Tree Proxy} {u : Tree Item}, HistT .vertical k (t.map Proxy.v) u →
    HistT .vertical k ((t.mapVisible calculate).map Proxy.v) u
  | k, .node false a ks, u, h => by simpa only [Tree.mapVisible] using h
  | k, .node true a ks, .node w b ls, h => by
    simp only [Tree.map, HistT] at h
    simp only [Tree.mapVisible, Tree.map, HistT]
    exact ⟨h.1, HistTs_left h.2⟩
theorem HistTs_left : ∀ {k : Key} {ts : List (Tree Proxy)} {us : List (Tree Item)}, HistTs .vertical k (Tree.map.maps Proxy.v ts) us →
    HistTs .vertical k (Tree.map.maps Proxy.v (Tree.mapVisible.mapVisibles calculate ts)) us
  | k, [], us, h => by simpa only [Tree.mapVisible.mapVisibles] using h
  | k, t :: ts, [], h => by simp only [Tree.map.maps, HistTs] at h
  | k, t :: ts, u :: us, h => by
    simp only [Tree.map.maps, HistTs] at h
    simp only [Tree.mapVisible.mapVisibles, Tree.map.maps, HistTs]
    exact ⟨HistT_left h.1, HistTs_left h.2⟩
end

theorem evaluate_rel {rnd : Int → Int → Int → Int} {o : Options} {w h : Int} {t0 t : Tree Proxy} (h0 : Fresh t0)
    (hl : Later t0 t) (hf : t0.flags = t.flags) (hvis : t0.visible = true) :
    ERel (fun x y => VisRel (fun p q => p.h = q.h ∧ p.v = q.v) x.1 y.1 ∧ x.2 = y.2)
      (evaluate rnd o w h t0) (evaluate rnd o w h t) := by
  unfold evaluate
  rw [post_onEach, post_onEach]
  simp only [bind, Except.bind]
  have hr := visRel_stat hf hl.stat h0
  refine adjust_rel ?_ ?_ ?_ (by rw [Tree.mapVisible_visible]; exact hvis)
  · refine measured_same (s := .horizontal) (f := calculate) ?_ (hl.hist .horizontal) hr
    rintro k p q hp ⟨e, _⟩
    refine ⟨?_, rfl⟩
    have e' : q.measure = p.measure := congrArg Prod.fst e
    simp only [calculate, Proxy.get, e']
    exact hist_measured _ hp
  · have k1 := (hl.mapVisible calculate_hev (fun _ => rfl)).hist .vertical
    exact HistT_left k1
  · refine hr.mapVisible ?_
    rintro p q ⟨e, ks, hp⟩
    have e' : q.measure = p.measure := congrArg Prod.fst e
    exact ⟨e, by simp only [calculate, e'], hp.2⟩

/-- C128: a call of `evaluate` gives each view the place, and returns the size, that the same views would get if they had just been
added: whatever layouts of whatever sizes came before, and whichever views were shown and hidden between them.  `t1` are the views
`t0` as they were added, with those visible that are visible in `t`. -/
theorem C128_evaluate_forgets {rnd : Int → Int → Int → Int} {o : Options} {w h : Int} {t0 t t1 : Tree Proxy} (h0 : Fresh t0)
    (hu : Used rnd t0 t) (h1 : t1.strip = t0.strip) (hf : t1.flags = t.flags) (hvis : t.visible = true) :
    match evaluate rnd o w h t, evaluate rnd o w h t1 with
    | .ok (t', size), .ok (t1', size1) =>
      (t'.map Proxy.h).places = (t1'.map Proxy.h).places ∧ (t'.map Proxy.v).places = (t1'.map Proxy.v).places ∧ size = size1
    | .error e, .error e1 => e = e1
    | _, _ => False := by
  have hvis1 : t1.visible = true := by
    have := congrArg Tree.visible hf
    simp only [Tree.flags, Tree.map_visible] at this
    rw [this]; exact hvis
  have key := evaluate_rel (rnd := rnd) (o := o) (w := w) (h := h) (h0.strip h1) ((hu.later h0).shown_left h1) hf hvis1
  cases e1 : evaluate rnd o w h t1 with
  | error e =>
    rw [e1] at key
    cases e2 : evaluate rnd o w h t with
    | error e' => rw [e2] at key; exact Eq.symm key
    | ok y => rw [e2] at key; exact key.elim
  | ok x =>
    rw [e1] at key
    cases e2 : evaluate rnd o w h t with
    | error e' => rw [e2] at key; exact key.elim
    | ok y =>
      rw [e2] at key
      obtain ⟨x1, x2⟩ := x
      obtain ⟨y1, y2⟩ := y
      obtain ⟨k1, k2⟩ := key
      refine ⟨?_, ?_, k2.symm⟩
      · exact (VisRel.places (VisRel.map.2 (k1.imp (fun p q e => e.1)))).symm
      · exact (VisRel.places (VisRel.map.2 (k1.imp (fun p q e => e.2)))).symm

end Verif.Eve
