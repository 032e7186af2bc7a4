import Verif.Eve.Twin
/-! C66: the outsets of a container are no larger than needed. -/
namespace Verif.Eve

/-- What a pass before the outsets does not touch. -/
def sig (i : Item) : (Int × Int) × Ext := (i.place.outset, i.ext)

section
variable {f : Item → List Item → Except Err (Item × List Item)}
    (hf : ∀ a ks a' ks', f a ks = .ok (a', ks') → sig a' = sig a ∧ ks'.map sig = ks.map sig)
include hf

mutual
theorem post_sig : ∀ (t t' : Tree Item), t.post f = .ok t' → t'.map sig = t.map sig
  | .node false a ks, t', h => by simp only [Tree.post, Except.ok.injEq] at h; rw [← h]
  | .node true a ks, t', h => by
    obtain ⟨ks', a', as', h1, h2, rfl⟩ := Tree.post_node_ok h
    obtain ⟨k1, k2⟩ := hf _ _ _ _ h2
    have := posts_sig ks ks' h1
    simp only [Tree.map, Tree.maps_setRoots, k1, k2]
    rw [← Tree.roots_maps, Tree.setRoots_roots, this]
theorem posts_sig : ∀ (ts ts' : List (Tree Item)), Tree.post.posts f ts = .ok ts' → Tree.map.maps sig ts' = Tree.map.maps sig ts
  | [], ts', h => by simp only [Tree.post.posts, Except.ok.injEq] at h; rw [← h]
  | t :: ts, ts', h => by
    obtain ⟨u, us, h1, h2, rfl⟩ := Tree.posts_cons_ok h
    simp only [Tree.map.maps, post_sig t u h1, posts_sig ts us h2]
end
end

section
variable {f : Item → List Item → Except Err (Item × List Item × Bool)}
    (hf : ∀ a ks a' ks' b, f a ks = .ok (a', ks', b) → sig a' = sig a ∧ ks'.map sig = ks.map sig)
include hf

theorem pres_sig : ∀ (n : Nat) (ts : List (Tree Item)) (as : List Item) (ts' : List (Tree Item)) (b : Bool),
    Tree.count.counts ts ≤ n → as.map sig = (Tree.roots ts).map sig → Tree.pre.pres f ts as = .ok (ts', b) →
    Tree.map.maps sig ts' = Tree.map.maps sig ts
  | n, [], as, ts', b, _, _, h => by
    simp only [Tree.pres_nil, Except.ok.injEq, Prod.mk.injEq] at h
    rw [← h.1]
  | n, .node false a ks :: ts, as, ts', b, hn, hw, h => by
    obtain ⟨us, h1, rfl⟩ := Tree.pres_false_ok h
    simp only [Tree.count.counts, Tree.count] at hn
    simp only [Tree.roots, Tree.visible, Bool.false_eq_true, if_false] at hw
    cases n with
    | zero => omega
    | succ n => simp only [Tree.map.maps, pres_sig n ts as us b (by omega) hw h1]
  | n, .node true a ks :: ts, as, ts', b, hn, hw, h => by
    obtain ⟨t', b1, us, b2, h1, h2, rfl, rfl⟩ := Tree.pres_true_ok h
    obtain ⟨a', as', c1, ks', c2, e1, e2, rfl, rfl⟩ := Tree.pre_node_ok h1
    simp only [Tree.count.counts, Tree.count] at hn
    simp only [Tree.roots, Tree.visible, if_true, Tree.root, List.map_cons] at hw
    cases n with
    | zero => omega
    | succ n =>
    cases as with
    | nil => simp at hw
    | cons x xs =>
      simp only [List.map_cons, List.cons.injEq] at hw
      obtain ⟨k1, k2⟩ := hf _ _ _ _ _ e1
      simp only [List.headD_cons] at k1
      simp only [Tree.map.maps, Tree.map, pres_sig n ks as' ks' c2 (by omega) k2 e2, pres_sig n ts xs us b2 (by omega) hw.2 h2,
        k1, hw.1]

theorem pre_sig {t t' : Tree Item} {b : Bool} (h : t.pre f = .ok (t', b)) : t'.map sig = t.map sig := by
  match t, h with
  | .node false a ks, h => simp only [Tree.pre_false, Except.ok.injEq, Prod.mk.injEq] at h; rw [← h.1]
  | .node true a ks, h =>
    obtain ⟨a', as', c1, ks', c2, e1, e2, rfl, rfl⟩ := Tree.pre_node_ok h
    obtain ⟨k1, k2⟩ := hf _ _ _ _ _ e1
    simp only [Tree.map, k1, pres_sig hf _ ks as' ks' c2 (Nat.le_refl _) k2 e2]
end

theorem map_sig_of_forall₂ {ks ks' : List Item} {R : Item → Item → Prop} (hR : ∀ a b, R a b → sig b = sig a)
    (h : List.Forall₂ R ks ks') : ks'.map sig = ks.map sig := by
  induction h with
  | nil => rfl
  | cons h1 _ ih => rw [List.map_cons, List.map_cons, hR _ _ h1, ih]

theorem adjustStep_sig {s : Slice} {a a' : Item} {ks ks' : List Item} (h : adjustStep s a ks = .ok (a', ks')) :
    sig a' = sig a ∧ ks'.map sig = ks.map sig := by
  constructor
  · unfold adjustStep at h
    split at h
    · simp only [Except.ok.injEq, Prod.mk.injEq] at h; rw [← h.1]
    · simp only at h
      split at h
      · unfold adjustWith at h
        split at h
        · cases h
        · simp only [Except.ok.injEq, Prod.mk.injEq] at h; rw [← h.1]; rfl
      · simp only [adjustCross, Except.ok.injEq, Prod.mk.injEq] at h; rw [← h.1]; rfl
  · rcases (adjustStep_ok h).2 with ⟨_, rfl⟩ | ⟨_, h, _⟩
    · rfl
    · refine map_sig_of_forall₂ (R := Resolved a) ?_ h
      rintro c d ⟨⟨al, su, sp, f, r, rfl, _⟩, _⟩
      rfl

theorem upStep_sig {s : Slice} {a a' : Item} {ks ks' : List Item} (h : upStep s a ks = .ok (a', ks')) :
    sig a' = sig a ∧ ks'.map sig = ks.map sig := by
  have h0 := (upStep_ok h).1
  have h1 := (upStep_ok h).2.1.attr
  refine ⟨?_, by rw [h0]⟩
  have hext : a'.ext = a.ext := (congrArg Item.ext h1).symm
  have hpl : a'.place = a.place := by
    unfold upStep at h
    split at h
    · simp only [Except.ok.injEq, Prod.mk.injEq] at h; rw [← h.1]
    · obtain ⟨p, h2, h3⟩ := ok_bind h
      simp only [Except.ok.injEq, Prod.mk.injEq] at h3
      rw [← h3.1]
      unfold upBoth at h2
      split at h2
      · unfold upWith at h2
        obtain ⟨x, _, h2⟩ := ok_bind h2
        obtain ⟨y, _, h2⟩ := ok_bind h2
        simp only [Except.ok.injEq] at h2
        rw [← h2]
      · unfold upCross at h2
        obtain ⟨x, _, h2⟩ := ok_bind h2
        obtain ⟨y, _, h2⟩ := ok_bind h2
        simp only [Except.ok.injEq] at h2
        rw [← h2]
  simp only [sig, hext, hpl]

theorem downRev_sig : ∀ {ks ks' : List Item} {rlen : Int} {rest : List Int} {ch : Bool},
    downRev rlen rest ks = .ok (ks', ch) → ks'.map sig = ks.map sig
  | [], ks', rlen, rest, ch, h => by
    simp only [downRev, Except.ok.injEq, Prod.mk.injEq] at h
    rw [← h.1]
  | c :: cs, ks', rlen, rest, ch, h => by
    simp only [downRev] at h
    split at h
    · obtain ⟨⟨rl, gs, rest', b⟩, h1, h⟩ := ok_bind h
      simp only at h
      split at h
      · simp only [Except.ok.injEq, Prod.mk.injEq] at h
        rw [← h.1]; rfl
      · obtain ⟨⟨cs', b'⟩, h2, h⟩ := ok_bind h
        simp only [Except.ok.injEq, Prod.mk.injEq] at h
        rw [← h.1, List.map_cons, downRev_sig h2]; rfl
    · obtain ⟨⟨cs', b'⟩, h2, h⟩ := ok_bind h
      simp only [Except.ok.injEq, Prod.mk.injEq] at h
      rw [← h.1, List.map_cons, downRev_sig h2]; rfl

theorem downFwd_sig : ∀ {ks ks' : List Item} {len : Int} {rest : List Int} {ch : Bool},
    downFwd len rest ks = .ok (ks', ch) → ks'.map sig = ks.map sig
  | [], ks', len, rest, ch, h => by
    simp only [downFwd, Except.ok.injEq, Prod.mk.injEq] at h
    rw [← h.1]
  | c :: cs, ks', len, rest, ch, h => by
    simp only [downFwd] at h
    split at h
    · obtain ⟨⟨rl, gs, rest', b⟩, h1, h⟩ := ok_bind h
      simp only at h
      split at h
      · simp only [Except.ok.injEq, Prod.mk.injEq] at h
        rw [← h.1]; rfl
      · obtain ⟨⟨cs', b'⟩, h2, h⟩ := ok_bind h
        simp only [Except.ok.injEq, Prod.mk.injEq] at h
        rw [← h.1, List.map_cons, downFwd_sig h2]; rfl
    · obtain ⟨⟨cs', b'⟩, h2, h⟩ := ok_bind h
      simp only [Except.ok.injEq, Prod.mk.injEq] at h
      rw [← h.1, List.map_cons, downFwd_sig h2]; rfl

theorem downCross_sig {p : Item} : ∀ {ks ks' : List Item} {ch : Bool},
    downCross p ks = .ok (ks', ch) → ks'.map sig = ks.map sig
  | [], ks', ch, h => by
    simp only [downCross, Except.ok.injEq, Prod.mk.injEq] at h
    rw [← h.1]
  | c :: cs, ks', ch, h => by
    simp only [downCross] at h
    obtain ⟨⟨c', b⟩, h1, h⟩ := ok_bind h
    obtain ⟨⟨cs', b'⟩, h2, h⟩ := ok_bind h
    simp only [Except.ok.injEq, Prod.mk.injEq] at h
    rw [← h.1, List.map_cons, downCross_sig h2]
    unfold downCrossOne at h1
    obtain ⟨⟨f, cf⟩, e1, h1⟩ := ok_bind h1
    obtain ⟨⟨r, cr⟩, e2, h1⟩ := ok_bind h1
    simp only [Except.ok.injEq, Prod.mk.injEq] at h1
    rw [← h1.1]; rfl

theorem downStep_sig {s : Slice} {a a' : Item} {ks ks' : List Item} {b : Bool}
    (h : downStep s a ks = .ok (a', ks', b)) : sig a' = sig a ∧ ks'.map sig = ks.map sig := by
  unfold downStep at h
  split at h
  · simp only [Except.ok.injEq, Prod.mk.injEq] at h
    obtain ⟨rfl, rfl, _⟩ := h
    exact ⟨rfl, rfl⟩
  · obtain ⟨⟨xs, ch⟩, h1, h2⟩ := ok_bind h
    simp only [Except.ok.injEq, Prod.mk.injEq] at h2
    obtain ⟨rfl, rfl, _⟩ := h2
    refine ⟨rfl, ?_⟩
    unfold downBoth at h1
    split at h1
    · unfold downWith at h1
      obtain ⟨⟨ys, c⟩, h3, h4⟩ := ok_bind h1
      simp only at h4
      split at h4
      · simp only [Except.ok.injEq, Prod.mk.injEq] at h4
        rw [← h4.1, List.map_reverse, downRev_sig h3, ← List.map_reverse, List.reverse_reverse]
      · exact downFwd_sig h4
    · exact downCross_sig h1

theorem layoutStep_sig {rnd : Int → Int → Int → Int} {s : Slice} {a a' : Item} {ks ks' : List Item} {b : Bool}
    (h : layoutStep rnd s a ks = .ok (a', ks', b)) : sig a' = sig a ∧ ks'.map sig = ks.map sig := by
  have := layoutStep_self h
  subst this
  refine ⟨rfl, ?_⟩
  unfold layoutStep at h
  split at h
  · simp only [Except.ok.injEq, Prod.mk.injEq] at h
    rw [← h.2.1]
  · obtain ⟨xs, h1, h2⟩ := ok_bind h
    simp only [Except.ok.injEq, Prod.mk.injEq] at h2
    rw [← h2.2.1]
    refine map_sig_of_forall₂ (R := SameButPlace) ?_ (layoutBoth_same h1)
    rintro c d ⟨l, q, rfl⟩
    rfl

theorem solveLoop_sig {s : Slice} : ∀ (n : Nat) {t t' : Tree Item} {b : Bool}, solveLoop s n t = .ok (t', b) →
    t'.map sig = t.map sig
  | 0, t, t', b, e => by
    simp only [solveLoop, Except.ok.injEq, Prod.mk.injEq] at e
    rw [← e.1]
  | n + 1, t, t', b, e => by
    simp only [solveLoop] at e
    obtain ⟨⟨t1, p⟩, h1, e⟩ := ok_bind e
    obtain ⟨t2, h2, e⟩ := ok_bind e
    simp only at h2 e
    have k1 := pre_sig (fun a ks a' ks' b e => downStep_sig e) h1
    have k2 := post_sig (fun a ks a' ks' e => upStep_sig e) _ _ h2
    split at e
    · rw [solveLoop_sig n e, k2, k1]
    · simp only [Except.ok.injEq, Prod.mk.injEq] at e
      rw [← e.1, k2, k1]

theorem laid_sig {rnd : Int → Int → Int → Int} {s : Slice} {o : Options} {length : Int} {t t' : Tree Item}
    (ps : Passes rnd s o length t t') : ps.tl.map sig = t.map sig := by
  have h1 := post_sig (fun a ks a' ks' e => adjustStep_sig e) _ _ ps.adjusted
  have h2 : ps.ts.map sig = ps.ta.map sig := by
    have hs := ps.solved
    unfold solve at hs
    obtain ⟨t1, e1, hs⟩ := ok_bind hs
    rw [solveLoop_sig _ hs, post_sig (fun a ks a' ks' e => upStep_sig e) _ _ e1]
  have h3 : ps.tl.map sig = ps.ts.map sig := by
    have hl := ps.laid
    unfold layout at hl
    obtain ⟨⟨t1, b⟩, e1, hl⟩ := ok_bind hl
    simp only [Except.ok.injEq] at hl
    rw [← hl, pre_sig (fun a ks a' ks' b e => layoutStep_sig e) e1, Tree.map_setRoot]
    cases ps.ts
    rfl
  rw [h3, h2, h1]

/-- A bound that is reached: the outset is the one measured, or the one needed by one of `reach`. -/
def Tight (outset measured : Int) (reach : List Int) : Prop :=
  measured ≤ outset ∧ (∀ x ∈ reach, x ≤ outset) ∧ (outset = measured ∨ outset ∈ reach)

/-- How far a child reaches beyond the leading edge of its container (whose coordinate is `d`). -/
def before (d : Int) (c : Item) : Int := d - (c.place.position - c.place.outset.1)

/-- How far a child reaches beyond the trailing edge of its container. -/
def beyond (d : Int) (p c : Item) : Int := c.place.position + c.place.length + c.place.outset.2 - (d + p.place.length)

theorem tight_max (m : Int) (x : Int) : Tight (max m x) m [x] := by
  unfold Tight
  simp only [List.mem_singleton, forall_eq]
  omega

theorem foldl_min_tight {α : Type} (g : α → Int) : ∀ (ks : List α) (a : Int),
    (∀ c ∈ ks, ks.foldl (fun m c => min m (g c)) a ≤ g c) ∧ ks.foldl (fun m c => min m (g c)) a ≤ a ∧
    (ks.foldl (fun m c => min m (g c)) a = a ∨ ∃ c ∈ ks, ks.foldl (fun m c => min m (g c)) a = g c)
  | [], a => by simp
  | k :: ks, a => by
    obtain ⟨h1, h2, h3⟩ := foldl_min_tight g ks (min a (g k))
    simp only [List.foldl_cons, List.mem_cons, forall_eq_or_imp, exists_eq_or_imp]
    refine ⟨⟨by omega, h1⟩, by omega, ?_⟩
    rcases h3 with h3 | h3
    · rcases Int.le_total a (g k) with h | h
      · left; rw [h3]; omega
      · right; left; rw [h3]; omega
    · right; right; exact h3

theorem tight_fold {α : Type} (g : α → Int) (ks : List α) (m a : Int) :
    Tight (max m (-(ks.foldl (fun m c => min m (g c)) a))) m (-a :: ks.map (fun c => -g c)) := by
  obtain ⟨h1, h2, h3⟩ := foldl_min_tight g ks a
  generalize hF : ks.foldl (fun m c => min m (g c)) a = F at *
  refine ⟨by omega, ?_, ?_⟩
  · intro x hx
    simp only [List.mem_cons, List.mem_map] at hx
    rcases hx with rfl | ⟨c, hc, rfl⟩
    · omega
    · have := h1 c hc; omega
  · by_cases h : m ≤ -F
    · right
      rw [Int.max_eq_right h]
      simp only [List.mem_cons, List.mem_map]
      rcases h3 with h3 | ⟨c, hc, h3⟩
      · left; rw [h3]
      · right; exact ⟨c, hc, by rw [h3]⟩
    · left; omega

/-- C66: an outset is exactly what is needed: the one the view asked for when it was measured, or, when that is more, as far as
the children reach over the edge (along the direction: the first and the last; across it: all of them, and the frame). -/
theorem C66_outsets_tight {rnd : Int → Int → Int → Int} {s : Slice} {o : Options} {length : Int} {t t' : Tree Item}
    (h : runSlice rnd s o length t = .ok t') (hm : t.Forall (fun p _ => p.place.outset = p.ext.outset)) :
    t'.Forall (fun p kids => ∀ first last, kids.head? = some first → kids.getLast? = some last →
      if isWith s p.placement then
        Tight p.place.outset.1 p.ext.outset.1 [before (origin o p) first] ∧
        Tight p.place.outset.2 p.ext.outset.2 [beyond (origin o p) p last]
      else
        Tight p.place.outset.1 p.ext.outset.1 (-p.ext.frame.1 :: kids.map (before (origin o p))) ∧
        Tight p.place.outset.2 p.ext.outset.2 (-p.ext.frame.2 :: kids.map (beyond (origin o p) p))) := by
  obtain ⟨ps⟩ := passes h
  have hm1 : ps.tl.Forall (fun p _ => p.place.outset = p.ext.outset) := by
    have k : (t.map sig).Forall (fun x _ => x.1 = x.2.outset) := (Tree.forall_map t).2 hm
    rw [← laid_sig ps, Tree.forall_map] at k
    exact k
  -- the outset pass
  have hu : ps.tu.Forall (fun p kids => ∃ p0 : Item, p0.place.outset = p0.ext.outset ∧ OutsetOnly p0 p ∧
      outsetsStep s p0 kids = .ok (p, kids)) := by
    refine (Tree.post_gen (f := outsetsStep s) (T := fun _ _ => True) (S := Eq)
      (P0 := fun p _ => p.place.outset = p.ext.outset)
      (P' := fun p kids => ∃ p0 : Item, p0.place.outset = p0.ext.outset ∧ OutsetOnly p0 p ∧ outsetsStep s p0 kids = .ok (p, kids))
      (fun _ _ _ _ _ => trivial) (fun _ _ _ h _ => h) ?_ (fun _ _ _ h e => e ▸ h) ps.outset hm1).2
    intro a ks a' ks' h1 h2
    obtain ⟨rfl, h3⟩ := outsetsStep_ok h2
    exact ⟨⟨a, h1, h3, h2⟩, forall₂_refl (fun _ => rfl) _⟩
  refine (flatten_ok ps.flat hu).2.imp ?_
  rintro p kids ⟨p2, q, ks2, ⟨p0, hp0, ⟨o1, rfl⟩, hs⟩, h2, h3⟩ first last hfirst hlast
  obtain ⟨g, hg⟩ := pushGuides_eq { { p0 with place := { p0.place with outset := o1 } } with
    place := { { p0.place with outset := o1 } with position := q } }
  rw [hg] at h2
  have e1 : p.place.outset = o1 := by rw [h2]
  have e2 : p.ext = p0.ext := by rw [h2]
  have e3 : p.placement = p0.placement := by rw [h2]
  have e4 : p.place.length = p0.place.length := by rw [h2]
  clear h2 hg
  have hrel : List.Forall₂ (fun a b : Item => b.place.position = a.place.position + origin o p ∧
      b.place.length = a.place.length ∧ b.place.outset = a.place.outset) ks2 kids := by
    refine h3.imp ?_
    intro a b hs
    unfold Shifted at hs
    obtain ⟨g', hg'⟩ := pushGuides_eq { a with place := { a.place with position := a.place.position + origin o p } }
    rw [hs, hg']
    exact ⟨rfl, rfl, rfl⟩
  have hb : ∀ a b : Item, (b.place.position = a.place.position + origin o p ∧
      b.place.length = a.place.length ∧ b.place.outset = a.place.outset) →
      before (origin o p) b = -(a.place.position - a.place.outset.1) ∧
      beyond (origin o p) p b = -(p0.place.length - (a.place.position + a.place.length + a.place.outset.2)) := by
    rintro a b ⟨k1, k2, k3⟩
    unfold before beyond
    rw [k1, k2, k3, e4]
    omega
  unfold outsetsStep at hs
  simp only [Except.ok.injEq, Prod.mk.injEq, and_true] at hs
  have hout : o1 = (if isWith s p0.placement then outsetsWith p0 ks2 else outsetsCross p0 ks2).place.outset := by rw [hs]
  rw [e1, e2, e3, hout]
  have hmem : kids.map (before (origin o p)) = ks2.map (fun a => -(a.place.position - a.place.outset.1)) ∧
      kids.map (beyond (origin o p) p) =
        ks2.map (fun a => -(p0.place.length - (a.place.position + a.place.length + a.place.outset.2))) := by
    clear hfirst hlast hs hout
    revert hb
    generalize origin o p = d at *
    intro hb
    clear h3
    induction hrel with
    | nil => simp
    | cons h1 _ ih =>
      obtain ⟨i1, i2⟩ := ih
      obtain ⟨j1, j2⟩ := hb _ _ h1
      simp only [List.map_cons, i1, i2, j1, j2, and_self]
  split
  · -- along the direction
    have hf2 : ∃ f2, ks2.head? = some f2 ∧ before (origin o p) first = -(f2.place.position - f2.place.outset.1) := by
      have := congrArg List.head? hmem.1
      rw [List.head?_map, List.head?_map, hfirst] at this
      cases hk : ks2.head? with
      | none => rw [hk] at this; cases this
      | some f2 => rw [hk] at this; exact ⟨f2, rfl, by simpa using this⟩
    have hl2 : ∃ l2, ks2.getLast? = some l2 ∧ beyond (origin o p) p last =
        -(p0.place.length - (l2.place.position + l2.place.length + l2.place.outset.2)) := by
      have := congrArg List.getLast? hmem.2
      rw [List.getLast?_map, List.getLast?_map, hlast] at this
      cases hk : ks2.getLast? with
      | none => rw [hk] at this; cases this
      | some f2 => rw [hk] at this; exact ⟨f2, rfl, by simpa using this⟩
    obtain ⟨f2, a1, a2⟩ := hf2
    obtain ⟨l2, b1, b2⟩ := hl2
    unfold outsetsWith
    rw [a1, b1, a2, b2, hp0]
    exact ⟨tight_max _ _, tight_max _ _⟩
  · rw [hmem.1, hmem.2]
    unfold outsetsCross
    cases ks2 with
    | nil => cases hrel; simp at hfirst
    | cons k ks =>
      rw [hp0]
      exact ⟨tight_fold (fun c : Item => c.place.position - c.place.outset.1) _ _ _,
        tight_fold (fun c : Item => p0.place.length - (c.place.position + c.place.length + c.place.outset.2)) _ _ _⟩

end Verif.Eve
