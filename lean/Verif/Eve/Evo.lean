import Verif.Eve.Forget
/-! A layout, of any size, leaves views of which only their history is left behind. -/
namespace Verif.Eve

mutual
/-- Every view of the second tree, visible or not, is that of the first at a later time. -/
def HistT (s : Slice) : Key → Tree Item → Tree Item → Prop
  | k, .node _ a ks, .node _ b ls => Hist s k a b ∧ HistTs s a.key ks ls
def HistTs (s : Slice) : Key → List (Tree Item) → List (Tree Item) → Prop
  | _, [], [] => True
  | k, t :: ts, u :: us => HistT s k t u ∧ HistTs s k ts us
  | _, _, _ => False
end

/-- A change that a view may undergo. -/
def Hev (s : Slice) (k : Key) (b b' : Item) : Prop := b'.key = b.key ∧ ∀ a, Hist s k a b → Hist s k a b'

theorem Hev.refl (s : Slice) (k : Key) (b : Item) : Hev s k b b := ⟨rfl, fun _ h => h⟩
theorem Hev.trans {s : Slice} {k : Key} {b c d : Item} (h : Hev s k b c) (h' : Hev s k c d) : Hev s k b d :=
  ⟨h'.1.trans h.1, fun a ha => h'.2 a (h.2 a ha)⟩

mutual
def EvoT (s : Slice) : Key → Tree Item → Tree Item → Prop
  | k, .node v b ls, .node w c ms => v = w ∧ Hev s k b c ∧ EvoTs s b.key ls ms
def EvoTs (s : Slice) : Key → List (Tree Item) → List (Tree Item) → Prop
  | _, [], [] => True
  | k, t :: ts, u :: us => EvoT s k t u ∧ EvoTs s k ts us
  | _, _, _ => False
end

mutual
theorem EvoT.refl (s : Slice) : ∀ (k : Key) (t : Tree Item), EvoT s k t t
  | k, .node v a ks => by simp only [EvoT]; exact ⟨trivial, Hev.refl s k a, EvoTs.refl s _ ks⟩
theorem EvoTs.refl (s : Slice) : ∀ (k : Key) (ts : List (Tree Item)), EvoTs s k ts ts
  | _, [] => by simp only [EvoTs]
  | k, t :: ts => by simp only [EvoTs]; exact ⟨EvoT.refl s k t, EvoTs.refl s k ts⟩
end

mutual
theorem HistT.evo {s : Slice} : ∀ {k : Key} {t0 t t' : Tree Item}, HistT s k t0 t → EvoT s k t t' → HistT s k t0 t'
  | k, .node _ a ks, .node v b ls, .node w c ms, h, h' => by
    simp only [HistT] at h ⊢
    simp only [EvoT] at h'
    refine ⟨h'.2.1.2 a h.1, ?_⟩
    rw [given_key h.1.1] at h'
    exact HistTs.evo h.2 h'.2.2
theorem HistTs.evo {s : Slice} : ∀ {k : Key} {ts0 ts ts' : List (Tree Item)}, HistTs s k ts0 ts → EvoTs s k ts ts' →
    HistTs s k ts0 ts'
  | _, [], [], [], _, _ => by simp only [HistTs]
  | k, t0 :: ts0, t :: ts, t' :: ts', h, h' => by
    simp only [HistTs] at h ⊢
    simp only [EvoTs] at h'
    exact ⟨HistT.evo h.1 h'.1, HistTs.evo h.2 h'.2⟩
  | _, [], _ :: _, _, h, _ => by simp only [HistTs] at h
  | _, _ :: _, [], _, h, _ => by simp only [HistTs] at h
  | _, _, [], _ :: _, _, h => by simp only [EvoTs] at h
  | _, _, _ :: _, [], _, h => by simp only [EvoTs] at h
end

theorem setRoots_evo {s : Slice} {k : Key} : ∀ {ts us : List (Tree Item)} {as : List Item}, EvoTs s k ts us →
    List.Forall₂ (Hev s k) (Tree.roots us) as → EvoTs s k ts (Tree.setRoots us as)
  | [], [], as, _, _ => by simp only [Tree.setRoots, EvoTs]
  | .node v a ks :: ts, .node w b ls :: us, as, h, hr => by
    simp only [EvoTs] at h
    simp only [Tree.setRoots, Tree.visible]
    simp only [Tree.roots, Tree.visible, Tree.root] at hr
    cases w with
    | false =>
      simp only [Bool.false_eq_true, if_false] at hr ⊢
      simp only [EvoTs]
      exact ⟨h.1, setRoots_evo h.2 hr⟩
    | true =>
      simp only [if_true] at hr ⊢
      cases hr with
      | cons h1 h2 =>
        simp only [Tree.setRoot, Tree.visible, Tree.kids, EvoTs, EvoT] at h ⊢
        exact ⟨⟨h.1.1, h.1.2.1.trans h1, h.1.2.2⟩, setRoots_evo h.2 h2⟩
  | [], _ :: _, _, h, _ => by simp only [EvoTs] at h
  | _ :: _, [], _, h, _ => by simp only [EvoTs] at h

section
variable {s : Slice} {f : Item → List Item → Except Err (Item × List Item)}
    (hf : ∀ k a ks a' ks', f a ks = .ok (a', ks') → Hev s k a a' ∧ List.Forall₂ (Hev s a.key) ks ks')
include hf

mutual
theorem post_evo : ∀ (k : Key) (t t' : Tree Item), t.post f = .ok t' → EvoT s k t t'
  | k, .node false a ks, t', h => by
    simp only [Tree.post, Except.ok.injEq] at h
    rw [← h]; exact EvoT.refl s k _
  | k, .node true a ks, t', h => by
    obtain ⟨ks', a', as', h1, h2, e⟩ := Tree.post_node_ok h
    subst e
    obtain ⟨k1, k2⟩ := hf k _ _ _ _ h2
    simp only [EvoT]
    exact ⟨trivial, k1, setRoots_evo (posts_evo a.key ks ks' h1) k2⟩
theorem posts_evo : ∀ (k : Key) (ts ts' : List (Tree Item)), Tree.post.posts f ts = .ok ts' → EvoTs s k ts ts'
  | k, [], ts', h => by
    simp only [Tree.post.posts, Except.ok.injEq] at h
    rw [← h]; simp only [EvoTs]
  | k, t :: ts, ts', h => by
    obtain ⟨t1, ts1, h1, h2, rfl⟩ := Tree.posts_cons_ok h
    simp only [EvoTs]
    exact ⟨post_evo k t t1 h1, posts_evo k ts ts1 h2⟩
end
end

section
variable {s : Slice} {f : Item → List Item → Except Err (Item × List Item × Bool)}
    (hf : ∀ k a ks a' ks' b, f a ks = .ok (a', ks', b) → Hev s k a a' ∧ List.Forall₂ (Hev s a.key) ks ks')
include hf

mutual
theorem preAt_evo : ∀ (k : Key) (t t' : Tree Item) (a : Item) (b : Bool), Hev s k t.root a → t.preAt f a = .ok (t', b) →
    EvoT s k t t'
  | k, .node false a0 ks, t', a, b, _, h => by
    simp only [Tree.preAt, Except.ok.injEq, Prod.mk.injEq] at h
    rw [← h.1]; exact EvoT.refl s k _
  | k, .node true a0 ks, t', a, b, hr, h => by
    simp only [Tree.preAt] at h
    obtain ⟨⟨a', as', b1⟩, h1, h⟩ := ok_bind h
    obtain ⟨⟨ks', b2⟩, h2, h⟩ := ok_bind h
    simp only [Except.ok.injEq, Prod.mk.injEq] at h
    rw [← h.1]
    obtain ⟨k1, k2⟩ := hf k _ _ _ _ _ h1
    simp only [Tree.root] at hr
    rw [hr.1] at k2
    simp only [EvoT]
    exact ⟨trivial, hr.trans k1, pres_evo a0.key ks as' ks' b2 k2 h2⟩
theorem pres_evo : ∀ (k : Key) (ts : List (Tree Item)) (as : List Item) (ts' : List (Tree Item)) (b : Bool),
    List.Forall₂ (Hev s k) (Tree.roots ts) as → Tree.pre.pres f ts as = .ok (ts', b) → EvoTs s k ts ts'
  | k, [], as, ts', b, _, h => by
    simp only [Tree.pre.pres, Except.ok.injEq, Prod.mk.injEq] at h
    rw [← h.1]; simp only [EvoTs]
  | k, .node false a ks :: ts, as, ts', b, hr, h => by
    simp only [Tree.roots, Tree.visible, Bool.false_eq_true, if_false] at hr
    simp only [Tree.pre.pres, Tree.visible, Bool.false_eq_true, if_false] at h
    obtain ⟨⟨ts1, b1⟩, h1, h⟩ := ok_bind h
    simp only [Except.ok.injEq, Prod.mk.injEq] at h
    rw [← h.1]
    simp only [EvoTs]
    exact ⟨EvoT.refl s k _, pres_evo k ts as ts1 b1 hr h1⟩
  | k, .node true a ks :: ts, as, ts', b, hr, h => by
    simp only [Tree.roots, Tree.visible, if_true, Tree.root] at hr
    simp only [Tree.pre.pres, Tree.visible, if_true] at h
    obtain ⟨⟨t1, b1⟩, h1, h⟩ := ok_bind h
    obtain ⟨⟨ts1, b2⟩, h2, h⟩ := ok_bind h
    simp only [Except.ok.injEq, Prod.mk.injEq] at h
    rw [← h.1]
    cases hr with
    | cons hr1 hr2 =>
      simp only [List.headD_cons, List.tail_cons] at h1 h2
      simp only [EvoTs]
      exact ⟨preAt_evo k (.node true a ks) t1 _ b1 hr1 h1, pres_evo k ts _ ts1 b2 hr2 h2⟩
end

theorem pre_evo (k : Key) {t t' : Tree Item} {b : Bool} (h : t.pre f = .ok (t', b)) : EvoT s k t t' :=
  preAt_evo hf k t t' t.root b (Hev.refl s k _) h
end

/-! ### the passes -/

theorem hev_turn {s : Slice} {p c : Item} {sp : Option Int} (hs : isWith s p.placement = false → sp = none) :
    Hev s p.key c (turn p sp c) := by
  refine ⟨turn_key p sp c, ?_⟩
  rintro a ⟨h1, h2, h3, h4, h5, h6, h7, h8⟩
  have hal := alignIn_hist h4 h5
  have hl := given_leaf h1
  rw [turn_fields]
  refine ⟨h1, h2, h3, h4, Or.inr hal, ?_, ?_, ?_⟩
  · simp only [hal]
    cases e1 : (alignIn p.childAlign a).fwdSide <;> cases e2 : (alignIn p.childAlign a).revSide
    · exact Or.inr ⟨rfl, rfl, rfl⟩
    all_goals
      simp only [Bool.or_true, Bool.or_false, if_true]
      rcases h6 with h6 | ⟨_, k1, k2⟩
      · exact Or.inl h6
      · simp_all
  · intro hw
    rw [hs hw]
    exact h7 hw
  · intro hla
    obtain ⟨m1, m2⟩ := h8 hla
    refine ⟨fun e => ?_, fun e => ?_⟩
    · simp only [hal, e, Bool.and_false, Bool.false_eq_true, if_false]
      exact m1 e
    · simp only [hal, e, Bool.and_false, Bool.false_eq_true, if_false]
      exact m2 e

theorem hev_container {s : Slice} {k : Key} {b : Item} {f r : List Int} (hl : b.leaf = false) (cl ml : Int) :
    Hev s k b { b with fwd := f, rev := r, clength := cl, mlength := ml } := by
  refine ⟨rfl, ?_⟩
  rintro a ⟨h1, h2, h3⟩
  have hla : a.leaf = false := by rw [← given_leaf h1]; exact hl
  refine ⟨h1, by simp [hla], ?_⟩
  cases k with
  | none => exact ⟨h3.1, h3.2.1, h3.2.2.1, h3.2.2.2.1, by simp [hla]⟩
  | some x => exact ⟨h3.1, h3.2.1, h3.2.2.1, h3.2.2.2.1, h3.2.2.2.2.1, by simp [hla]⟩

theorem zip_hev {s : Slice} {p : Item} (hw : isWith s p.placement = true) : ∀ (ks : List Item) (sps : List Int),
    sps.length = ks.length → List.Forall₂ (Hev s p.key) ks (List.zipWith (fun c x => turn p (some x) c) ks sps)
  | [], _, _ => by simp
  | k :: ks, [], h => by simp at h
  | k :: ks, x :: sps, h => by
    simp only [List.zipWith_cons_cons]
    exact .cons (hev_turn (by simp [hw])) (zip_hev hw ks sps (by simpa using h))

theorem adjustStep_hev {s : Slice} {k : Key} {a a' : Item} {ks ks' : List Item} (h : adjustStep s a ks = .ok (a', ks')) :
    Hev s k a a' ∧ List.Forall₂ (Hev s a.key) ks ks' := by
  unfold adjustStep at h
  split at h
  · simp only [Except.ok.injEq, Prod.mk.injEq] at h
    obtain ⟨rfl, rfl⟩ := h
    exact ⟨Hev.refl _ _ _, forall₂_refl (Hev.refl _ _) _⟩
  · rename_i hl
    have hl' : a.leaf = false := by simpa using hl
    simp only at h
    split at h
    · rename_i hw
      unfold adjustWith at h
      split at h
      · cases h
      · rename_i last _
        obtain ⟨sps, k1, k2⟩ := setSpaces_turn a a.spacing last ks
        simp only [Except.ok.injEq, Prod.mk.injEq] at h
        obtain ⟨rfl, rfl⟩ := h
        refine ⟨hev_container hl' _ _, ?_⟩
        rw [k2 a ks rfl]
        exact zip_hev hw ks sps k1
    · rename_i hw
      simp only [adjustCross, Except.ok.injEq, Prod.mk.injEq] at h
      obtain ⟨rfl, rfl⟩ := h
      refine ⟨hev_container hl' _ _, ?_⟩
      rw [List.map_map, List.forall₂_map_right_iff]
      exact forall₂_refl (fun c => hev_turn (sp := none) (by simp)) ks

theorem upStep_hev {s : Slice} {k : Key} {a a' : Item} {ks ks' : List Item} (h : upStep s a ks = .ok (a', ks')) :
    Hev s k a a' ∧ List.Forall₂ (Hev s a.key) ks ks' := by
  unfold upStep at h
  split at h
  · simp only [Except.ok.injEq, Prod.mk.injEq] at h
    obtain ⟨rfl, rfl⟩ := h
    exact ⟨Hev.refl _ _ _, forall₂_refl (Hev.refl _ _) _⟩
  · rename_i hl
    have hl' : a.leaf = false := by simpa using hl
    obtain ⟨p, h1, h2⟩ := ok_bind h
    simp only [Except.ok.injEq, Prod.mk.injEq] at h2
    obtain ⟨rfl, rfl⟩ := h2
    refine ⟨?_, forall₂_refl (Hev.refl _ _) _⟩
    unfold upBoth at h1
    split at h1
    · unfold upWith at h1
      obtain ⟨x, _, h1⟩ := ok_bind h1
      obtain ⟨y, _, h1⟩ := ok_bind h1
      simp only [Except.ok.injEq] at h1
      rw [← h1]
      exact hev_container hl' _ _
    · unfold upCross at h1
      obtain ⟨x, _, h1⟩ := ok_bind h1
      obtain ⟨y, _, h1⟩ := ok_bind h1
      simp only [Except.ok.injEq] at h1
      rw [← h1]
      exact hev_container hl' _ _

theorem hev_guides {s : Slice} {pl : Placement} {ca : Align} {b : Item} {f r : List Int} (hf : f.length = b.fwd.length)
    (hr : r.length = b.rev.length) : Hev s (some (pl, ca)) b { b with fwd := f, rev := r } := by
  refine ⟨rfl, ?_⟩
  rintro a ⟨h1, h2, h3, h4, h5, h6, h7, h8⟩
  refine ⟨h1, h2, h3, h4, h5, h6, h7, fun hl => ⟨fun e => ?_, fun e => ?_⟩⟩
  · obtain ⟨m1, m2⟩ := (h8 hl).1 e
    rw [m2] at hf
    exact ⟨m1, List.length_eq_zero_iff.1 hf⟩
  · obtain ⟨m1, m2⟩ := (h8 hl).2 e
    rw [m2] at hr
    exact ⟨m1, List.length_eq_zero_iff.1 hr⟩

theorem downRev_hev {s : Slice} {pl : Placement} {ca : Align} : ∀ {ks ks' : List Item} {rlen : Int} {rest : List Int} {ch : Bool},
    downRev rlen rest ks = .ok (ks', ch) → List.Forall₂ (Hev s (some (pl, ca))) ks ks'
  | [], ks', rlen, rest, ch, h => by
    simp only [downRev, Except.ok.injEq, Prod.mk.injEq] at h
    rw [← h.1]; exact .nil
  | c :: cs, ks', rlen, rest, ch, h => by
    simp only [downRev] at h
    split at h
    · obtain ⟨⟨rl, gs, rest', b⟩, h1, h⟩ := ok_bind h
      have hlen := imposeChild_length h1
      have hc : Hev s (some (pl, ca)) c { c with rev := gs } := hev_guides rfl hlen
      simp only at h
      split at h
      · simp only [Except.ok.injEq, Prod.mk.injEq] at h
        rw [← h.1]
        exact .cons hc (forall₂_refl (Hev.refl _ _) _)
      · obtain ⟨⟨cs', b'⟩, h2, h⟩ := ok_bind h
        simp only [Except.ok.injEq, Prod.mk.injEq] at h
        rw [← h.1]
        exact .cons hc (downRev_hev h2)
    · obtain ⟨⟨cs', b'⟩, h2, h⟩ := ok_bind h
      simp only [Except.ok.injEq, Prod.mk.injEq] at h
      rw [← h.1]
      exact .cons (Hev.refl _ _ _) (downRev_hev h2)

theorem downFwd_hev {s : Slice} {pl : Placement} {ca : Align} : ∀ {ks ks' : List Item} {len : Int} {rest : List Int} {ch : Bool},
    downFwd len rest ks = .ok (ks', ch) → List.Forall₂ (Hev s (some (pl, ca))) ks ks'
  | [], ks', len, rest, ch, h => by
    simp only [downFwd, Except.ok.injEq, Prod.mk.injEq] at h
    rw [← h.1]; exact .nil
  | c :: cs, ks', len, rest, ch, h => by
    simp only [downFwd] at h
    split at h
    · obtain ⟨⟨rl, gs, rest', b⟩, h1, h⟩ := ok_bind h
      have hlen := imposeChild_length h1
      have hc : Hev s (some (pl, ca)) c { c with fwd := gs } := hev_guides hlen rfl
      simp only at h
      split at h
      · simp only [Except.ok.injEq, Prod.mk.injEq] at h
        rw [← h.1]
        exact .cons hc (forall₂_refl (Hev.refl _ _) _)
      · obtain ⟨⟨cs', b'⟩, h2, h⟩ := ok_bind h
        simp only [Except.ok.injEq, Prod.mk.injEq] at h
        rw [← h.1]
        exact .cons hc (downFwd_hev h2)
    · obtain ⟨⟨cs', b'⟩, h2, h⟩ := ok_bind h
      simp only [Except.ok.injEq, Prod.mk.injEq] at h
      rw [← h.1]
      exact .cons (Hev.refl _ _ _) (downFwd_hev h2)

theorem downCross_hev {s : Slice} {pl : Placement} {ca : Align} {p : Item} : ∀ {ks ks' : List Item} {ch : Bool},
    downCross p ks = .ok (ks', ch) → List.Forall₂ (Hev s (some (pl, ca))) ks ks'
  | [], ks', ch, h => by
    simp only [downCross, Except.ok.injEq, Prod.mk.injEq] at h
    rw [← h.1]; exact .nil
  | c :: cs, ks', ch, h => by
    simp only [downCross] at h
    obtain ⟨⟨c', b⟩, h1, h⟩ := ok_bind h
    obtain ⟨⟨cs', b'⟩, h2, h⟩ := ok_bind h
    simp only [Except.ok.injEq, Prod.mk.injEq] at h
    rw [← h.1]
    refine .cons ?_ (downCross_hev h2)
    unfold downCrossOne at h1
    obtain ⟨⟨f, cf⟩, e1, h1⟩ := ok_bind h1
    obtain ⟨⟨r, cr⟩, e2, h1⟩ := ok_bind h1
    simp only [Except.ok.injEq, Prod.mk.injEq] at h1
    rw [← h1.1]
    exact hev_guides (imposeUse_length e1) (imposeUse_length e2)

theorem downStep_hev {s : Slice} {k : Key} {a a' : Item} {ks ks' : List Item} {b : Bool}
    (h : downStep s a ks = .ok (a', ks', b)) : Hev s k a a' ∧ List.Forall₂ (Hev s a.key) ks ks' := by
  unfold downStep at h
  split at h
  · simp only [Except.ok.injEq, Prod.mk.injEq] at h
    obtain ⟨rfl, rfl, _⟩ := h
    exact ⟨Hev.refl _ _ _, forall₂_refl (Hev.refl _ _) _⟩
  · obtain ⟨⟨xs, ch⟩, h1, h2⟩ := ok_bind h
    simp only [Except.ok.injEq, Prod.mk.injEq] at h2
    obtain ⟨rfl, rfl, _⟩ := h2
    refine ⟨Hev.refl _ _ _, ?_⟩
    unfold downBoth at h1
    split at h1
    · unfold downWith at h1
      obtain ⟨⟨ys, c⟩, h3, h4⟩ := ok_bind h1
      simp only at h4
      split at h4
      · simp only [Except.ok.injEq, Prod.mk.injEq] at h4
        rw [← h4.1]
        have := List.rel_reverse (downRev_hev (s := s) (pl := a.placement) (ca := a.childAlign) h3)
        rw [List.reverse_reverse] at this
        exact this
      · exact downFwd_hev h4
    · exact downCross_hev h1

theorem hev_place {s : Slice} {pl : Placement} {ca : Align} {b : Item} (p : Place) : Hev s (some (pl, ca)) b { b with place := p } :=
  ⟨rfl, fun _ h => h⟩

theorem hev_noPos {s : Slice} {k : Key} {b : Item} (p : Place) (hp : p.position = b.place.position) :
    Hev s k b { b with place := p } := by
  refine ⟨rfl, fun a h => ⟨h.1, h.2.1, ?_⟩⟩
  have h3 := h.2.2
  cases k with
  | none => exact ⟨h3.1, h3.2.1, h3.2.2.1, hp.trans h3.2.2.2.1, h3.2.2.2.2⟩
  | some x => exact h3

theorem layoutStep_hev {rnd : Int → Int → Int → Int} {s : Slice} {k : Key} {a a' : Item} {ks ks' : List Item} {b : Bool}
    (h : layoutStep rnd s a ks = .ok (a', ks', b)) : Hev s k a a' ∧ List.Forall₂ (Hev s a.key) ks ks' := by
  have := layoutStep_self h
  subst this
  refine ⟨Hev.refl _ _ _, ?_⟩
  unfold layoutStep at h
  split at h
  · simp only [Except.ok.injEq, Prod.mk.injEq] at h
    rw [← h.2.1]; exact forall₂_refl (Hev.refl _ _) _
  · obtain ⟨xs, h1, h2⟩ := ok_bind h
    simp only [Except.ok.injEq, Prod.mk.injEq] at h2
    rw [← h2.2.1]
    refine (layoutBoth_same h1).imp ?_
    rintro c _ ⟨l, q, rfl⟩
    exact hev_place _

theorem outsetsStep_hev {s s' : Slice} {k : Key} {a a' : Item} {ks ks' : List Item}
    (h : outsetsStep s' a ks = .ok (a', ks')) : Hev s k a a' ∧ List.Forall₂ (Hev s a.key) ks ks' := by
  obtain ⟨rfl, o, rfl⟩ := outsetsStep_ok h
  exact ⟨hev_noPos _ rfl, forall₂_refl (Hev.refl _ _) _⟩

theorem flattenStep_hev {s : Slice} {o : Options} {k : Key} {a a' : Item} {ks ks' : List Item} {b : Bool}
    (h : flattenStep o a ks = .ok (a', ks', b)) : Hev s k a a' ∧ List.Forall₂ (Hev s a.key) ks ks' := by
  obtain ⟨g, hg⟩ := pushGuides_eq a
  unfold flattenStep at h
  dsimp only at h
  split at h
  · simp only [Except.ok.injEq, Prod.mk.injEq] at h
    obtain ⟨rfl, rfl, _⟩ := h
    rw [hg]
    exact ⟨hev_noPos _ rfl, forall₂_refl (Hev.refl _ _) _⟩
  · simp only [Except.ok.injEq, Prod.mk.injEq] at h
    obtain ⟨rfl, rfl, _⟩ := h
    rw [hg]
    refine ⟨hev_noPos _ rfl, ?_⟩
    rw [List.forall₂_map_right_iff]
    exact forall₂_refl (fun c => hev_place _) _

theorem EvoT_setRoot {s : Slice} {k : Key} {t : Tree Item} {a : Item} (h : Hev s k t.root a) : EvoT s k t (t.setRoot a) := by
  cases t
  simp only [Tree.setRoot, Tree.visible, Tree.kids, EvoT]
  exact ⟨trivial, h, EvoTs.refl s _ _⟩

theorem solveLoop_hist {s : Slice} {t0 : Tree Item} : ∀ (n : Nat) {t t' : Tree Item} {b : Bool}, HistT s none t0 t →
    solveLoop s n t = .ok (t', b) → HistT s none t0 t'
  | 0, t, t', b, h, e => by
    simp only [solveLoop, Except.ok.injEq, Prod.mk.injEq] at e
    rw [← e.1]; exact h
  | n + 1, t, t', b, h, e => by
    simp only [solveLoop] at e
    obtain ⟨⟨t1, p⟩, h1, e⟩ := ok_bind e
    obtain ⟨t2, h2, e⟩ := ok_bind e
    simp only at h2 e
    have k1 := h.evo (pre_evo (fun k a ks a' ks' b e => downStep_hev e) none h1)
    have k2 := k1.evo (post_evo (fun k a ks a' ks' e => upStep_hev e) none _ _ h2)
    split at e
    · exact solveLoop_hist n k2 e
    · simp only [Except.ok.injEq, Prod.mk.injEq] at e
      rw [← e.1]; exact k2

/-- A slice of a layout preserves the history. -/
theorem runSlice_hist {rnd : Int → Int → Int → Int} {s : Slice} {o : Options} {length : Int} {t0 t t' : Tree Item}
    (h : HistT s none t0 t) (e : runSlice rnd s o length t = .ok t') : HistT s none t0 t' := by
  obtain ⟨ps⟩ := passes e
  have h1 := h.evo (post_evo (fun k a ks a' ks' e => adjustStep_hev e) none _ _ ps.adjusted)
  have h2 : HistT s none t0 ps.ts := by
    have hs := ps.solved
    unfold solve at hs
    obtain ⟨t1, e1, hs⟩ := ok_bind hs
    exact solveLoop_hist _ (h1.evo (post_evo (fun k a ks a' ks' e => upStep_hev e) none _ _ e1)) hs
  have h3 : HistT s none t0 ps.tl := by
    have hl := ps.laid
    unfold layout at hl
    obtain ⟨⟨t1, b⟩, e1, hl⟩ := ok_bind hl
    simp only [Except.ok.injEq] at hl
    rw [← hl]
    have hset : Hev s none ps.ts.root { ps.ts.root with place := { ps.ts.root.place with
        length := if length ≠ 0 then length else ps.ts.root.clength } } :=
      hev_noPos (b := ps.ts.root) { ps.ts.root.place with length := if length ≠ 0 then length else ps.ts.root.clength } rfl
    exact (h2.evo (EvoT_setRoot hset)).evo (pre_evo (fun k a ks a' ks' b e => layoutStep_hev e) none e1)
  have h4 := h3.evo (post_evo (fun k a ks a' ks' e => outsetsStep_hev e) none _ _ ps.outset)
  exact h4.evo (pre_evo (fun k a ks a' ks' b e => flattenStep_hev e) none ps.flat)

end Verif.Eve
