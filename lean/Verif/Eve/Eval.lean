import Verif.Eve.Two
/-! `evaluate` and `adjust` run the horizontal slice, then the vertical one. -/
namespace Verif.Eve

theorem setSpaces_length : ∀ (ks : List Item) (ss : List Int) (l : Int), (setSpaces ss l ks).length = ks.length
  | [], ss, l => by cases ss <;> rfl
  | c :: cs, [], l => by simp [setSpaces, setSpaces_length cs [] l]
  | c :: cs, x :: xs, l => by simp [setSpaces, setSpaces_length cs xs l]

theorem adjustStep_count (s : Slice) : KeepsCount (adjustStep s) (fun r => r.2) := by
  intro a ks r h
  obtain ⟨a', ks'⟩ := r
  rcases (adjustStep_ok h).2 with ⟨_, rfl⟩ | ⟨_, h, _⟩
  · rfl
  · exact h.length_eq.symm

theorem upStep_count (s : Slice) : KeepsCount (upStep s) (fun r => r.2) := by
  intro a ks r h
  obtain ⟨a', ks'⟩ := r
  rw [(upStep_ok h).1]

theorem downStep_count (s : Slice) : KeepsCount (downStep s) (fun r => r.2.1) := by
  intro a ks r h
  obtain ⟨a', ks', b⟩ := r
  exact (downStep_ok h).2.length_eq.symm

theorem outsetsStep_count (s : Slice) : KeepsCount (outsetsStep s) (fun r => r.2) := by
  intro a ks r h
  obtain ⟨a', ks'⟩ := r
  rw [(outsetsStep_ok h).1]

theorem flattenStep_count (o : Options) : KeepsCount (flattenStep o) (fun r => r.2.1) := by
  intro a ks r h
  unfold flattenStep at h
  split at h <;> (simp only [Except.ok.injEq] at h; rw [← h]; try simp)

theorem layRev_count : ∀ {K : List Item} {rlen rem : Int} {guides : List Int} {cnt : Nat} {done others : List Item}
    {rem' : Int} {cnt' : Nat}, layRev rlen guides rem cnt K = .ok (done, others, rem', cnt') →
    done.length + others.length = K.length
  | [], rlen, rem, guides, cnt, done, others, rem', cnt', h => by
    simp only [layRev, Except.ok.injEq, Prod.mk.injEq] at h
    rw [← h.1, ← h.2.1]; rfl
  | c :: cs, rlen, rem, guides, cnt, done, others, rem', cnt', h => by
    simp only [layRev] at h
    split at h
    · obtain ⟨⟨rlen1, guides1⟩, h1, h⟩ := ok_bind h
      obtain ⟨⟨a, cnt1⟩, h2, h⟩ := ok_bind h
      obtain ⟨⟨done1, others1, rem1, cnt1'⟩, h3, h⟩ := ok_bind h
      dsimp only at h3 h
      simp only [Except.ok.injEq, Prod.mk.injEq] at h
      obtain ⟨rfl, rfl, rfl, rfl⟩ := h
      have := layRev_count h3
      simp; omega
    · simp only [Except.ok.injEq, Prod.mk.injEq] at h
      rw [← h.1, ← h.2.1]; simp

theorem layFwd_count {rnd : Int → Int → Int → Int} {z a : Int} : ∀ {F F' : List Item} {L rem : Int} {gs : List Int}
    {cnt : Nat}, layFwd rnd z a L gs rem cnt F = .ok F' → F'.length = F.length
  | [], F', L, rem, gs, cnt, h => by
    simp only [layFwd, Except.ok.injEq] at h
    rw [← h]
  | c :: cs, F', L, rem, gs, cnt, h => by
    obtain ⟨_, add, cnt', c', cs', L', gs', _, rfl, hrec, _⟩ := layFwd_cons h
    simp [layFwd_count hrec]

theorem layoutStep_count (rnd : Int → Int → Int → Int) (s : Slice) :
    KeepsCount (layoutStep rnd s) (fun r => r.2.1) := by
  intro a ks r h
  unfold layoutStep at h
  split at h
  · simp only [Except.ok.injEq] at h; rw [← h]
  · obtain ⟨ks', h1, h2⟩ := ok_bind h
    simp only [Except.ok.injEq] at h2
    rw [← h2]
    simp only
    unfold layoutBoth at h1
    split at h1
    · unfold layoutWith at h1
      obtain ⟨⟨done, others, rem, cnt⟩, h3, h4⟩ := ok_bind h1
      obtain ⟨placed, h5, h6⟩ := ok_bind h4
      simp only [Except.ok.injEq] at h6
      have k1 := layRev_count h3
      have k2 := layFwd_count h5
      rw [← h6]
      simp at k1 k2 ⊢
      omega
    · exact (layoutCross_forall₂ h1).length_eq.symm

theorem solveLoopP_ok {s : Slice} : ∀ (n : Nat) {t t' : Tree Proxy}, solveLoopP s n t = .ok t' →
    (∃ b, solveLoop s n (t.map (Proxy.get s)) = .ok (t'.map (Proxy.get s), b)) ∧
    t'.map (Proxy.without s) = t.map (Proxy.without s)
  | 0, t, t', h => by
    simp only [solveLoopP, Except.ok.injEq] at h
    subst h
    exact ⟨⟨_, rfl⟩, rfl⟩
  | n + 1, t, t', h => by
    simp only [solveLoopP] at h
    obtain ⟨⟨t1, pr⟩, h1, h⟩ := ok_bind h
    obtain ⟨t2, h2, h⟩ := ok_bind h
    dsimp only at h2 h
    obtain ⟨a1, a2⟩ := pre_lift (downStep_count s) h1
    obtain ⟨b1, b2⟩ := post_lift (upStep_count s) _ _ h2
    simp only [solveLoop, a1, b1, bind, Except.bind]
    split at h
    · rename_i hpr
      rw [if_pos hpr]
      obtain ⟨c1, c2⟩ := solveLoopP_ok n h
      exact ⟨c1, by rw [c2, b2, a2]⟩
    · rename_i hpr
      rw [if_neg hpr]
      simp only [Except.ok.injEq] at h
      subst h
      exact ⟨⟨_, rfl⟩, by rw [b2, a2]⟩

theorem solveP_ok {s : Slice} {t t' : Tree Proxy} (h : solveP s t = .ok t') :
    (∃ b, solve s (t.map (Proxy.get s)) = .ok (t'.map (Proxy.get s), b)) ∧
    t'.map (Proxy.without s) = t.map (Proxy.without s) := by
  unfold solveP at h
  obtain ⟨t1, h1, h⟩ := ok_bind h
  obtain ⟨a1, a2⟩ := post_lift (upStep_count s) _ _ h1
  obtain ⟨b1, b2⟩ := solveLoopP_ok _ h
  unfold solve
  simp only [a1, bind, Except.bind, Tree.count_map]
  exact ⟨b1, by rw [b2, a2]⟩

theorem layoutP_ok {rnd : Int → Int → Int → Int} {s : Slice} {length : Int} {t t' : Tree Proxy}
    (h : layoutP rnd s length t = .ok t') :
    layout rnd s length (t.map (Proxy.get s)) = .ok (t'.map (Proxy.get s)) ∧
    t'.map (Proxy.without s) = t.map (Proxy.without s) := by
  unfold layoutP at h
  obtain ⟨⟨t1, b⟩, h1, h⟩ := ok_bind h
  simp only [Except.ok.injEq] at h
  subst h
  obtain ⟨a1, a2⟩ := pre_lift (layoutStep_count rnd s) h1
  constructor
  · rw [Tree.map_setRoot, get_set] at a1
    unfold layout
    rw [Tree.map_root]
    simp only [a1, bind, Except.bind]
  · rw [a2, Tree.map_setRoot, without_set]
    cases t; rfl

theorem runSliceP_ok {rnd : Int → Int → Int → Int} {s : Slice} {o : Options} {length : Int} {t t' : Tree Proxy}
    (h : runSliceP rnd s o length t = .ok t') :
    runSlice rnd s o length (t.map (Proxy.get s)) = .ok (t'.map (Proxy.get s)) ∧
    t'.map (Proxy.without s) = t.map (Proxy.without s) := by
  unfold runSliceP at h
  obtain ⟨t1, h1, h⟩ := ok_bind h
  obtain ⟨t2, h2, h⟩ := ok_bind h
  obtain ⟨t3, h3, h⟩ := ok_bind h
  obtain ⟨t4, h4, h⟩ := ok_bind h
  obtain ⟨⟨t5, b⟩, h5, h⟩ := ok_bind h
  simp only [Except.ok.injEq] at h
  subst h
  obtain ⟨a1, a2⟩ := post_lift (adjustStep_count s) _ _ h1
  obtain ⟨⟨sb, b1⟩, b2⟩ := solveP_ok h2
  obtain ⟨c1, c2⟩ := layoutP_ok h3
  obtain ⟨d1, d2⟩ := post_lift (outsetsStep_count s) _ _ h4
  obtain ⟨e1, e2⟩ := pre_lift (flattenStep_count o) h5
  unfold runSlice
  simp only [a1, b1, c1, d1, e1, bind, Except.bind]
  exact ⟨trivial, by rw [e2, d2, c2, b2, a2]⟩

/-! ### measuring -/

namespace Tree
variable {α : Type}

/-- The function applied to the visible views. -/
def mapVisible (f : α → α) : Tree α → Tree α
  | .node false a ks => .node false a ks
  | .node true a ks => .node true (f a) (mapVisibles ks)
where
  mapVisibles : List (Tree α) → List (Tree α)
    | [] => []
    | t :: ts => mapVisible f t :: mapVisibles ts

end Tree

mutual
theorem post_onEach (f : Proxy → Proxy) : ∀ t : Tree Proxy, t.post (onEach f) = .ok (t.mapVisible f)
  | .node false a ks => by simp [Tree.post, Tree.mapVisible]
  | .node true a ks => by
    simp only [Tree.post, posts_onEach f ks, bind, Except.bind, onEach, Tree.setRoots_roots, Tree.mapVisible]
theorem posts_onEach (f : Proxy → Proxy) : ∀ ts : List (Tree Proxy),
    Tree.post.posts (onEach f) ts = .ok (Tree.mapVisible.mapVisibles f ts)
  | [] => by simp [Tree.post.posts, Tree.mapVisible.mapVisibles]
  | t :: ts => by
    simp only [Tree.post.posts, posts_onEach f ts, post_onEach f t, bind, Except.bind, Tree.mapVisible.mapVisibles]
end

/-- The parts of `adjust`: horizontal, the vertical measure, vertical. -/
theorem adjust_parts {rnd : Int → Int → Int → Int} {o : Options} {w h : Int} {t t' : Tree Proxy} {rw rh : Int}
    (e : adjust rnd o w h t = .ok (t', rw, rh)) :
    ∃ t1 : Tree Proxy, runSliceP rnd .horizontal o w t = .ok t1 ∧
      runSlice rnd .horizontal o w (t.map Proxy.h) = .ok (t1.map Proxy.h) ∧
      runSlice rnd .vertical o h ((t1.mapVisible calculateVertical).map Proxy.v) = .ok (t'.map Proxy.v) ∧
      t1.map (Proxy.without .horizontal) = t.map (Proxy.without .horizontal) ∧
      t'.map (Proxy.without .vertical) = (t1.mapVisible calculateVertical).map (Proxy.without .vertical) ∧
      rw = t'.root.h.place.length ∧ rh = t'.root.v.place.length := by
  unfold adjust at e
  obtain ⟨t1, h1, e⟩ := ok_bind e
  obtain ⟨t2, h2, e⟩ := ok_bind e
  obtain ⟨t3, h3, e⟩ := ok_bind e
  simp only [Except.ok.injEq, Prod.mk.injEq] at e
  obtain ⟨rfl, rfl, rfl⟩ := e
  rw [post_onEach] at h2
  simp only [Except.ok.injEq] at h2
  subst h2
  obtain ⟨a1, a2⟩ := runSliceP_ok h1
  obtain ⟨b1, b2⟩ := runSliceP_ok h3
  exact ⟨t1, h1, a1, b1, a2, b2, rfl, rfl⟩

end Verif.Eve
