import Verif.Eve.Eval
/-! When a slice of a layout fails, it fails on the data of that slice alone. -/
namespace Verif.Eve

theorem err_bind {α β : Type} {x : Except Err α} {f : α → Except Err β} {e : Err} (h : (x >>= f) = .error e) :
    x = .error e ∨ ∃ a, x = .ok a ∧ f a = .error e := by
  cases x with
  | error e' => simp only [Bind.bind, Except.bind, Except.error.injEq] at h; exact .inl (by rw [h])
  | ok a => exact .inr ⟨a, rfl, h⟩

section
variable {s : Slice} {f : Item → List Item → Except Err (Item × List Item)}
  (hf : KeepsCount f (fun r => r.2))
include hf

mutual
theorem post_lift_err {e : Err} : ∀ (t : Tree Proxy), t.post (liftStep s f) = .error e → (t.map (Proxy.get s)).post f = .error e
  | .node false a ks, h => by simp only [Tree.post] at h; cases h
  | .node true a ks, h => by
    simp only [Tree.post] at h
    simp only [Tree.map, Tree.post]
    rcases err_bind h with h | ⟨ks', h1, h⟩
    · rw [posts_lift_err ks h]; rfl
    · rw [(posts_lift hf ks ks' h1).1]
      rcases err_bind h with h | ⟨⟨a', as'⟩, _, h⟩
      · unfold liftStep at h
        rcases err_bind h with h | ⟨_, _, h⟩
        · simp only [bind, Except.bind]
          rw [Tree.roots_maps, h]
        · cases h
      · cases h
theorem posts_lift_err {e : Err} : ∀ (ts : List (Tree Proxy)), Tree.post.posts (liftStep s f) ts = .error e →
    Tree.post.posts f (Tree.map.maps (Proxy.get s) ts) = .error e
  | [], h => by simp only [Tree.post.posts] at h; cases h
  | t :: ts, h => by
    simp only [Tree.post.posts] at h
    simp only [Tree.map.maps, Tree.post.posts]
    rcases err_bind h with h | ⟨t', h1, h⟩
    · rw [post_lift_err t h]; rfl
    · rw [(post_lift hf t t' h1).1]
      rcases err_bind h with h | ⟨ts', h2, h⟩
      · simp only [bind, Except.bind, posts_lift_err ts h]
      · cases h
end
end

section
variable {s : Slice} {f : Item → List Item → Except Err (Item × List Item × Bool)}
  (hf : KeepsCount f (fun r => r.2.1))
include hf

theorem pres_lift_err {e : Err} : ∀ (n : Nat) (ts : List (Tree Proxy)) (as : List Proxy),
    Tree.count.counts ts ≤ n → as.length = (Tree.roots ts).length →
    as.map (Proxy.without s) = (Tree.roots ts).map (Proxy.without s) →
    Tree.pre.pres (liftStep' s f) ts as = .error e →
    Tree.pre.pres f (Tree.map.maps (Proxy.get s) ts) (as.map (Proxy.get s)) = .error e
  | n, [], as, _, _, _, h => by simp only [Tree.pres_nil] at h; cases h
  | n, .node false a ks :: ts, as, hn, hl, hw, h => by
    simp only [Tree.count.counts, Tree.count] at hn
    simp only [Tree.roots, Tree.visible, Bool.false_eq_true, if_false] at hl hw
    rw [Tree.pres_false] at h
    cases n with
    | zero => omega
    | succ n =>
      simp only [Tree.map.maps, Tree.map, Tree.pres_false]
      rcases err_bind h with h | ⟨_, _, h⟩
      · rw [pres_lift_err n ts as (by omega) hl hw h]; rfl
      · cases h
  | n, .node true a ks :: ts, as, hn, hl, hw, h => by
    simp only [Tree.count.counts, Tree.count] at hn
    simp only [Tree.roots, Tree.visible, if_true, Tree.root, List.length_cons, List.map_cons] at hl hw
    cases n with
    | zero => omega
    | succ n =>
    cases as with
    | nil => simp at hl
    | cons x xs =>
      simp only [List.map_cons, List.cons.injEq] at hw
      rw [Tree.pres_true] at h
      simp only [Tree.map.maps, Tree.map, Tree.pres_true, List.map_cons, List.headD_cons, List.tail_cons] at h ⊢
      rw [Tree.roots_maps]
      rcases err_bind h with h | ⟨⟨a', as', b1⟩, h1, h⟩
      · unfold liftStep' at h
        rcases err_bind h with h | ⟨_, _, h⟩
        · rw [h]; rfl
        · cases h
      · obtain ⟨i, is, h3, rfl, rfl⟩ := liftStep'_ok h1
        have hlen : is.length = (Tree.roots ks).length := by
          have := hf _ _ _ h3; simpa using this
        rw [h3]
        simp only [bind, Except.bind] at h ⊢
        cases h4 : Tree.pre.pres (liftStep' s f) ks (List.zipWith (Proxy.set s) (Tree.roots ks) is) with
        | error e' =>
          have := pres_lift_err n ks _ (by omega) (by simp [hlen]) (map_zip_without s _ _ hlen) h4
          rw [map_zip_get s _ _ hlen] at this
          rw [h4] at h
          rw [this]
          simp only [Except.error.injEq] at h ⊢
          exact h
        | ok r =>
          obtain ⟨ks', b2⟩ := r
          have := (pres_lift hf n ks _ ks' b2 (by omega) (by simp [hlen]) (map_zip_without s _ _ hlen) h4).1
          rw [map_zip_get s _ _ hlen] at this
          rw [h4] at h
          rw [this]
          dsimp only at h ⊢
          cases h5 : Tree.pre.pres (liftStep' s f) ts xs with
          | error e' =>
            have h6 := pres_lift_err n ts xs (by omega) (by simpa using hl) hw.2 h5
            rw [h5] at h
            rw [h6]
            simp only [Except.error.injEq] at h ⊢
            exact h
          | ok r =>
            rw [h5] at h
            cases h

theorem pre_lift_err {t : Tree Proxy} {e : Err} (h : t.pre (liftStep' s f) = .error e) :
    (t.map (Proxy.get s)).pre f = .error e := by
  match t, h with
  | .node false a ks, h => simp only [Tree.pre_false] at h; cases h
  | .node true a ks, h =>
    rw [Tree.pre_true] at h
    simp only [Tree.map, Tree.pre_true]
    rw [Tree.roots_maps]
    rcases err_bind h with h | ⟨⟨a', as', b1⟩, h1, h⟩
    · unfold liftStep' at h
      rcases err_bind h with h | ⟨_, _, h⟩
      · rw [h]; rfl
      · cases h
    · obtain ⟨i, is, h3, rfl, rfl⟩ := liftStep'_ok h1
      have hlen : is.length = (Tree.roots ks).length := by
        have := hf _ _ _ h3; simpa using this
      rw [h3]
      rcases err_bind h with h | ⟨_, _, h⟩
      · have := pres_lift_err hf _ ks _ (Nat.le_refl _) (by simp [hlen]) (map_zip_without s _ _ hlen) h
        rw [map_zip_get s _ _ hlen] at this
        simp only [bind, Except.bind, this]
      · cases h
end

theorem solveLoopP_err {s : Slice} {e : Err} : ∀ (n : Nat) {t : Tree Proxy}, solveLoopP s n t = .error e →
    solveLoop s n (t.map (Proxy.get s)) = .error e
  | 0, t, h => by cases h
  | n + 1, t, h => by
    simp only [solveLoopP] at h
    simp only [solveLoop]
    rcases err_bind h with h | ⟨⟨t1, pr⟩, h1, h⟩
    · rw [pre_lift_err (downStep_count s) h]; rfl
    · rw [(pre_lift (downStep_count s) h1).1]
      dsimp only at h
      rcases err_bind h with h | ⟨t2, h2, h⟩
      · simp only [bind, Except.bind, post_lift_err (upStep_count s) _ h]
      · simp only [bind, Except.bind, (post_lift (upStep_count s) _ _ h2).1]
        split at h
        · rename_i hp; rw [if_pos hp]; exact solveLoopP_err n h
        · cases h

theorem runSliceP_err {rnd : Int → Int → Int → Int} {s : Slice} {o : Options} {length : Int} {t : Tree Proxy} {e : Err}
    (h : runSliceP rnd s o length t = .error e) : runSlice rnd s o length (t.map (Proxy.get s)) = .error e := by
  unfold runSliceP at h
  unfold runSlice
  rcases err_bind h with h | ⟨t1, h1, h⟩
  · rw [post_lift_err (adjustStep_count s) _ h]; rfl
  simp only [bind, Except.bind, (post_lift (adjustStep_count s) _ _ h1).1]
  rcases err_bind h with h | ⟨t2, h2, h⟩
  · unfold solveP at h
    unfold solve
    rcases err_bind h with h | ⟨t3, h3, h⟩
    · simp only [bind, Except.bind, post_lift_err (upStep_count s) _ h]
    · simp only [bind, Except.bind, (post_lift (upStep_count s) _ _ h3).1, Tree.count_map, solveLoopP_err _ h]
  obtain ⟨b, hb⟩ := (solveP_ok h2).1
  simp only [hb]
  rcases err_bind h with h | ⟨t3, h3, h⟩
  · unfold layoutP at h
    unfold layout
    rcases err_bind h with h | ⟨_, _, h⟩
    · have := pre_lift_err (layoutStep_count rnd s) h
      rw [Tree.map_setRoot, get_set] at this
      rw [Tree.map_root]
      simp only [bind, Except.bind, this]
    · cases h
  simp only [(layoutP_ok h3).1]
  rcases err_bind h with h | ⟨t4, h4, h⟩
  · simp only [post_lift_err (outsetsStep_count s) _ h]
  simp only [(post_lift (outsetsStep_count s) _ _ h4).1]
  rcases err_bind h with h | ⟨_, _, h⟩
  · simp only [pre_lift_err (flattenStep_count o) h]
  · cases h

end Verif.Eve
