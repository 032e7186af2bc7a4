import Verif.Forest.Sim
/-
Properties C20-C24 and C41 of adobe/forest.hpp.
`Reach s A`: `s` is a heap reached by a client program over any number of forests, all of whose calls meet their
preconditions, and `A` is what that program means in terms of ordered forests (History.lean, Spec.lean).
-/
namespace Verif.Forest
open Verif.Ring Forest

variable {α : Type}

theorem walk_mono {h : Heap α} {l : Pos} : ∀ (f g : Nat) (p : Pos) (x : List Pos), f ≤ g → h.walk l f p = some x → h.walk l g p = some x := by
  intro f
  induction f with
  | zero =>
    intro g p x _ he
    simp only [Heap.walk] at he
    split at he
    · rename_i hp
      cases g <;> simpa [Heap.walk, hp] using he
    · cases he
  | succ f ih =>
    intro g p x hfg he
    obtain ⟨g, rfl⟩ : ∃ g', g = g' + 1 := ⟨g - 1, by omega⟩
    simp only [Heap.walk] at he ⊢
    split at he
    · rename_i hp; rw [if_pos hp]; exact he
    · rename_i hp; rw [if_neg hp]
      simp only [Option.map_eq_some_iff] at he ⊢
      obtain ⟨a, ha, hx⟩ := he
      exact ⟨a, ih g _ _ (by omega) ha, hx⟩

/-! ### C20 -/

/-- Every call made under its precondition terminates without touching a freed node, whatever freed memory looks like; it
    returns what the tree edit says, and the program so extended means the edited forests. -/
theorem C20_history {s : St α} {A A' : AS α} {op : Op α} {out : Out} (h : Reach s A) (hs : AStep A op out A') (junk : Pos → Nat) :
    ∃ s', s.Call junk op s' out ∧ Reach s' A' ∧ ∀ s2 out2, s.Call junk op s2 out2 → s2 = s' ∧ out2 = out := by
  obtain ⟨s', h1, _⟩ := sim junk (reach_rep h) hs
  exact ⟨s', h1, .step h hs h1, fun s2 out2 h2 => call_unique h2 h1⟩

/-- The fullorder traversal is the parenthesis word of the forest the history means. -/
theorem C20_traversal {s : St α} {A : AS α} (h : Reach s A) {t : Nat} (ht : t ∈ A.tails) {fuel : Nat} (hf : 2 * (A.F t).card ≤ fuel) :
    s.heap.walk (end_ t) fuel (s.heap.begin t) = some (A.F t).word := by
  have v := (reach_rep h).valid t ht
  rw [begin_eq v, at_]
  simp only [Ctx.rw, List.append_nil]
  refine walk_eq _ _ (run_tail v.run) ?_ (by rw [word_length]; exact hf)
  rw [end_, mem_word]
  exact (List.nodup_cons.mp v.nd).1

/-- Dereferencing gives the value the history put at the node; nodes of different forests are different, and exactly the
    nodes of the forests are alive. -/
theorem C20_values {s : St α} {A : AS α} (h : Reach s A) :
    (∀ n, s.heap.val n = A.V n) ∧ (∀ n, A.V n ≠ none ↔ ∃ t ∈ A.tails, n ∈ (A.F t).pre) ∧ (∀ t ∈ A.tails, (t :: (A.F t).pre).Nodup) ∧
      ∀ t ∈ A.tails, ∀ u ∈ A.tails, t ≠ u → ∀ n ∈ t :: (A.F t).pre, n ∉ u :: (A.F u).pre := by
  have r := reach_rep h
  refine ⟨fun n => by rw [r.vals], ?_, fun t ht => (r.valid t ht).nd, r.disj⟩
  intro n
  constructor
  · intro hn
    obtain ⟨v, hv⟩ := Option.ne_none_iff_exists'.mp hn
    exact r.leak n v hv
  · rintro ⟨t, ht, hn⟩
    obtain ⟨v, hv⟩ := (r.live t ht).1 n hn
    rw [hv]; simp

/-- The places of the specification are exactly the iterators from `begin()` to `end()`: no valid position is left out. -/
theorem C20_positions (F : Forest Nat) (t : Nat) (p : Pos) :
    p ∈ F.word ++ [end_ t] ↔ ∃ c R, F = plug c R ∧ p = place t c R := by
  constructor
  · intro hp
    obtain ⟨c, g, h1, h2⟩ := ctx_cover F p t hp
    exact ⟨c, g, h1, by rw [place_eq, at_]; exact h2⟩
  · rintro ⟨c, R, rfl, rfl⟩
    rw [place_eq, word_plug]
    obtain ⟨B, hB⟩ := rest_split t c R
    rw [end_, List.append_assoc, List.append_assoc, hB]
    simp

/-- a forest is determined by its traversal -/
theorem C20_word_determines {F G : Forest Nat} (h : F.word = G.word) : F = G := word_inj h

/-! ### C21 -/

/-- `--` undoes `++` at every position but `end()`, `++` undoes `--` at every position but `begin()`, both stay in range. -/
theorem C21_inverse {s : St α} {A : AS α} (h : Reach s A) {t : Nat} (ht : t ∈ A.tails) :
    (∀ p ∈ (A.F t).word, s.heap.inc p ∈ (A.F t).word ++ [end_ t] ∧ s.heap.dec (s.heap.inc p) = p) ∧
    (∀ p ∈ (A.F t).word ++ [end_ t], p ≠ s.heap.begin t → s.heap.dec p ∈ (A.F t).word ∧ s.heap.inc (s.heap.dec p) = p) := by
  have v := (reach_rep h).valid t ht
  constructor
  · intro p hp
    obtain ⟨X, Y, e⟩ := List.append_of_mem hp
    obtain ⟨q, Q, hq⟩ : ∃ q Q, Y ++ [(t, false)] = q :: Q := by
      cases Y with
      | nil => exact ⟨_, _, rfl⟩
      | cons a Y => exact ⟨a, Y ++ [(t, false)], rfl⟩
    have hfull : full t (A.F t) = ((t, true) :: X) ++ p :: q :: Q := by
      rw [full, e, List.append_assoc, List.cons_append, hq, List.cons_append]
    obtain ⟨h1, h2⟩ := v.step hfull
    refine ⟨?_, by rw [h1, h2]⟩
    rw [h1, e, end_, List.append_assoc, List.cons_append, hq]
    simp
  · intro p hp hb
    have hb' : s.heap.begin t = firstOf (A.F t).word (t, false) := by rw [begin_eq v, at_]; simp [Ctx.rw]
    obtain ⟨X, Y, e⟩ := List.append_of_mem hp
    rcases List.eq_nil_or_concat X with hX | ⟨X', q, hX⟩
    · exfalso
      apply hb
      rw [hb']
      subst hX
      cases hw : (A.F t).word with
      | nil => rw [hw] at e; simp only [List.nil_append, List.cons.injEq, end_] at e; simp [firstOf, e.1]
      | cons a w => rw [hw] at e; simp at e; simp [firstOf, e.1]
    · subst hX
      have hfull : full t (A.F t) = ((t, true) :: X') ++ q :: p :: Y := by
        rw [full]
        rw [end_] at e
        rw [e]; simp
      obtain ⟨h1, h2⟩ := v.step hfull
      refine ⟨?_, by rw [h2, h1]⟩
      rw [h2]
      have : q ∈ (A.F t).word ++ [end_ t] := by rw [e]; simp
      rcases List.mem_append.mp this with hq | hq
      · exact hq
      · exfalso
        have nd := full_nodup v.nd
        rw [hfull] at nd
        simp only [List.mem_singleton, end_] at hq
        have hlast : (full t (A.F t)).getLast (by simp [full]) = (t, false) := by simp [full]
        have : (t, false) ∈ p :: Y := by
          have h3 : (full t (A.F t)).getLast (by simp [full]) ∈ p :: Y := by
            simp only [hfull]
            rw [List.getLast_append_of_ne_nil (by simp)]
            · rw [List.getLast_cons (by simp)]; exact List.getLast_mem _
            · simp
          rw [hlast] at h3; exact h3
        rw [hq] at nd
        have := (List.nodup_cons.mp (List.nodup_append.mp nd).2.1).1
        exact this ‹_›

/-- Iterating forwards and backwards between `begin()` and `end()` visits the same positions. -/
theorem C21_forwards_backwards {s : St α} {A : AS α} (h : Reach s A) {t : Nat} (ht : t ∈ A.tails) {fuel : Nat} (hf : 2 * (A.F t).card ≤ fuel) :
    s.heap.walk (end_ t) fuel (s.heap.begin t) = some (A.F t).word ∧
    s.heap.walkBack (s.heap.begin t) fuel (end_ t) = some ((A.F t).word ++ [end_ t]).tail.reverse := by
  refine ⟨C20_traversal h ht hf, ?_⟩
  have v := (reach_rep h).valid t ht
  have hb' : s.heap.begin t = firstOf (A.F t).word (t, false) := by rw [begin_eq v, at_]; simp [Ctx.rw]
  have nd := full_nodup v.nd
  have hr := runB_of_nav v.nav
  rw [full] at hr nd
  cases hw : (A.F t).word with
  | nil =>
    rw [hb', hw]
    cases fuel <;> simp [Heap.walkBack, end_, firstOf]
  | cons a w =>
    rw [hw] at hr nd
    rw [hb', hw]
    simp only [firstOf, List.cons_append, List.tail_cons]
    have hr' : RunB s.heap ((w ++ [(t, false)]).reverse ++ [a]) := by
      have : ((t, true) :: (a :: w ++ [(t, false)])).reverse = ((w ++ [(t, false)]).reverse ++ [a]) ++ [(t, true)] := by simp
      rw [this] at hr
      clear this hw nd
      revert hr
      generalize (w ++ [(t, false)]).reverse ++ [a] = L
      intro hr
      induction L with
      | nil => exact trivial
      | cons x L ih =>
        cases L with
        | nil => exact trivial
        | cons y L => exact ⟨hr.1, ih hr.2⟩
    have := walkBack_eq (h := s.heap) (z := a) (w ++ [(t, false)]).reverse fuel hr' ?_ ?_
    · have hfst : firstOf (w ++ [(t, false)]).reverse a = end_ t := by simp [firstOf, end_]
      rw [hfst] at this
      exact this
    · rw [List.mem_reverse]
      exact (List.nodup_cons.mp (List.nodup_cons.mp nd).2).1
    · have : (A.F t).word.length = 2 * (A.F t).card := word_length _
      rw [hw] at this
      simp only [List.length_reverse, List.length_append, List.length_cons, List.length_nil] at this ⊢
      omega

theorem nested_aux (F : Forest Nat) {n : Nat} (hn : n ∈ F.pre) : ∃ X, ∃ k : Forest Nat, ∃ Y, F.word = X ++ (n, true) :: (k.word ++ (n, false) :: Y) := by
  induction F with
  | nil => simp at hn
  | cons m k r ihk ihr =>
    simp only [pre_cons, List.mem_cons, List.mem_append] at hn
    rcases hn with rfl | hn | hn
    · exact ⟨[], k, r.word, rfl⟩
    · obtain ⟨X, k', Y, e⟩ := ihk hn
      exact ⟨(m, true) :: X, k', Y ++ (m, false) :: r.word, by simp [word, e]⟩
    · obtain ⟨X, k', Y, e⟩ := ihr hn
      exact ⟨(m, true) :: (k.word ++ (m, false) :: X), k', Y, by simp [word, e]⟩

/-- Each node is visited exactly once on each edge, the leading edge first and only whole subtrees in between. -/
theorem C21_nesting {s : St α} {A : AS α} (h : Reach s A) {t : Nat} (ht : t ∈ A.tails) :
    ∃ w, s.heap.walk (end_ t) (2 * (A.F t).card) (s.heap.begin t) = some w ∧ w.Nodup ∧
      (∀ p ∈ w, p.1 ∈ (A.F t).pre) ∧
      ∀ n ∈ (A.F t).pre, ∃ X k Y, w = X ++ (n, true) :: (Forest.word k ++ (n, false) :: Y) := by
  refine ⟨_, C20_traversal h ht (Nat.le_refl _), ?_, fun p hp => mem_word.mp hp, fun n hn => nested_aux _ hn⟩
  exact word_nodup (List.nodup_cons.mp ((reach_rep h).valid t ht).nd).2

/-! ### C22 -/

/-- `size()` is the number of nodes, whatever the history; the traversal is unaffected. -/
theorem C22_size {s : St α} {A : AS α} (h : Reach s A) {t : Nat} (ht : t ∈ A.tails) (junk : Pos → Nat) :
    ∃ s', s.Call junk (.size t) s' (.num (A.F t).pre.length) ∧ Reach s' A ∧ s'.heap = s.heap := by
  obtain ⟨s', h1, h2, h3⟩ := (reach_rep h).getSize ht (Nat.le_refl _)
  have hc : s.Call junk (.size t) s' (.num (A.F t).card) := ⟨_, by simp only [St.exec]; rw [h1]; rfl⟩
  refine ⟨s', ?_, .step h (.size ht) hc, h3⟩
  rw [← card_eq]; exact hc

/-! ### C23 -/

/-- A copy has the shape and values of the original, consists of new nodes, and leaves all existing forests alone. -/
theorem C23_copy {s : St α} {A : AS α} (h : Reach s A) (junk : Pos → Nat) {t u : Nat} (ht : Fresh A t) (hu : u ∈ A.tails)
    {ns : List Nat} (hns : ns.length = (A.F u).card) (hav : Avail A ns) (htn : t ∉ ns) :
    ∃ s' A', s.Call junk (.copy t u ns) s' .none ∧ Reach s' A' ∧ A'.tails = t :: A.tails ∧
      (A'.F t).map A'.V = (A.F u).map A.V ∧ (A'.F t).pre = ns ∧
      (∀ v ∈ A.tails, A'.F v = A.F v ∧ (A'.F v).map A'.V = (A.F v).map A.V) := by
  have r := reach_rep h
  obtain ⟨s', S', V', a1, a2, a3, a4, r'⟩ := r.copy ht hu hns hav htn (Nat.le_refl _)
  have hc : s.Call junk (.copy t u ns) s' .none := ⟨_, by simp only [St.exec]; rw [a4]; rfl⟩
  refine ⟨s', _, hc, .step h (.copy ht hu hns hav htn a1 a2 a3) hc, rfl, ?_, ?_, ?_⟩
  · simp only [upd_eq]; exact a2
  · simp only [upd_eq]; exact a1
  · intro v hv
    have hne : v ≠ t := by rintro rfl; exact ht.2 hv
    simp only [upd_ne hne, true_and]
    apply map_congr
    intro n hn
    refine a3 n fun hnn => ?_
    obtain ⟨x, hx⟩ := (r.live v hv).1 n hn
    rw [(hav.2 n hnn).1] at hx
    cases hx

/-- `x == y` decides, given a decision `veq` of equality of values, whether shape and values coincide. -/
theorem C23_equality {s : St α} {A : AS α} (h : Reach s A) (veq : α → α → Bool) {t u : Nat} (ht : t ∈ A.tails) (hu : u ∈ A.tails) :
    ∃ fuel s' b, s.eq veq fuel t u = some (s', b) ∧ s'.heap = s.heap ∧
      (b = true ↔ (A.F t).rel (fun a b => ∃ x y, A.V a = some x ∧ A.V b = some y ∧ veq x y = true) (A.F u)) := by
  obtain ⟨s', b, h1, h2, h3⟩ := (reach_rep h).eq veq ht hu (fuel := 2 * (A.F t).card + 1 + (2 * (A.F u).card + 1)) (by omega) (by omega)
  refine ⟨_, s', b, h1, ?_, h3⟩
  unfold St.eq at h1
  obtain ⟨s1, g1, _, g2⟩ := (reach_rep h).getSize ht (fuel := 2 * (A.F t).card + 1 + (2 * (A.F u).card + 1)) (by omega)
  rw [g1] at h1
  have r1 : Rep s1 A := by
    obtain ⟨s1', g1', r1', _⟩ := (reach_rep h).getSize ht (fuel := 2 * (A.F t).card + 1 + (2 * (A.F u).card + 1)) (by omega)
    rw [g1] at g1'; cases g1'; exact r1'
  obtain ⟨s2, g3, _, g4⟩ := r1.getSize hu (fuel := 2 * (A.F t).card + 1 + (2 * (A.F u).card + 1)) (by omega)
  simp only [g3] at h1
  split at h1
  · cases h1; rw [g4, g2]
  · simp only [Option.map_eq_some_iff] at h1
    obtain ⟨_, _, h1⟩ := h1
    cases h1; rw [g4, g2]

theorem rel_map {γ : Type} {V W : Nat → γ} {F : Forest Nat} : ∀ {G : Forest Nat}, F.rel (fun a b => V a = W b) G ↔ F.map V = G.map W := by
  induction F with
  | nil => intro G; cases G <;> simp [rel, Forest.map]
  | cons n k r ihk ihr => intro G; cases G <;> simp [rel, Forest.map, ihk, ihr]

theorem rel_congr {P Q : Nat → Nat → Prop} {F : Forest Nat} : ∀ {G : Forest Nat}, (∀ a ∈ F.pre, ∀ b ∈ G.pre, (P a b ↔ Q a b)) → (F.rel P G ↔ F.rel Q G) := by
  induction F with
  | nil => intro G _; cases G <;> simp [rel]
  | cons n k r ihk ihr =>
    intro G h
    cases G with
    | nil => simp [rel]
    | cons n' k' r' =>
      simp only [rel]
      rw [h n (by simp) n' (by simp), ihk (fun a ha b hb => h a (by simp [ha]) b (by simp [hb])),
        ihr (fun a ha b hb => h a (by simp [ha]) b (by simp [hb]))]

/-- With true equality of values: `x == y` iff the two forests are the same forest of values. -/
theorem C23_equality_eq [DecidableEq α] {s : St α} {A : AS α} (h : Reach s A) {t u : Nat} (ht : t ∈ A.tails) (hu : u ∈ A.tails) :
    ∃ fuel s', s.eq (fun a b => decide (a = b)) fuel t u = some (s', decide ((A.F t).map A.V = (A.F u).map A.V)) := by
  obtain ⟨fuel, s', b, h1, _, h3⟩ := C23_equality h (fun a b => decide (a = b)) ht hu
  refine ⟨fuel, s', ?_⟩
  rw [h1]
  congr 2
  have r := reach_rep h
  rw [rel_congr (Q := fun a b => A.V a = A.V b), rel_map] at h3
  · rw [Bool.eq_iff_iff, h3, decide_eq_true_eq]
  · intro a ha b hb
    obtain ⟨x, hx⟩ := (r.live t ht).1 a ha
    obtain ⟨y, hy⟩ := (r.live u hu).1 b hb
    rw [hx, hy]; simp [eq_comm]

/-! ### C24 -/

/-- preorder and postorder ranges -/
theorem C24_preorder_postorder {s : St α} {A : AS α} (h : Reach s A) {t : Nat} (ht : t ∈ A.tails) {fuel : Nat} (hf : 2 * (A.F t).card + 1 ≤ fuel) :
    s.heap.edgeRange true fuel t = some ((A.F t).pre.map (fun n => (n, true))) ∧
    s.heap.edgeRange false fuel t = some ((A.F t).post.map (fun n => (n, false))) :=
  ⟨preorder_eq ((reach_rep h).valid t ht) hf, postorder_eq ((reach_rep h).valid t ht) (by omega)⟩

/-- `child_range` lists the direct children in order, `has_children` tells whether there are any, `find_parent` finds the
    parent's trailing edge, from either edge of every node; the root's children are the top-level trees. -/
theorem C24_children_parent {s : St α} {A : AS α} (h : Reach s A) {t : Nat} (ht : t ∈ A.tails) {c : Ctx Nat} {n : Nat} {k R : Forest Nat}
    (hF : A.F t = plug c (.cons n k R)) (e : Bool) {fuel : Nat} (hf : (A.F t).card + 1 ≤ fuel) :
    s.heap.childRange fuel (n, e) = some (k.roots.map (fun m => (m, true))) ∧
    s.heap.hasChildren (n, e) = decide (k ≠ .nil) ∧
    s.heap.findParent fuel (n, e) = some (c.parent t, false) ∧
    s.heap.childRange fuel (t, e) = some ((A.F t).roots.map (fun m => (m, true))) := by
  have v := (reach_rep h).valid t ht
  have hc : (A.F t).card = c.ids.length + (1 + k.card + R.card) := by rw [hF, card_plug]; rfl
  have v' := v
  rw [hF] at v'
  exact ⟨childRange_eq v' e (by omega), v'.hasChildren e, findParent_eq R c n k e fuel v' (by omega), childRange_root v e (by omega)⟩

/-- `depth_range` reports every position with its depth. -/
theorem C24_depth {s : St α} {A : AS α} (h : Reach s A) {t : Nat} (ht : t ∈ A.tails) {fuel : Nat} (hf : 2 * (A.F t).card ≤ fuel) :
    s.heap.depthWalk (end_ t) fuel (s.heap.begin t, 0) = some ((A.F t).depths 0) := depthRange_eq ((reach_rep h).valid t ht) hf

/-- `reverse_fullorder_range` is the traversal of the mirror image. -/
theorem C24_reverse_fullorder {s : St α} {A : AS α} (h : Reach s A) {t : Nat} (ht : t ∈ A.tails) {fuel : Nat} (hf : 2 * (A.F t).card ≤ fuel) :
    s.heap.revWalk (s.heap.revMk (s.heap.begin t)) fuel (s.heap.revMk (end_ t)) = some (A.F t).mirror.word :=
  reverseRange_eq ((reach_rep h).valid t ht) hf

/-- `filter_fullorder_range` is the traversal of the forest without the subtrees whose root fails the predicate. -/
theorem C24_filter {s : St α} {A : AS α} (h : Reach s A) {t : Nat} (ht : t ∈ A.tails) (p : α → Bool) {fuel : Nat} (hf : 2 * (A.F t).card + 1 ≤ fuel) :
    s.heap.filterRange p fuel t = some ((A.F t).prune (fun n => (A.V n).any p)).word := by
  have r := reach_rep h
  have hs : (fun n => (A.V n).any p) = sat s.heap.val p := by
    funext n; rw [r.vals, sat]; cases A.V n <;> rfl
  rw [hs]
  refine filterRange_eq (r.valid t ht) ?_ p hf
  intro n hn; rw [r.vals]; exact (r.live t ht).1 n hn

/-! ### C41 -/

/-- `reverse` of all the siblings from some place to the end, or of at most one tree, reverses the trees. -/
theorem C41_reverse_partial {s : St α} {A : AS α} (h : Reach s A) (junk : Pos → Nat) {t : Nat} (ht : t ∈ A.tails) {c : Ctx Nat} {S R : Forest Nat}
    (hF : A.F t = plug c (append S R)) (hcase : R = .nil ∨ S.roots.length ≤ 1) :
    ∃ s' A', s.Call junk (.reverse (place t c (append S R)) (place t c R)) s' .none ∧ Reach s' A' ∧ A'.V = A.V ∧
      A'.F t = plug c (append S.rev R) ∧ ∀ u ∈ A.tails, u ≠ t → A'.F u = A.F u := by
  rcases hcase with rfl | hS
  · have e : ∀ X : Forest Nat, append X .nil = X := by
      intro X; induction X with
      | nil => rfl
      | cons n k r _ ih => simp [append, ih]
    rw [e] at hF ⊢
    obtain ⟨s', h1, h2, _⟩ := C20_history h (.reverseEnd ht hF) junk
    exact ⟨s', _, h1, h2, rfl, by simp [upd_eq, e], fun u _ hu => by simp [upd_ne hu]⟩
  · obtain ⟨s', h1, h2, _⟩ := C20_history h (.reverseShort ht hF hS) junk
    refine ⟨s', _, h1, h2, rfl, ?_, fun u _ _ => rfl⟩
    have : S.rev = S := by
      cases S with
      | nil => rfl
      | cons n k r => cases r with
        | nil => rfl
        | cons => simp [roots] at hS
    rw [this]; exact hF

/-- a client program: three leaves 1, 2, 3 in one forest -/
def prog3 : List (Op Nat) := [.create 0, .insert 0 (0, false) 10 1, .insert 0 (0, false) 20 2, .insert 0 (0, false) 30 3]

def s0 : St Nat := ⟨⟨fun _ => 0, fun _ => 0, fun _ => none⟩, fun _ => 0⟩
def runOps (s : St Nat) : List (Op Nat) → St Nat
  | [] => s
  | op :: ops => match s.exec (fun _ => 0) 100 op with
    | some (s', _) => runOps s' ops
    | none => s
def s3 : St Nat := runOps s0 prog3

def A3 : AS Nat := ⟨[0], upd (fun _ => .nil) 0 (.cons 1 .nil (.cons 2 .nil (.cons 3 .nil .nil))),
  upd (upd (upd (fun _ => none) 1 (some 10)) 2 (some 20)) 3 (some 30)⟩

theorem reach3 : Reach s3 A3 := by
  have a0 : Reach s0 AS.empty := .init fun _ => rfl
  have a1 := Reach.step (junk := fun _ => 0) (s' := runOps s0 (prog3.take 1)) (out' := .none) a0 (.create (t := 0) ⟨rfl, by simp [AS.empty]⟩) ⟨100, rfl⟩
  have a2 := Reach.step (junk := fun _ => 0) (s' := runOps s0 (prog3.take 2)) (out' := .pos (1, true)) a1
    (.insert (t := 0) (c := .top) (R := .nil) (x := 10) (n := 1) (by simp) (by simp [upd_eq, plug]) ⟨rfl, by simp [AS.empty]⟩) ⟨100, rfl⟩
  have a3 := Reach.step (junk := fun _ => 0) (s' := runOps s0 (prog3.take 3)) (out' := .pos (2, true)) a2
    (.insert (t := 0) (c := .after 1 .nil .top) (R := .nil) (x := 20) (n := 2) (by simp) (by simp [upd_eq, plug]) ⟨rfl, by simp [AS.empty]⟩) ⟨100, rfl⟩
  have a4 := Reach.step (junk := fun _ => 0) (s' := runOps s0 (prog3.take 4)) (out' := .pos (3, true)) a3
    (.insert (t := 0) (c := .after 1 .nil (.after 2 .nil .top)) (R := .nil) (x := 30) (n := 3) (by simp) (by simp [upd_eq, plug]) ⟨rfl, by simp [AS.empty]⟩) ⟨100, rfl⟩
  simpa [s3, A3, prog3, plug, upd_upd, AS.empty] using a4

/-- `reverse(first, last)` with `last` not the end of the siblings destroys the forest: from the reachable forest of three
    leaves, reversing the first two terminates, and no traversal of the result is the word of any forest. -/
theorem C41_reverse_violated : ∃ (s s' : St Nat) (A : AS Nat), Reach s A ∧ 0 ∈ A.tails ∧
    A.F 0 = append (.cons 1 .nil (.cons 2 .nil .nil)) (.cons 3 .nil .nil) ∧
    (∀ junk, s.Call junk (.reverse (place 0 .top (A.F 0)) (place 0 .top (.cons 3 .nil .nil))) s' .none) ∧
    ∀ fuel (G : Forest Nat), s'.heap.walk (end_ 0) fuel (s'.heap.begin 0) ≠ some G.word := by
  refine ⟨s3, runOps s3 [.reverse (1, true) (3, true)], A3, reach3, by simp [A3], rfl, fun junk => ⟨100, rfl⟩, ?_⟩
  intro fuel G hG
  have h1 : (runOps s3 [.reverse (1, true) (3, true)]).heap.walk (end_ 0) 100 ((runOps s3 [.reverse (1, true) (3, true)]).heap.begin 0) =
      some [(1, true), (1, false), (2, true), (2, false), (3, false)] := by decide
  have e1 := walk_mono _ _ _ _ (Nat.le_max_left fuel 100) hG
  have e2 := walk_mono _ _ _ _ (Nat.le_max_right fuel 100) h1
  rw [e1] at e2
  have := congrArg List.length (Option.some.inj e2)
  rw [word_length] at this
  simp at this
  omega

/-! ### the hypotheses are met -/

/-- C20-C24: a reachable state with a non-trivial forest, and a call under its precondition -/
example : ∃ (s : St Nat) (A : AS Nat), Reach s A ∧ 0 ∈ A.tails ∧ (A.F 0).pre = [1, 2, 3] ∧ AStep A (.insertParent 0 (1, true) (3, true) 40 4) (.pos (4, true))
    { A with F := upd A.F 0 (.cons 4 (.cons 1 .nil (.cons 2 .nil .nil)) (.cons 3 .nil .nil)), V := upd A.V 4 (some 40) } :=
  ⟨s3, A3, reach3, by simp [A3], rfl,
    AStep.insertParent (t := 0) (c := .top) (S := .cons 1 .nil (.cons 2 .nil .nil)) (R := .cons 3 .nil .nil) (by simp [A3]) rfl ⟨rfl, by simp [A3]⟩⟩

/-- C20: erasing the inner node makes its children siblings of its sibling -/
example : ∃ (s : St Nat) (A : AS Nat), Reach s A ∧ A.F 0 = .cons 4 (.cons 1 .nil (.cons 2 .nil .nil)) (.cons 3 .nil .nil) ∧
    AStep A (.erase 0 (4, true)) (.pos (1, true)) { A with F := upd A.F 0 (.cons 1 .nil (.cons 2 .nil (.cons 3 .nil .nil))), V := upd A.V 4 none } := by
  obtain ⟨s', h1, h2, _⟩ := C20_history reach3
    (AStep.insertParent (t := 0) (c := .top) (S := .cons 1 .nil (.cons 2 .nil .nil)) (R := .cons 3 .nil .nil) (x := 40) (n := 4) (by simp [A3]) rfl ⟨rfl, by simp [A3]⟩) (fun _ => 0)
  exact ⟨s', _, h2, rfl, AStep.erase (t := 0) (c := .top) (n := 4) (k := .cons 1 .nil (.cons 2 .nil .nil)) (R := .cons 3 .nil .nil) true (by simp [A3]) rfl⟩

/-- C20: a range erase whose range starts in the middle: the lone trailing edge of 1 keeps node 1 -/
example : AStep A3 (.eraseRange 0 (1, false) (3, true)) (.pos (3, true))
    { A3 with F := upd A3.F 0 (.cons 1 .nil (.cons 3 .nil .nil)), V := fun n => if both [(1, false), (2, true), (2, false)] n then none else A3.V n } :=
  AStep.eraseRange (X := [(1, true)]) (M := [(1, false), (2, true), (2, false)]) (Y := [(3, false), (0, false)]) (by simp [A3]) (by decide) rfl (by decide)

/-- C23: room for a copy -/
example : Fresh A3 9 ∧ Avail A3 [5, 6, 7] ∧ [5, 6, 7].length = (A3.F 0).card := by
  refine ⟨⟨rfl, by simp [A3]⟩, ⟨by decide, ?_⟩, rfl⟩
  intro n hn
  have : n = 5 ∨ n = 6 ∨ n = 7 := by simpa using hn
  rcases this with rfl | rfl | rfl <;> exact ⟨rfl, by simp [A3]⟩

/-- C24: a node with its place -/
example : A3.F 0 = plug (.after 1 .nil .top) (.cons 2 .nil (.cons 3 .nil .nil)) := rfl

/-- C41: the partial theorem applies to the whole list of siblings -/
example : A3.F 0 = plug .top (append (.cons 1 .nil (.cons 2 .nil (.cons 3 .nil .nil))) .nil) := rfl

end Verif.Forest
