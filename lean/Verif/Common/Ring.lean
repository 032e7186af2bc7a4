/-
Circular doubly linked lists through a sentinel: `next`/`prior` maps over a node type, the surgery `set_next`, and the
lemmas that splice operations act as list edits.  (Helper theory; the C++ functions are modelled in the components.)
-/
namespace Verif.Ring

variable {N : Type} [DecidableEq N]

def upd {V : Type} (f : N → V) (a : N) (v : V) : N → V := fun b => if b = a then v else f b

@[simp] theorem upd_same {V : Type} (f : N → V) (a : N) (v : V) : upd f a v a = v := by simp [upd]
theorem upd_ne {V : Type} (f : N → V) (a b : N) (v : V) (h : b ≠ a) : upd f a v b = f b := by simp [upd, h]

/-- consecutive members of the list are linked both ways -/
def Path (next prior : N → N) : List N → Prop
  | a :: b :: t => next a = b ∧ prior b = a ∧ Path next prior (b :: t)
  | _ => True

variable {next prior : N → N}

theorem path_mid (A : List N) (m : N) (B : List N) :
    Path next prior (A ++ m :: B) ↔ Path next prior (A ++ [m]) ∧ Path next prior (m :: B) := by
  induction A with
  | nil => simp [Path]
  | cons a A ih =>
    cases A with
    | nil => simp [Path, and_assoc]
    | cons b A =>
      simp only [List.cons_append, Path] at ih ⊢
      rw [ih]; simp only [and_assoc]

theorem path_setNext {l : List N} (h : Path next prior l) (x y : N) (hx : x ∉ l.dropLast) (hy : y ∉ l.tail) :
    Path (upd next x y) (upd prior y x) l := by
  induction l with
  | nil => trivial
  | cons a t ih =>
    cases t with
    | nil => trivial
    | cons b t =>
      simp only [Path] at h ⊢
      simp only [List.dropLast, List.mem_cons, not_or, List.tail_cons] at hx hy
      refine ⟨?_, ?_, ih h.2.2 (by simpa using hx.2) (by simpa using hy.2)⟩
      · rw [upd_ne _ _ _ _ (Ne.symm hx.1)]; exact h.1
      · rw [upd_ne _ _ _ _ (Ne.symm hy.1)]; exact h.2.1

/-- `set_next(p, n)` joins two paths. -/
theorem path_join (P : List N) (p n : N) (Q : List N) (h1 : Path next prior (P ++ [p])) (h2 : Path next prior (n :: Q))
    (hp : p ∉ P) (hp' : p ∉ (n :: Q).dropLast) (hn : n ∉ (P ++ [p]).tail) (hn' : n ∉ Q) :
    Path (upd next p n) (upd prior n p) (P ++ p :: n :: Q) := by
  rw [path_mid]
  refine ⟨path_setNext h1 p n (by simpa using hp) hn, ?_⟩
  refine ⟨by simp, by simp, path_setNext h2 p n hp' (by simpa using hn')⟩

/-- A ring: sentinel `s`, then the members of `l` in order, then back to `s`. -/
def Ring (next prior : N → N) (s : N) (l : List N) : Prop := Path next prior (s :: (l ++ [s]))

/-- last of `s :: A` -/
def lastOf (s : N) (A : List N) : N := A.getLast?.getD s
/-- first of `B ++ [s]` -/
def firstOf (B : List N) (s : N) : N := B.head?.getD s

@[simp] theorem lastOf_nil (s : N) : lastOf s [] = s := rfl
@[simp] theorem lastOf_concat (s : N) (A : List N) (a : N) : lastOf s (A ++ [a]) = a := by simp [lastOf]
@[simp] theorem firstOf_nil (s : N) : firstOf [] s = s := rfl
@[simp] theorem firstOf_cons (s : N) (B : List N) (a : N) : firstOf (a :: B) s = a := rfl

theorem split_last (s : N) (A : List N) : ∃ P, s :: A = P ++ [lastOf s A] := by
  rcases List.eq_nil_or_concat A with rfl | ⟨A', a, rfl⟩
  · exact ⟨[], rfl⟩
  · exact ⟨s :: A', by simp [lastOf]⟩

theorem split_first (B : List N) (s : N) : ∃ Q, B ++ [s] = firstOf B s :: Q := by
  cases B with
  | nil => exact ⟨[], rfl⟩
  | cons b B => exact ⟨B ++ [s], rfl⟩

theorem lastOf_mem (s : N) (A : List N) : lastOf s A ∈ s :: A := by
  obtain ⟨P, hP⟩ := split_last s A
  rw [hP]; simp

theorem firstOf_mem (B : List N) (s : N) : firstOf B s ∈ s :: B := by
  cases B <;> simp [firstOf]

theorem ring_frame {s : N} {l : List N} (h : Ring next prior s l) (x y : N) (hx : x ∉ s :: l) (hy : y ∉ s :: l) :
    Ring (upd next x y) (upd prior y x) s l := by
  apply path_setNext h
  · rw [show s :: (l ++ [s]) = (s :: l) ++ [s] by simp, List.dropLast_concat]; exact hx
  · simp only [List.tail_cons, List.mem_append, List.mem_singleton, not_or]
    simp only [List.mem_cons, not_or] at hy
    exact ⟨hy.2, hy.1⟩

theorem ring_mid {s : N} {A B : List N} {x : N} (h : Ring next prior s (A ++ x :: B)) :
    prior x = lastOf s A ∧ next x = firstOf B s := by
  obtain ⟨P, hP⟩ := split_last s A
  obtain ⟨Q, hQ⟩ := split_first B s
  have : s :: ((A ++ x :: B) ++ [s]) = P ++ lastOf s A :: x :: firstOf B s :: Q := by
    rw [show s :: ((A ++ x :: B) ++ [s]) = (s :: A) ++ x :: (B ++ [s]) by simp, hP, hQ]; simp
  unfold Ring at h
  rw [this, path_mid] at h
  simp only [Path] at h
  exact ⟨h.2.2.1, h.2.2.2.1⟩

theorem ring_ends {s : N} {l : List N} (h : Ring next prior s l) : next s = firstOf l s ∧ prior s = lastOf s l := by
  constructor
  · obtain ⟨Q, hQ⟩ := split_first l s
    unfold Ring at h
    rw [hQ] at h
    exact h.1
  · obtain ⟨P, hP⟩ := split_last s l
    unfold Ring at h
    rw [show s :: (l ++ [s]) = (s :: l) ++ [s] by simp, hP, List.append_assoc, List.singleton_append, path_mid] at h
    exact h.2.2.1

/-- the node after position `lastOf s A` -/
theorem ring_next_last {s : N} {A B : List N} (h : Ring next prior s (A ++ B)) : next (lastOf s A) = firstOf B s := by
  rcases List.eq_nil_or_concat A with rfl | ⟨A', a, rfl⟩
  · simpa using (ring_ends h).1
  · rw [show A'.concat a ++ B = A' ++ a :: B by simp] at h
    rw [List.concat_eq_append, lastOf_concat]
    exact (ring_mid h).2

theorem ring_join {s : N} {A B : List N} (h1 : Path next prior (s :: A)) (h2 : Path next prior (B ++ [s]))
    (nd : (s :: (A ++ B)).Nodup) :
    Ring (upd next (lastOf s A) (firstOf B s)) (upd prior (firstOf B s) (lastOf s A)) s (A ++ B) := by
  obtain ⟨P, hP⟩ := split_last s A
  obtain ⟨Q, hQ⟩ := split_first B s
  have e : s :: ((A ++ B) ++ [s]) = P ++ lastOf s A :: firstOf B s :: Q := by
    rw [show s :: ((A ++ B) ++ [s]) = (s :: A) ++ (B ++ [s]) by simp, hP, hQ]; simp
  unfold Ring
  rw [e]
  rw [hP] at h1
  rw [hQ] at h2
  -- the two duplicate-free views of the cycle
  have d1 : (P ++ lastOf s A :: (firstOf B s :: Q).dropLast).Nodup := by
    have : (P ++ lastOf s A :: firstOf B s :: Q).dropLast = s :: (A ++ B) := by
      rw [← e, show s :: ((A ++ B) ++ [s]) = (s :: (A ++ B)) ++ [s] by simp, List.dropLast_concat]
    rw [show P ++ lastOf s A :: firstOf B s :: Q = (P ++ [lastOf s A]) ++ firstOf B s :: Q by simp,
      List.dropLast_append_of_ne_nil (by simp)] at this
    rw [show P ++ lastOf s A :: (firstOf B s :: Q).dropLast = P ++ [lastOf s A] ++ (firstOf B s :: Q).dropLast by simp, this]
    exact nd
  have d2 : ((P ++ [lastOf s A]).tail ++ firstOf B s :: Q).Nodup := by
    have : (s :: ((A ++ B) ++ [s])).tail = (P ++ [lastOf s A]).tail ++ firstOf B s :: Q := by
      rw [← hP, ← hQ]; simp
    rw [← this, List.tail_cons]
    rw [List.nodup_cons] at nd
    rw [List.nodup_append]
    refine ⟨nd.2, by simp, ?_⟩
    intro a ha b hb
    simp only [List.mem_singleton] at hb
    subst hb
    intro e; subst e; exact nd.1 ha
  rw [List.nodup_append] at d1 d2
  apply path_join P _ _ Q h1 h2
  · intro h; exact d1.2.2 _ h _ (by simp) rfl
  · have := d1.2.1; rw [List.nodup_cons] at this; exact this.1
  · intro h; exact d2.2.2 _ h _ (by simp) rfl
  · have := d2.2.1; rw [List.nodup_cons] at this; exact this.1

/-- `skip_node` removes one node from its ring. -/
theorem ring_remove {s : N} {A B : List N} {x : N} (h : Ring next prior s (A ++ x :: B)) (nd : (s :: (A ++ x :: B)).Nodup) :
    Ring (upd next (prior x) (next x)) (upd prior (next x) (prior x)) s (A ++ B) := by
  rw [(ring_mid h).1, (ring_mid h).2]
  have hh : Path next prior ((s :: A) ++ x :: (B ++ [s])) := by
    have := h; unfold Ring at this
    rwa [show s :: ((A ++ x :: B) ++ [s]) = (s :: A) ++ x :: (B ++ [s]) by simp] at this
  apply ring_join
  · obtain ⟨P, hP⟩ := split_last s A
    rw [hP] at hh ⊢
    rw [List.append_assoc, List.singleton_append, path_mid] at hh
    exact hh.1
  · obtain ⟨Q, hQ⟩ := split_first B s
    rw [hQ] at hh ⊢
    rw [path_mid] at hh
    exact hh.2.2.2
  · have : (s :: (A ++ B)).Sublist (s :: (A ++ x :: B)) := by
      apply List.Sublist.cons_cons
      exact List.Sublist.append (List.Sublist.refl _) (List.sublist_cons_self _ _)
    exact this.nodup nd

/-- `splice_node_range(loc, x, x)` with `loc` the node in front of `B`. -/
theorem ring_insert {s : N} {A B : List N} {x : N} (h : Ring next prior s (A ++ B)) (nd : (s :: (A ++ x :: B)).Nodup) :
    let n1 := upd next (lastOf s A) x
    let p1 := upd prior x (lastOf s A)
    Ring (upd n1 x (next (lastOf s A))) (upd p1 (next (lastOf s A)) x) s (A ++ x :: B) := by
  intro n1 p1
  rw [ring_next_last h]
  have hh : Path next prior ((s :: A) ++ (B ++ [s])) := by
    have := h; unfold Ring at this
    rwa [show s :: ((A ++ B) ++ [s]) = (s :: A) ++ (B ++ [s]) by simp] at this
  have nd' : (s :: A ++ x :: B).Nodup := by simpa using nd
  have hxA : x ∉ s :: A := by
    rw [List.nodup_append] at nd'
    intro hx; exact nd'.2.2 x hx x (by simp) rfl
  have hxB : x ∉ B ++ [s] := by
    rw [List.nodup_append, List.nodup_cons (a := x)] at nd'
    simp only [List.mem_append, List.mem_singleton, not_or]
    refine ⟨nd'.2.1.1, ?_⟩
    intro e; subst e; exact hxA (by simp)
  have ha : Path next prior (s :: A) := by
    obtain ⟨P, hP⟩ := split_last s A
    rw [hP] at hh ⊢
    rw [List.append_assoc, List.singleton_append, path_mid] at hh
    exact hh.1
  have hb : Path next prior (B ++ [s]) := by
    obtain ⟨Q, hQ⟩ := split_first B s
    rw [hQ] at hh ⊢
    rw [path_mid] at hh
    exact hh.2
  have hlast : lastOf s A ∉ (B ++ [s]).dropLast := by
    rw [List.dropLast_concat]
    rw [List.nodup_append] at nd'
    intro hm
    exact nd'.2.2 _ (lastOf_mem s A) _ (by simp [hm]) rfl
  -- after the first set_next
  have a1 : Path n1 p1 (s :: (A ++ [x])) := by
    obtain ⟨P, hP⟩ := split_last s A
    have hP' : s :: (A ++ [x]) = P ++ lastOf s A :: [x] := by
      rw [← List.cons_append, hP]; simp
    rw [hP']
    rw [hP] at ha hxA nd'
    apply path_join P _ x [] ha trivial
    · have := nd'; rw [List.nodup_append, List.nodup_append] at this
      intro hm; exact this.1.2.2 _ hm _ (by simp) rfl
    · simp
    · intro hm; exact hxA (List.mem_of_mem_tail hm)
    · simp
  have b1 : Path n1 p1 (B ++ [s]) := by
    apply path_setNext hb _ _ hlast
    intro hm; exact hxB (List.mem_of_mem_tail hm)
  have := ring_join (A := A ++ [x]) (B := B) a1 b1 (by simpa using nd)
  simpa using this

/-- replacing a node by another (two `set_next`s around it). -/
theorem ring_replace {s : N} {A B : List N} {x y : N} (h : Ring next prior s (A ++ x :: B))
    (nd : (s :: (A ++ x :: B)).Nodup) (hy : y ∉ s :: (A ++ x :: B)) :
    let n1 := upd next (prior x) y
    let p1 := upd prior y (prior x)
    Ring (upd n1 y (n1 x)) (upd p1 (n1 x) y) s (A ++ y :: B) := by
  intro n1 p1
  have hx1 : n1 x = firstOf B s := by
    have : x ≠ prior x := by
      rw [(ring_mid h).1]
      intro e
      have nd' : (s :: A ++ x :: B).Nodup := by simpa using nd
      rw [List.nodup_append] at nd'
      have := lastOf_mem s A
      rw [← e] at this
      exact nd'.2.2 x this x (by simp) rfl
    rw [show n1 x = next x from upd_ne _ _ _ _ this]
    exact (ring_mid h).2
  rw [hx1]
  have nd' : (s :: A ++ x :: B).Nodup := by simpa using nd
  have hh : Path next prior ((s :: A) ++ x :: (B ++ [s])) := by
    have := h; unfold Ring at this
    rwa [show s :: ((A ++ x :: B) ++ [s]) = (s :: A) ++ x :: (B ++ [s]) by simp] at this
  have ha : Path next prior (s :: A) := by
    obtain ⟨P, hP⟩ := split_last s A
    rw [hP] at hh ⊢
    rw [List.append_assoc, List.singleton_append, path_mid] at hh
    exact hh.1
  have hb : Path next prior (B ++ [s]) := by
    obtain ⟨Q, hQ⟩ := split_first B s
    rw [hQ] at hh ⊢
    rw [path_mid] at hh
    exact hh.2.2.2
  have hyA : y ∉ s :: A := by
    intro hm; apply hy; simp only [List.mem_cons, List.mem_append] at hm ⊢; rcases hm with h | h <;> simp [h]
  have hyB : y ∉ B ++ [s] := by
    intro hm; apply hy; simp only [List.mem_cons, List.mem_append, List.mem_singleton] at hm ⊢; rcases hm with h | h <;> simp_all
  have hlast : lastOf s A ∉ (B ++ [s]).dropLast := by
    rw [List.dropLast_concat]
    rw [List.nodup_append] at nd'
    intro hm
    exact nd'.2.2 _ (lastOf_mem s A) _ (by simp [hm]) rfl
  have a1 : Path n1 p1 (s :: (A ++ [y])) := by
    simp only [n1, p1, (ring_mid h).1]
    obtain ⟨P, hP⟩ := split_last s A
    have hP' : s :: (A ++ [y]) = P ++ lastOf s A :: [y] := by
      rw [← List.cons_append, hP]; simp
    rw [hP']
    rw [hP] at ha hyA nd'
    apply path_join P _ y [] ha trivial
    · have := nd'; rw [List.nodup_append, List.nodup_append] at this
      intro hm; exact this.1.2.2 _ hm _ (by simp) rfl
    · simp
    · intro hm; exact hyA (List.mem_of_mem_tail hm)
    · simp
  have b1 : Path n1 p1 (B ++ [s]) := by
    simp only [n1, p1, (ring_mid h).1]
    apply path_setNext hb _ _ hlast
    intro hm; exact hyB (List.mem_of_mem_tail hm)
  have ndy : (s :: ((A ++ [y]) ++ B)).Nodup := by
    have hsub : (s :: (A ++ B)).Sublist (s :: (A ++ x :: B)) :=
      List.Sublist.cons_cons _ (List.Sublist.append (List.Sublist.refl _) (List.sublist_cons_self _ _))
    have h0 : (s :: (A ++ B)).Nodup := hsub.nodup nd
    have hperm : (y :: s :: (A ++ B)).Perm (s :: ((A ++ [y]) ++ B)) := by
      rw [show s :: ((A ++ [y]) ++ B) = (s :: A) ++ y :: B by simp, show s :: (A ++ B) = (s :: A) ++ B by simp]
      exact (List.perm_middle).symm
    apply hperm.nodup_iff.1
    rw [List.nodup_cons]
    exact ⟨fun hm => hy (hsub.subset hm), h0⟩
  have := ring_join (A := A ++ [y]) (B := B) a1 b1 ndy
  simpa using this

/-- walking `next` from the sentinel enumerates the ring. -/
theorem ring_nodes_inj {s : N} {l l' : List N} (h : Ring next prior s l) (h' : Ring next prior s l')
    (hs : s ∉ l) (hs' : s ∉ l') : l = l' := by
  have gen : ∀ (l l' : List N) (a : N), Path next prior (a :: (l ++ [s])) → Path next prior (a :: (l' ++ [s])) → s ∉ l → s ∉ l' → l = l' := by
    intro l
    induction l with
    | nil =>
      intro l' a h h' _ hs'
      cases l' with
      | nil => rfl
      | cons b t =>
        simp only [List.nil_append, List.cons_append, Path] at h h'
        have : s = b := by rw [← h.1, h'.1]
        subst this; simp at hs'
    | cons b t ih =>
      intro l' a h h' hs hs'
      cases l' with
      | nil =>
        simp only [List.nil_append, List.cons_append, Path] at h h'
        have : b = s := by rw [← h.1, h'.1]
        subst this; simp at hs
      | cons c t' =>
        simp only [List.cons_append, Path] at h h'
        have e : b = c := by rw [← h.1, h'.1]
        subst e
        rw [ih t' b h.2.2 h'.2.2 (by simp at hs; exact hs.2) (by simp at hs'; exact hs'.2)]
  exact gen l l' s h h' hs hs'

end Verif.Ring
