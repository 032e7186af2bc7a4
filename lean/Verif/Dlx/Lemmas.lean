import Verif.Dlx.Model
import Mathlib.Data.List.Basic
import Mathlib.Tactic.Common
/-
Rings of nodes and loops over them.
-/
namespace Verif.Dlx
open Verif.Ring

section
variable {N : Type} [DecidableEq N] {next prior next' prior' : N → N}

theorem path_congr {l : List N} (h : Path next prior l) (e : ∀ x ∈ l, next' x = next x ∧ prior' x = prior x) : Path next' prior' l := by
  induction l with
  | nil => trivial
  | cons a t ih =>
    cases t with
    | nil => trivial
    | cons b t =>
      simp only [Path] at h ⊢
      refine ⟨?_, ?_, ih h.2.2 fun x hx => e x (List.mem_cons_of_mem _ hx)⟩
      · rw [(e a (by simp)).1, h.1]
      · rw [(e b (by simp)).2, h.2.1]

theorem ring_congr {s : N} {l : List N} (h : Ring next prior s l) (e : ∀ x ∈ s :: l, next' x = next x ∧ prior' x = prior x) :
    Ring next' prior' s l := by
  refine path_congr h fun x hx => e x ?_
  simp only [List.mem_cons, List.mem_append, List.not_mem_nil, or_false] at hx ⊢
  tauto

theorem ring_rotate {s x : N} {A B : List N} (h : Ring next prior s (A ++ x :: B)) : Ring next prior x (B ++ s :: A) := by
  unfold Ring at h ⊢
  rw [show s :: ((A ++ x :: B) ++ [s]) = (s :: A) ++ x :: (B ++ [s]) by simp, path_mid] at h
  rw [show x :: ((B ++ s :: A) ++ [x]) = (x :: B) ++ s :: (A ++ [x]) by simp, path_mid]
  exact ⟨by simpa using h.2, by simpa using h.1⟩

theorem ring_reverse {s : N} {l : List N} (h : Ring next prior s l) : Ring prior next s l.reverse := by
  have gen : ∀ l : List N, Path next prior l → Path prior next l.reverse := by
    intro l
    induction l with
    | nil => intro _; trivial
    | cons a t ih =>
      intro h
      cases t with
      | nil => trivial
      | cons b t =>
        simp only [Path] at h
        have := ih h.2.2
        rw [List.reverse_cons] at this
        rw [List.reverse_cons, List.reverse_cons, List.append_assoc, List.singleton_append, path_mid]
        exact ⟨this, h.2.1, h.1, trivial⟩
  have := gen _ h
  unfold Ring
  simpa using this

/-- all that is needed to remove a node: its neighbours point to it -/
theorem ring_local {s : N} {l : List N} {x : N} (h : Ring next prior s l) (hs : s ∉ l) (hx : x ∈ l) (nd : l.Nodup) :
    prior (next x) = x ∧ next (prior x) = x ∧ next x ≠ x ∧ prior x ≠ x ∧ next x ∈ s :: l ∧ prior x ∈ s :: l := by
  obtain ⟨A, B, rfl⟩ := List.append_of_mem hx
  have hm := ring_mid h
  have hr := ring_rotate h
  have he := ring_ends hr
  have hne : x ≠ s := by rintro rfl; simp at hs
  refine ⟨?_, ?_, ?_, ?_, ?_, ?_⟩
  · have h1 : next x = firstOf B s := hm.2
    rw [h1]
    cases B with
    | nil =>
      rw [firstOf_nil]
      have := (ring_ends h).2
      rw [this]; simp
    | cons b B =>
      rw [firstOf_cons]
      have h2 : Ring next prior s ((A ++ [x]) ++ b :: B) := by simpa using h
      have := (ring_mid h2).1
      rw [this]; simp
  · have h1 : prior x = lastOf s A := hm.1
    rw [h1]
    have := ring_next_last (A := A) (B := x :: B) h
    rw [this]; simp
  · rw [hm.2]
    cases B with
    | nil => simpa using hne.symm
    | cons b B =>
      rw [firstOf_cons]; rintro rfl
      simp [List.nodup_append] at nd
  · rw [hm.1]
    have := lastOf_mem s A
    rintro e
    rw [e] at this
    simp only [List.mem_cons] at this
    rcases this with h | h
    · exact hne h
    · rw [List.nodup_append] at nd
      exact nd.2.2 x h x (by simp) rfl
  · rw [hm.2]
    have := firstOf_mem B s
    simp only [List.mem_cons, List.mem_append] at this ⊢
    tauto
  · rw [hm.1]
    have := lastOf_mem s A
    simp only [List.mem_cons, List.mem_append] at this ⊢
    tauto

end

/-- a loop along a ring: `S pre` is the state before the member after `pre` -/
theorem loop_aux {T : Type} (next : T → Node → Node) (body : Node → T → Option T) (stop : Node) (l : List Node) (S : List Node → T)
    (hstop : stop ∉ l)
    (hn : ∀ pre i post, l = pre ++ i :: post → next (S (pre ++ [i])) i = firstOf post stop)
    (hb : ∀ pre i post, l = pre ++ i :: post → body i (S pre) = some (S (pre ++ [i]))) :
    ∀ (post pre : List Node) (n : Nat), l = pre ++ post → post.length < n → loop next body stop n (firstOf post stop) (S pre) = some (S l) := by
  intro post
  induction post with
  | nil =>
    intro pre n hl hn'
    obtain ⟨n, rfl⟩ : ∃ m, n = m + 1 := ⟨n - 1, by simp at hn'; omega⟩
    simp only [List.append_nil] at hl
    simp [loop, hl]
  | cons i post ih =>
    intro pre n hl hn'
    obtain ⟨n, rfl⟩ : ∃ m, n = m + 1 := ⟨n - 1, by simp at hn'; omega⟩
    have hi : i ≠ stop := by rintro rfl; apply hstop; rw [hl]; simp
    rw [firstOf_cons, loop, if_neg hi, hb pre i post hl]
    show loop next body stop n (next (S (pre ++ [i])) i) (S (pre ++ [i])) = _
    rw [hn pre i post hl]
    exact ih _ n (by simp [hl]) (by simpa using hn')

theorem loop_fwd {T : Type} (next prior : T → Node → Node) (body : Node → T → Option T) (stop : Node) (l : List Node) (S : List Node → T)
    (n : Nat) (hstop : stop ∉ l)
    (ring : ∀ pre post, l = pre ++ post → Ring (next (S pre)) (prior (S pre)) stop l)
    (hb : ∀ pre i post, l = pre ++ i :: post → body i (S pre) = some (S (pre ++ [i]))) (hn : l.length < n) :
    loop next body stop n (next (S []) stop) (S []) = some (S l) := by
  have h0 := (ring_ends (ring [] l rfl)).1
  rw [h0]
  refine loop_aux next body stop l S hstop ?_ hb l [] n rfl hn
  intro pre i post hl
  have := ring (pre ++ [i]) post (by simp [hl])
  rw [hl] at this
  exact (ring_mid this).2

theorem loop_bwd {T : Type} (next prior : T → Node → Node) (body : Node → T → Option T) (stop : Node) (l : List Node) (S : List Node → T)
    (n : Nat) (hstop : stop ∉ l)
    (ring : ∀ pre post, l = pre ++ post → Ring (next (S pre)) (prior (S pre)) stop l)
    (hb : ∀ pre i post, l = pre ++ i :: post → body i (S (pre ++ [i])) = some (S pre)) (hn : l.length < n) :
    loop prior body stop n (prior (S l) stop) (S l) = some (S []) := by
  -- the same loop on the reversed list
  let S' : List Node → T := fun q => S (l.take (l.length - q.length))
  have e0 : S' [] = S l := by simp [S']
  have e1 : S' l.reverse = S [] := by simp [S']
  have key : ∀ q i q', l.reverse = q ++ i :: q' → S' q = S (q'.reverse ++ [i]) ∧ S' (q ++ [i]) = S q'.reverse ∧ l = q'.reverse ++ i :: q.reverse := by
    intro q i q' h
    have hl : l = q'.reverse ++ i :: q.reverse := by
      have := congrArg List.reverse h
      simpa using this
    refine ⟨?_, ?_, hl⟩
    · simp only [S']
      congr 1
      conv_lhs => rw [hl]
      rw [show (q'.reverse ++ i :: q.reverse).length - q.length = (q'.reverse ++ [i]).length by simp; omega,
        show q'.reverse ++ i :: q.reverse = (q'.reverse ++ [i]) ++ q.reverse by simp, List.take_left]
    · simp only [S']
      congr 1
      conv_lhs => rw [hl]
      rw [show (q'.reverse ++ i :: q.reverse).length - (q ++ [i]).length = q'.reverse.length by simp, List.take_left]
  have := loop_fwd prior next body stop l.reverse S' n (by simpa using hstop) ?_ ?_ (by simpa using hn)
  · rw [e0, e1] at this; exact this
  · intro q q' h
    have hl : l = q'.reverse ++ q.reverse := by
      have := congrArg List.reverse h
      simpa using this
    have hS : S' q = S q'.reverse := by
      simp only [S']
      congr 1
      conv_lhs => rw [hl]
      rw [show (q'.reverse ++ q.reverse).length - q.length = q'.reverse.length by simp, List.take_left]
    rw [hS]
    exact ring_reverse (ring _ _ hl)
  · intro q i q' h
    obtain ⟨k1, k2, hl⟩ := key q i q' h
    rw [k1, k2]
    exact hb _ _ _ hl

end Verif.Dlx
