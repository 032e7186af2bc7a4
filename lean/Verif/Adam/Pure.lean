import Verif.Adam.Spec
/-! Monotonicity of the equations. -/
namespace Verif.Adam
variable {N V : Type} [DecidableEq N] [DecidableEq V] [Values V]

def Le {α : Type} (a b : Option α) : Prop := ∀ w, a = some w → b = some w
def EnvLe (e e' : Env N V) : Prop := ∀ n, Le (e n) (e' n)

theorem Le.refl {α : Type} (a : Option α) : Le a a := fun _ h => h
theorem EnvLe.refl (e : Env N V) : EnvLe e e := fun _ => Le.refl _
theorem EnvLe.trans {a b c : Env N V} (h : EnvLe a b) (h' : EnvLe b c) : EnvLe a c := fun n w hw => h' n w (h n w hw)

theorem Prog.eval_mono {x : Option N} {e e' : Env N V} (he : EnvLe e e') (p : Prog N V) :
    ∀ {f f' l l' : Option (V × Bits)}, Le f f' → Le l l' → Le (p.eval x e f l) (p.eval x e' f' l') := by
  induction p with
  | ret v => intro f f' l l' _ _ w h; simpa [Prog.eval] using h
  | fail => intro f f' l l' _ _ w h; simp [Prog.eval] at h
  | ask n k ih =>
      intro f f' l l' hf hl w h
      unfold Prog.eval at h ⊢
      split at h
      · rename_i hn
        rw [if_pos hn]
        cases hfv : f with
        | none => simp [hfv] at h
        | some u =>
            rw [hf u hfv]
            simp only [hfv, Option.bind_some, Option.map_eq_some_iff] at h ⊢
            obtain ⟨a, ha, rfl⟩ := h
            exact ⟨a, ih _ hl hl a ha, rfl⟩
      · rename_i hn
        rw [if_neg hn]
        cases hev : e n with
        | none => simp [hev] at h
        | some u =>
            rw [he n u hev]
            simp only [hev, Option.bind_some, Option.map_eq_some_iff] at h ⊢
            obtain ⟨a, ha, rfl⟩ := h
            exact ⟨a, ih _ hf hl a ha, rfl⟩

theorem Term.eval_mono {x : N} {e e' : Env N V} (he : EnvLe e e') (inp : V × Bits) (t : Term N V) :
    Le (t.eval x e inp) (t.eval x e' inp) := by
  intro w h
  unfold Term.eval at *
  cases hp : t.prog.eval (some x) e (some inp) (some inp) with
  | none => simp [hp] at h
  | some u => rw [Prog.eval_mono he _ (Le.refl _) (Le.refl _) u hp]; simpa [hp] using h

theorem firstRef_mono {x : N} {e e' : Env N V} (he : EnvLe e e') (inp : V × Bits) (t : Option (Term N V)) :
    Le (firstRef x e inp t) (firstRef x e' inp t) := by
  cases t with
  | none => exact Le.refl _
  | some t => exact Term.eval_mono he inp t

theorem rhs_mono (s : Sheet N V) {e e' : Env N V} (he : EnvLe e e') : EnvLe (rhs s e) (rhs s e') := by
  intro n w h
  unfold rhs at *
  cases hi : s.nameIndex.find n with
  | none => simp [hi] at h
  | some i =>
      simp only [hi] at h ⊢
      split at h
      · rename_i hb; rw [if_pos hb]; exact h
      · rename_i hb
        rw [if_neg hb]
        split at h
        · cases h
        · rename_i hc
          rw [if_neg hc]
          cases hj : (s.cell i).input with
          | none =>
              simp only [hj] at h ⊢
              cases hp : (s.cell i).calculator with
              | none => simp [hp] at h
              | self => simp [hp] at h
              | expr p => simp only [hp] at h ⊢; exact Prog.eval_mono he p (Le.refl _) (Le.refl _) w h
          | some j =>
              simp only [hj] at h ⊢
              cases hp : (s.cell i).calculator with
              | none => simp [hp] at h
              | self => simp only [hp] at h ⊢; exact firstRef_mono he _ _ w h
              | expr p => simp only [hp] at h ⊢; exact Prog.eval_mono he p (firstRef_mono he _ _) (Le.refl _) w h

theorem den_succ (s : Sheet N V) (k : Nat) : EnvLe (den s k) (den s (k + 1)) := by
  induction k with
  | zero => intro n w h; simp [den] at h
  | succ k ih => exact rhs_mono s ih

theorem den_mono (s : Sheet N V) {k k' : Nat} (h : k ≤ k') : EnvLe (den s k) (den s k') := by
  induction h with
  | refl => exact EnvLe.refl _
  | step _ ih => exact ih.trans (den_succ s _)

theorem den_det (s : Sheet N V) {k k' : Nat} {n : N} {w w' : V × Bits} (h : den s k n = some w) (h' : den s k' n = some w') :
    w = w' := by
  have h1 := den_mono s (Nat.le_max_left k k') n w h
  have h2 := den_mono s (Nat.le_max_right k k') n w' h'
  rw [h1] at h2
  exact Option.some.inj h2

/-- Any solution of the equations agrees with the unfolding. -/
theorem den_le_solution (s : Sheet N V) (env : Env N V) (h : EnvLe (rhs s env) env) (k : Nat) : EnvLe (den s k) env := by
  induction k with
  | zero => intro n w h; simp [den] at h
  | succ k ih => exact (rhs_mono s ih).trans h

/-- If the equation of every cell of one sheet has, when it has a value, the same value in another, so do the unfoldings. -/
theorem den_le_den {s s' : Sheet N V} (h : ∀ e, EnvLe (rhs s e) (rhs s' e)) (k : Nat) : EnvLe (den s k) (den s' k) := by
  induction k with
  | zero => intro n w h; simp [den] at h
  | succ k ih => exact (h _).trans (rhs_mono s' ih)

/-! ### The number of cells an evaluation can nest -/

def weight (s : Sheet N V) (i : Nat) : Nat := if (s.cell i).spec = .interfaceOutput then 2 else 1

def wt (s : Sheet N V) (k : Nat) : Nat :=
  (s.nameIndex.map fun e => if (den s k e.1).isSome then weight s e.2 else 0).sum

theorem sum_le {α : Type} (f g : α → Nat) : ∀ l : List α, (∀ a ∈ l, f a ≤ g a) → (l.map f).sum ≤ (l.map g).sum
  | [], _ => by simp
  | a :: l, h => by
      have := sum_le f g l (fun b hb => h b (List.mem_cons_of_mem _ hb))
      have := h a (by simp)
      simp only [List.map_cons, List.sum_cons]; omega

theorem sum_add_le {α : Type} (f g : α → Nat) : ∀ (l : List α), (∀ a ∈ l, f a ≤ g a) → ∀ a ∈ l, ∀ d, f a + d ≤ g a →
    (l.map f).sum + d ≤ (l.map g).sum
  | [], _ => by simp
  | b :: l, h => by
      intro a ha d hd
      have h1 := sum_le f g l (fun b hb => h b (List.mem_cons_of_mem _ hb))
      have h2 := h b (by simp)
      simp only [List.map_cons, List.sum_cons]
      rcases List.mem_cons.mp ha with rfl | ha
      · omega
      · have := sum_add_le f g l (fun b hb => h b (List.mem_cons_of_mem _ hb)) a ha d hd
        omega

theorem den_isSome_mono (s : Sheet N V) {k k' : Nat} (h : k ≤ k') (n : N) (hs : (den s k n).isSome) : (den s k' n).isSome := by
  obtain ⟨w, hw⟩ := Option.isSome_iff_exists.mp hs
  rw [den_mono s h n w hw]; rfl

theorem wt_mono (s : Sheet N V) {k k' : Nat} (h : k ≤ k') : wt s k ≤ wt s k' := by
  apply sum_le
  intro e _
  by_cases hs : (den s k e.1).isSome
  · rw [if_pos hs, if_pos (den_isSome_mono s h _ hs)]; exact Nat.le_refl _
  · rw [if_neg hs]; omega

theorem find_mem {ix : Index N} {n : N} {i : Nat} (h : ix.find n = some i) : (n, i) ∈ ix := by
  unfold Index.find at h
  induction ix with
  | nil => simp at h
  | cons a l ih =>
      obtain ⟨m, j⟩ := a
      simp only [List.lookup_cons] at h
      split at h
      · rename_i hm
        obtain rfl : n = m := by simpa using hm
        cases h; simp
      · exact List.mem_cons_of_mem _ (ih h)

theorem wt_step (s : Sheet N V) {k : Nat} {n : N} {i : Nat} (hi : s.nameIndex.find n = some i) (h0 : den s k n = none)
    {w : V × Bits} (h1 : den s (k + 1) n = some w) : wt s k + weight s i ≤ wt s (k + 1) := by
  apply sum_add_le _ _ _ _ (n, i) (find_mem hi)
  · simp [h0, h1]
  · intro e _
    by_cases hs : (den s k e.1).isSome
    · rw [if_pos hs, if_pos (den_isSome_mono s (Nat.le_succ k) _ hs)]; exact Nat.le_refl _
    · rw [if_neg hs]; omega

theorem wt_le_size {s : Sheet N V} (h : WF s) (k : Nat) : wt s k ≤ s.size := by
  refine Nat.le_trans (sum_le _ _ _ ?_) h.weights
  intro e _
  simp only [weight]
  by_cases hd : (den s k e.1).isSome
  · rw [if_pos hd]; exact Nat.le_refl _
  · rw [if_neg hd]; omega

end Verif.Adam
