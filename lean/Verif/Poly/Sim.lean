import Verif.Poly.Spec
import Verif.Any.Sim
/-!
The operations of `poly` do what they mean.  Most of them are those of `any_regular_t` in an environment that does not throw at moving.
-/
namespace Verif.Poly
open Verif.Any Verif.Any.Spec

variable {Ty V : Type} {c : Conf Ty V}

/-- The environment as `any_regular_t` sees it. -/
def env (e : Env) : Env := ⟨if e.moveThrows then none else e.alloc, e.copyThrows, false⟩

theorem env_alloc {e : Env} {p} (h : (env e).alloc = some p) : e.alloc = some p := by
  simp only [env] at h
  split at h
  · cases h
  · exact h

theorem env_none {e : Env} (h : (env e).alloc = none) : Spec.Fails e := by
  simp only [env] at h
  split at h
  · exact .inr (.inr ‹_›)
  · exact .inl h

theorem construct_eq (h : Heap V) (v : V) (e : Env) :
    construct c h v e = if e.copyThrows then .throw h else Any.construct c h v (env e) := by
  unfold construct
  split
  · rfl
  · unfold Any.construct
    split
    · rfl
    · unfold newValue Any.newMove env
      cases e.moveThrows <;> cases e.alloc <;> rfl

theorem clone_eq (h : Heap V) (o : Obj Ty V) (e : Env) : clone c h o e = Any.clone c h o (env e) := by
  unfold clone Any.clone
  cases o.get h with
  | none => rfl
  | some v => simp only; rw [construct_eq]; rfl

theorem moveClone_eq (o : Obj Ty V) : moveClone c o = Any.moveClone c o := by cases o <;> rfl

theorem destruct_eq (h : Heap V) (o : Obj Ty V) : destruct h o = Any.destruct h o := by
  cases o with
  | loc v => rfl
  | rem t p => cases p <;> rfl

theorem copy_eq (s : St Ty V) (x y : Nat) (e : Env) : copy c s x y e = Any.copy c s x y (env e) := by
  simp only [copy, Any.copy, clone_eq]
  rfl

theorem move_eq (s : St Ty V) (x y : Nat) : move c s x y = Any.move c s x y := by
  simp only [move, Any.move, moveClone_eq]
  rfl

theorem assignBody_eq (s : St Ty V) (x : Nat) (a : Obj Ty V) : assignBody c s x a = Any.assignBody c s x a := by
  simp only [assignBody, Any.assignBody, moveClone_eq, destruct_eq]
  rfl

theorem set_eq (s : St Ty V) (x y : Nat) (e : Env) : set c s x y e = Any.set c s x y (env e) := by
  simp only [set, Any.set, clone_eq, assignBody_eq]
  rfl

theorem setMove_eq (s : St Ty V) (x y : Nat) : setMove c s x y = Any.setMove c s x y := by
  simp only [setMove, Any.setMove, moveClone_eq, assignBody_eq]
  rfl

theorem destroy_eq (s : St Ty V) (x : Nat) : destroy s x = Any.destroy s x := by
  simp only [destroy, Any.destroy, destruct_eq]
  rfl

variable [DecidableEq Ty]

/-- Two objects change places. -/
theorem swapObjs_eq {h : Heap V} {o p : Obj Ty V} {w w' : Val Ty V} (H : Holds c h o w) (H' : Holds c h p w') :
    swapObjs c h o p = some (h, p, o) := by
  have e1 : ∀ o : Obj Ty V, (moveClone c o).1 = o := fun o => by cases o <;> rfl
  have e2 : ∀ (h : Heap V) (o : Obj Ty V), destruct h (moveClone c o).2 = some h := fun h o => by cases o <;> rfl
  unfold swapObjs
  by_cases ht : o.type c = p.type c
  · rw [if_pos ht]
    cases o with
    | loc u =>
      cases p with
      | loc u' => rfl
      | rem t q =>
        have h1 := H.loc u rfl
        have h2 := H'.rem t q rfl
        simp only [Obj.type] at ht; rw [ht, h2] at h1; cases h1
    | rem t q =>
      cases p with
      | loc u' =>
        have h1 := H'.loc u' rfl
        have h2 := H.rem t q rfl
        simp only [Obj.type] at ht; rw [ht] at h2; rw [h2] at h1; cases h1
      | rem t' q' =>
        simp only [Obj.type] at ht; subst ht
        rfl
  · rw [if_neg ht]
    simp only [e1, e2]

theorem sim_mk {s : St Ty V} {a a' g} (R : Rel c s a g) {x v e} (hf : Spec.fine s (.mk x v e))
    (hm : Spec.mean c a (.mk x v e) = some a') : Sim c s a a' (Spec.Fails e) (mk c s x v e) := by
  unfold mk
  rw [construct_eq]
  cases he : e.copyThrows with
  | true => exact .inr ⟨.inr (.inl he), rfl⟩
  | false =>
    rcases Any.sim_mk (e := env e) R ⟨fun p hp => hf p (env_alloc hp), rfl⟩ hm with ⟨s', g', h1, R'⟩ | ⟨h1, h2⟩
    · exact .inl ⟨s', g', h1, R'⟩
    · exact .inr ⟨env_none h1.1, h2⟩

theorem sim_copy {s : St Ty V} {a a' g} (R : Rel c s a g) {x y e} (hf : Spec.fine s (.copy x y e))
    (hm : Spec.mean c a (.copy x y e) = some a') : Sim c s a a' (Spec.Fails e) (copy c s x y e) := by
  rw [copy_eq]
  rcases Any.sim_copy (e := env e) R ⟨fun p hp => hf p (env_alloc hp), rfl⟩ hm with ⟨s', g', h1, R'⟩ | ⟨h1, h2⟩
  · exact .inl ⟨s', g', h1, R'⟩
  · exact .inr ⟨h1.elim env_none fun h => .inr (.inl h), h2⟩

theorem sim_set {s : St Ty V} {a a' g} (R : Rel c s a g) {x y e} (hf : Spec.fine s (.set x y e))
    (hm : Spec.mean c a (.set x y e) = some a') : Sim c s a a' (Spec.Fails e) (set c s x y e) := by
  rw [set_eq]
  rcases Any.sim_set (e := env e) R ⟨fun p hp => hf p (env_alloc hp), rfl⟩ hm with ⟨s', g', h1, R'⟩ | ⟨h1, h2⟩
  · exact .inl ⟨s', g', h1, R'⟩
  · exact .inr ⟨h1.elim env_none fun h => .inr (.inl h), h2⟩

theorem sim_swap {s : St Ty V} {a a' g} (R : Rel c s a g) {x y} (hm : Spec.mean c a (.swap x y) = some a') :
    Sim c s a a' False (swap c s x y) := by
  have hm' : mean c a (.swap x y) = some a' := hm
  have key : swap c s x y = Any.swap c s x y := by
    simp only [Spec.mean] at hm
    split at hm
    · rename_i v w hx hy
      obtain ⟨o, hg, ho, H⟩ := R.at hx
      obtain ⟨p, hgp, hp, H'⟩ := R.at hy
      simp only [swap, ho, hp, swapObjs_eq H H']
      have e1 : ∀ o : Obj Ty V, (Any.moveClone c o).1 = o := fun o => by cases o <;> rfl
      have e2 : ∀ (h : Heap V) (o : Obj Ty V), Any.destruct h (Any.moveClone c o).2 = some h := fun h o => by cases o <;> rfl
      have := swapObjs_eq H H'
      unfold swapObjs at this
      simp only [Any.swap, ho, hp]
      split
      · rename_i ht
        rw [if_pos ht] at this
        have hx : exchange o p = Any.exchange o p := by cases o <;> cases p <;> rfl
        rw [hx] at this
        cases hh : Any.exchange o p with
        | none => rw [hh] at this; cases this
        | some q =>
          rw [hh] at this
          obtain ⟨q1, q2⟩ := q
          simp at this
          obtain ⟨rfl, rfl⟩ := this
          rfl
      · simp only [e1, e2]
    · cases hm
  rw [key]
  exact Any.sim_swap R hm'

theorem write_eq (s : St Ty V) (x : Nat) (v : V) : write c s x v = Any.write c s x v := by
  unfold write Any.write
  cases s.obj x with
  | none => rfl
  | some o =>
    simp only
    split
    · rfl
    · cases o with
      | loc _ => rfl
      | rem _ p => cases p <;> rfl

theorem sim_assign {s : St Ty V} {a a' g} (R : Rel c s a g) {x v e} (hf : Spec.fine s (.assign x v e))
    (hm : Spec.mean c a (.assign x v e) = some a') : Sim c s a a' (Spec.Fails e) (assign c s x v e) := by
  have main : ∀ w, a x = some w → (∀ u, w = .val u → c.ty u ≠ c.ty v) → (∀ t, w = .some t → t ≠ c.ty v) →
      Sim c s a (upd a x (some (.val v))) (Spec.Fails e) (assign c s x v e) := by
    intro w hx h1 h2
    obtain ⟨o, hg, ho, H⟩ := R.at hx
    have hne : o.type c ≠ c.ty v := by
      rw [H.type]
      cases w with
      | val u => exact h1 u rfl
      | some t => exact h2 t rfl
    simp only [assign, ho, if_neg hne, construct_eq]
    cases he : e.copyThrows with
    | true => exact .inr ⟨.inr (.inl he), rfl⟩
    | false =>
      rcases good_construct R.good (.inr 0) (R.temps 0) v (env e) (fun p hp => hf p (env_alloc hp)) rfl with
        ⟨n, h', h3, G⟩ | ⟨_, h3, h4⟩
      · have i1 : upd' g (.inr 0) (some (n, Val.val v)) (.inl x) = some (o, w) := by simp [upd', hg]
        have i2 : upd' g (.inr 0) (some (n, Val.val v)) (.inr 0) = some (n, Val.val v) := by simp [upd']
        have sw := swapObjs_eq (G.holds _ _ _ i1) (G.holds _ _ _ i2)
        have G2 := good_swap G (.inl x) (.inr 0) i1 i2
        obtain ⟨h2, d1, G3, _⟩ := good_destruct G2 (i := .inr 0) (o := o) (w := w) (by simp [upd'])
        have hu : upd' (upd' (upd' (upd' g (.inr 0) (some (n, Val.val v))) (.inl x) (some (n, Val.val v))) (.inr 0) (some (o, w))) (.inr 0) none =
            upd' g (.inl x) (some (n, Val.val v)) := by
          funext z
          cases z with
          | inl z => simp [upd']
          | inr z =>
            by_cases hz : z = 0
            · subst hz; simp [upd', R.temps 0]
            · simp [upd', hz]
        rw [hu] at G3
        refine .inl ⟨_, _, ?_, R.put G3⟩
        simp only [h3, sw, destruct_eq, d1, Bool.false_eq_true, if_false]
      · refine .inr ⟨env_none h3, ?_⟩
        simp only [h4, Bool.false_eq_true, if_false]
  simp only [Spec.mean] at hm
  split at hm
  · rename_i w hx
    cases hm
    by_cases hwv : c.ty w = c.ty v
    · obtain ⟨o, hg, ho, H⟩ := R.at hx
      have hty : o.type c = c.ty v := (show o.type c = c.ty w from H.type).trans hwv
      have hwr : mean c a (.write x v) = some (upd a x (some (.val v))) := by simp [mean, hx, hwv]
      have := Any.sim_write R hwr
      rw [← write_eq] at this
      simp only [write, ho, hty, ne_eq, not_true_eq_false, if_false] at this
      simp only [assign, ho, hty, if_true]
      rcases this with ⟨s', g', h1, R'⟩ | ⟨⟨u, h1, h2⟩, _⟩
      · rw [h1]
        cases he : e.copyThrows with
        | true => exact .inr ⟨.inr (.inl he), rfl⟩
        | false => exact .inl ⟨s', g', rfl, R'⟩
      · rw [hx] at h1; cases h1; exact absurd hwv h2
    · exact main _ hx (fun u hu => by cases hu; exact hwv) (fun t ht => by cases ht)
  · rename_i t hx
    split at hm
    · cases hm
    · rename_i hne
      cases hm
      exact main _ hx (fun u hu => by cases hu) (fun t' ht => by cases ht; exact hne)
  · cases hm

theorem sim_step {s : St Ty V} {a a' g} (R : Rel c s a g) (op : Op V) (hf : Spec.fine s op) (hm : Spec.mean c a op = some a') :
    Sim c s a a' (Spec.Reason c a op) (Spec.step c s op) := by
  cases op with
  | mk x v e => exact sim_mk R hf hm
  | copy x y e => exact sim_copy R hf hm
  | move x y => simp only [Spec.step, move_eq]; exact Any.sim_move R hm
  | set x y e => exact sim_set R hf hm
  | setMove x y => simp only [Spec.step, setMove_eq]; exact Any.sim_setMove R hm
  | assign x v e => exact sim_assign R hf hm
  | swap x y => exact sim_swap R hm
  | write x v => simp only [Spec.step, write_eq]; exact Any.sim_write R hm
  | destroy x => simp only [Spec.step, destroy_eq]; exact Any.sim_destroy R hm

theorem run_rel {s : St Ty V} {a} (h : Spec.Run c s a) : ∃ g, Rel c s a g := by
  induction h with
  | start => exact ⟨fun _ => none, ⟨by simp, by simp, by simp⟩, by simp, by simp, by simp⟩
  | ok op _ hf hs hm ih =>
    obtain ⟨g, R⟩ := ih
    rcases sim_step R op hf hm with ⟨s', g', h1, R'⟩ | ⟨_, h1⟩
    · rw [h1] at hs; cases hs; exact ⟨g', R'⟩
    · rw [h1] at hs; cases hs
  | throw op _ hf hs hm ih =>
    obtain ⟨g, R⟩ := ih
    rcases sim_step R op hf hm with ⟨s', g', h1, R'⟩ | ⟨_, h1⟩
    · rw [h1] at hs; cases hs
    · rw [h1] at hs; cases hs; exact ⟨g, R⟩

end Verif.Poly
