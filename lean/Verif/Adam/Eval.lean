import Verif.Adam.Pure
/-! The evaluation of cells (`get`, `calculate`) against the equations. -/
namespace Verif.Adam
variable {N V : Type} [DecidableEq N] [DecidableEq V] [Values V]

@[simp] theorem pure_run {α : Type} (a : α) (s : Sheet N V) : (pure a : M N V α) s = (.ok a, s) := rfl
@[simp] theorem throw_run {α : Type} (e : Err N) (s : Sheet N V) : (throw e : M N V α) s = (.error e, s) := rfl
@[simp] theorem modify_run (f : Sheet N V → Sheet N V) (s : Sheet N V) : modify f s = (.ok (), f s) := rfl
@[simp] theorem gets_run {α : Type} (f : Sheet N V → α) (s : Sheet N V) : gets f s = (.ok (f s), s) := rfl
theorem bind_run {α β : Type} (x : M N V α) (f : α → M N V β) (s : Sheet N V) : (x >>= f) s = match x s with
    | (.ok a, s') => f a s'
    | (.error e, s') => (.error e, s') := rfl
theorem bind_ok {α β : Type} {x : M N V α} {f : α → M N V β} {s s' : Sheet N V} {a : α} (h : x s = (.ok a, s')) :
    (x >>= f) s = f a s' := by rw [bind_run, h]
theorem bind_err {α β : Type} {x : M N V α} {f : α → M N V β} {s s' : Sheet N V} {e : Err N} (h : x s = (.error e, s')) :
    (x >>= f) s = (.error e, s') := by rw [bind_run, h]
@[simp] theorem bind_gets {α β : Type} (g : Sheet N V → α) (f : α → M N V β) (s : Sheet N V) : (gets g >>= f) s = f (g s) s := rfl
@[simp] theorem bind_modify {β : Type} (g : Sheet N V → Sheet N V) (f : Unit → M N V β) (s : Sheet N V) :
    (modify g >>= f) s = f () (g s) := rfl
@[simp] theorem bind_pure {α β : Type} (a : α) (f : α → M N V β) (s : Sheet N V) : ((pure a : M N V α) >>= f) s = f a s := rfl
@[simp] theorem bind_throw {α β : Type} (e : Err N) (f : α → M N V β) (s : Sheet N V) :
    ((throw e : M N V α) >>= f) s = (.error e, s) := rfl
@[simp] theorem ite_run {α : Type} (c : Prop) [Decidable c] (x y : M N V α) (s : Sheet N V) :
    (if c then x else y) s = if c then x s else y s := by split <;> rfl

/-! ### What evaluation leaves unchanged -/

def Cell.stat (c : Cell N V) : Cell N V := { c with state := Values.empty, dirty := false, evaluated := false, contributing := 0 }
def Sheet.stat (s : Sheet N V) : Sheet N V :=
  { s with cell := fun i => (s.cell i).stat, getStack := [], valueAccessed := 0, accumulate := 0 }

theorem stat_cell {s s' : Sheet N V} (h : s.stat = s'.stat) (i : Nat) : (s.cell i).stat = (s'.cell i).stat :=
  congrFun (congrArg Sheet.cell h) i

theorem stat_spec {s s' : Sheet N V} (h : s.stat = s'.stat) (i : Nat) : (s.cell i).spec = (s'.cell i).spec :=
  by have := congrArg Cell.spec (stat_cell h i); exact this
theorem stat_name {s s' : Sheet N V} (h : s.stat = s'.stat) (i : Nat) : (s.cell i).name = (s'.cell i).name :=
  by have := congrArg Cell.name (stat_cell h i); exact this
theorem stat_input {s s' : Sheet N V} (h : s.stat = s'.stat) (i : Nat) : (s.cell i).input = (s'.cell i).input :=
  by have := congrArg Cell.input (stat_cell h i); exact this
theorem stat_count {s s' : Sheet N V} (h : s.stat = s'.stat) (i : Nat) : (s.cell i).count = (s'.cell i).count :=
  by have := congrArg Cell.count (stat_cell h i); exact this
theorem stat_term {s s' : Sheet N V} (h : s.stat = s'.stat) (i : Nat) : (s.cell i).term = (s'.cell i).term :=
  by have := congrArg Cell.term (stat_cell h i); exact this
theorem stat_linked {s s' : Sheet N V} (h : s.stat = s'.stat) (i : Nat) : (s.cell i).linked = (s'.cell i).linked :=
  by have := congrArg Cell.linked (stat_cell h i); exact this
theorem stat_calculator {s s' : Sheet N V} (h : s.stat = s'.stat) (i : Nat) : (s.cell i).calculator = (s'.cell i).calculator :=
  by have := congrArg Cell.calculator (stat_cell h i); exact this
theorem stat_nameIndex {s s' : Sheet N V} (h : s.stat = s'.stat) : s.nameIndex = s'.nameIndex := by have := congrArg Sheet.nameIndex h; exact this
theorem stat_outputIndex {s s' : Sheet N V} (h : s.stat = s'.stat) : s.outputIndex = s'.outputIndex := by have := congrArg Sheet.outputIndex h; exact this
theorem stat_size {s s' : Sheet N V} (h : s.stat = s'.stat) : s.size = s'.size := by have := congrArg Sheet.size h; exact this
theorem stat_initMode {s s' : Sheet N V} (h : s.stat = s'.stat) : s.initMode = s'.initMode := by have := congrArg Sheet.initMode h; exact this
theorem stat_cond {s s' : Sheet N V} (h : s.stat = s'.stat) : s.condContributing = s'.condContributing :=
  by have := congrArg Sheet.condContributing h; exact this

theorem modCell_stat (s : Sheet N V) (i : Nat) (f : Cell N V → Cell N V) (hf : ∀ c, (f c).stat = c.stat) :
    (s.modCell i f).stat = s.stat := by
  unfold Sheet.modCell Sheet.stat
  congr 1
  funext j
  dsimp only
  split
  · exact hf _
  · rfl

@[simp] theorem modCell_self (s : Sheet N V) (i : Nat) (f : Cell N V → Cell N V) : (s.modCell i f).cell i = f (s.cell i) := by
  simp [Sheet.modCell]
theorem modCell_other (s : Sheet N V) {i j : Nat} (f : Cell N V → Cell N V) (h : j ≠ i) : (s.modCell i f).cell j = s.cell j := by
  simp [Sheet.modCell, h]

/-! ### Sets of bits -/

/-- `x` contains `b` and nothing outside of `b` and `c`. -/
def Between (b x c : Bits) : Prop := ∀ k, (b.testBit k = true → x.testBit k = true) ∧
  (x.testBit k = true → b.testBit k = true ∨ c.testBit k = true)

theorem Between.refl (b c : Bits) : Between b b c := fun _ => ⟨id, Or.inl⟩
theorem Between.or {b x c b' x' : Bits} (h : Between b x c) (h' : Between b' x' c) : Between (b ||| b') (x ||| x') c := by
  intro k
  have := h k; have := h' k
  simp only [Nat.testBit_or, Bool.or_eq_true]
  grind
theorem Between.cond {b x c : Bits} (h : Between b x c) : Between b (x ||| c) c := by
  intro k
  have := h k
  simp only [Nat.testBit_or, Bool.or_eq_true]
  grind

/-! ### The invariant of evaluation -/

def isEval (s : Sheet N V) (n : N) : Bool := match s.nameIndex.find n with
  | some i => (s.cell i).evaluated
  | none => false

/-- The unfolding, for the cells which have been evaluated. -/
def restr (s0 s : Sheet N V) (L : Nat) : Env N V := fun m => if isEval s m then den s0 L m else none

theorem restr_le (s0 s : Sheet N V) (L : Nat) : EnvLe (restr s0 s L) (den s0 L) := by
  intro m w h
  unfold restr at h
  split at h
  · exact h
  · cases h

structure Ev (s0 s : Sheet N V) : Prop where
  stat : s.stat = s0.stat
  base : ∀ i, ((s0.cell i).spec = .input ∨ (s0.cell i).spec = .constant) →
    (s.cell i).state = (s0.cell i).state ∧ (s.cell i).contributing = (s0.cell i).contributing ∧ (s.cell i).evaluated = true
  inContrib : ∀ j, (s0.cell j).spec = .interfaceInput → (s.cell j).contributing = (s0.cell j).contributing
  inState : ∀ n i j, s0.nameIndex.find n = some i → (s0.cell i).input = some j → (s.cell i).evaluated = false →
    (s.cell j).state = (s0.cell j).state
  fresh : ∀ n i, s0.nameIndex.find n = some i → (s.cell i).evaluated = false → (s.cell i).state = (s0.cell i).state
  memo : ∀ n i, s0.nameIndex.find n = some i → ¬ ((s0.cell i).spec = .input ∨ (s0.cell i).spec = .constant) →
    (s.cell i).evaluated = true → ∃ L v b, rhs s0 (restr s0 s L) n = some (v, b) ∧ (s.cell i).state = v ∧
      Between b (s.cell i).contributing s0.condContributing ∧ (s.cell i).dirty = decide (v ≠ (s0.cell i).state)

structure Post (s0 : Sheet N V) (L : Nat) (s s' : Sheet N V) (b : Bits) : Prop where
  ev : Ev s0 s'
  ext : ∀ i, (s.cell i).evaluated = true → (s'.cell i).evaluated = true
  new : ∀ n i, s0.nameIndex.find n = some i → (s.cell i).evaluated = false → (s'.cell i).evaluated = true →
    ∃ w, den s0 L n = some w
  acc : ∃ x, s'.accumulate = s.accumulate ||| x ∧ Between b x s0.condContributing
  inp : ∀ j, (s0.cell j).spec = .interfaceInput → s'.cell j = s.cell j

theorem Ev.nameIndex {s0 s : Sheet N V} (h : Ev s0 s) : s.nameIndex = s0.nameIndex := stat_nameIndex h.stat

theorem Post.refl {s0 : Sheet N V} {L : Nat} {s : Sheet N V} (h : Ev s0 s) : Post s0 L s s 0 where
  ev := h
  ext := fun _ h => h
  new := fun n i _ h h' => by rw [h] at h'; cases h'
  acc := ⟨0, by simp, Between.refl _ _⟩
  inp := fun _ _ => rfl

theorem Post.trans {s0 : Sheet N V} {L : Nat} {s s' s'' : Sheet N V} {b b' : Bits} (h : Post s0 L s s' b) (h' : Post s0 L s' s'' b') :
    Post s0 L s s'' (b ||| b') where
  ev := h'.ev
  ext := fun i hi => h'.ext i (h.ext i hi)
  new := fun n i hn hi hi' => by
    cases he : (s'.cell i).evaluated with
    | true => exact h.new n i hn hi he
    | false => exact h'.new n i hn he hi'
  acc := by
    obtain ⟨x, hx, hb⟩ := h.acc
    obtain ⟨y, hy, hc⟩ := h'.acc
    exact ⟨x ||| y, by rw [hy, hx, Nat.or_assoc], hb.or hc⟩
  inp := fun j hj => (h'.inp j hj).trans (h.inp j hj)

theorem Post.mono {s0 : Sheet N V} {L L' : Nat} {s s' : Sheet N V} {b : Bits} (h : Post s0 L s s' b) (hl : L ≤ L') :
    Post s0 L' s s' b where
  ev := h.ev
  ext := h.ext
  new := fun n i hn hi hi' => by
    obtain ⟨w, hw⟩ := h.new n i hn hi hi'
    exact ⟨w, den_mono s0 hl n w hw⟩
  acc := h.acc
  inp := h.inp

theorem Post.isEval {s0 : Sheet N V} {L : Nat} {s s' : Sheet N V} {b : Bits} (h : Post s0 L s s' b) (hs : Ev s0 s) {n : N}
    (hn : isEval s n = true) : isEval s' n = true := by
  unfold Verif.Adam.isEval at *
  rw [hs.nameIndex] at hn; rw [h.ev.nameIndex]
  cases hi : s0.nameIndex.find n with
  | none => simp [hi] at hn
  | some i => simp only [hi] at hn ⊢; exact h.ext i hn

theorem Post.restr {s0 : Sheet N V} {L : Nat} {s s' : Sheet N V} {b : Bits} (h : Post s0 L s s' b) (hs : Ev s0 s) (L' : Nat) :
    EnvLe (restr s0 s L') (restr s0 s' L') := by
  intro n w hw
  unfold Verif.Adam.restr at *
  split at hw
  · rename_i he; rw [if_pos (h.isEval hs he)]; exact hw
  · cases hw

/-- A cell that is not reached within `L` levels is not evaluated on the way. -/
theorem Post.keeps {s0 : Sheet N V} {L : Nat} {s s' : Sheet N V} {b : Bits} (h : Post s0 L s s' b) {n : N} {i : Nat}
    (hn : s0.nameIndex.find n = some i) (hd : den s0 L n = none) (he : (s.cell i).evaluated = false) :
    (s'.cell i).evaluated = false := by
  cases hs : (s'.cell i).evaluated with
  | false => rfl
  | true => obtain ⟨w, hw⟩ := h.new n i hn he hs; rw [hd] at hw; cases hw

def TopFree (s0 : Sheet N V) (L : Nat) (s : Sheet N V) : Prop :=
  ∀ y fl rest, s.getStack = (y, fl) :: rest → den s0 L y = none

/-- The lookup `g` answers with the values of the equations, `L` levels deep. -/
def Answers (s0 : Sheet N V) (g : N → M N V V) (L : Nat) : Prop :=
  ∀ m v b, den s0 L m = some (v, b) → ∀ s, Ev s0 s → TopFree s0 L s →
    ∃ s', g m s = (.ok v, s') ∧ Post s0 L s s' b ∧ s'.getStack = s.getStack ∧ isEval s' m = true

theorem run_plain {s0 : Sheet N V} {g : N → M N V V} {L : Nat} (hg : Answers s0 g L) (p : Prog N V) :
    ∀ s v b, Ev s0 s → TopFree s0 L s → p.eval none (den s0 L) none none = some (v, b) →
      ∃ s', p.run g s = (.ok v, s') ∧ Post s0 L s s' b ∧ s'.getStack = s.getStack ∧
        p.eval none (restr s0 s' L) none none = some (v, b) := by
  induction p with
  | ret u =>
      intro s v b hs ht h
      simp only [Prog.eval, Option.some.injEq, Prod.mk.injEq] at h
      obtain ⟨rfl, rfl⟩ := h
      exact ⟨s, rfl, Post.refl hs, rfl, rfl⟩
  | fail => intro s v b hs ht h; simp [Prog.eval] at h
  | ask n k ih =>
      intro s v b hs ht h
      unfold Prog.eval at h
      rw [if_neg (by simp)] at h
      cases hd : den s0 L n with
      | none => simp [hd] at h
      | some w =>
          obtain ⟨wv, wb⟩ := w
          simp only [hd, Option.bind_some, Option.map_eq_some_iff, Prod.mk.injEq] at h
          obtain ⟨⟨u, ub⟩, hu, rfl, rfl⟩ := h
          obtain ⟨s1, hr1, hp1, hst1, he1⟩ := hg n wv wb hd s hs ht
          obtain ⟨s2, hr2, hp2, hst2, he2⟩ := ih wv s1 u ub hp1.ev (by unfold TopFree; rw [hst1]; exact ht) hu
          refine ⟨s2, ?_, hp1.trans hp2, hst2.trans hst1, ?_⟩
          · unfold Prog.run; rw [bind_ok hr1]; exact hr2
          · unfold Prog.eval
            rw [if_neg (by simp)]
            have : restr s0 s2 L n = some (wv, wb) := by
              unfold restr; rw [if_pos (hp2.isEval hp1.ev he1)]; exact hd
            simp [this, he2]

/-- How references to itself of an interface cell `x` under evaluation are answered. -/
def SelfAnswers (s0 : Sheet N V) (g : N → M N V V) (L : Nat) (x : N) (rest : List (N × Bool)) (fst : Env N V → Option (V × Bits))
    (later : Option (V × Bits)) (P : Bool → Prop) : Prop :=
  ∀ s fl w, P fl → s.getStack = (x, fl) :: rest → Ev s0 s → isEval s x = false →
    (if fl then later else fst (den s0 L)) = some w →
    ∃ s' fl', g x s = (.ok w.1, s') ∧ Post s0 L s s' w.2 ∧ s'.getStack = (x, fl') :: rest ∧ P fl' ∧
      (∀ env, (if fl' then later else fst env) = later) ∧ (if fl then later else fst (restr s0 s' L)) = some w

theorem run_self {s0 : Sheet N V} {g : N → M N V V} {L : Nat} {x : N} {rest : List (N × Bool)} {fst : Env N V → Option (V × Bits)}
    {later : Option (V × Bits)} {P : Bool → Prop} (hg : Answers s0 g L) (hx : den s0 L x = none)
    (hfst : ∀ e e', EnvLe e e' → Le (fst e) (fst e')) (hself : SelfAnswers s0 g L x rest fst later P) (p : Prog N V) :
    ∀ s fl v b, P fl → Ev s0 s → isEval s x = false → s.getStack = (x, fl) :: rest →
      p.eval (some x) (den s0 L) (if fl then later else fst (den s0 L)) later = some (v, b) →
      ∃ s' fl', p.run g s = (.ok v, s') ∧ Post s0 L s s' b ∧ s'.getStack = (x, fl') :: rest ∧ P fl' ∧ isEval s' x = false ∧
        p.eval (some x) (restr s0 s' L) (if fl then later else fst (restr s0 s' L)) later = some (v, b) := by
  have keep : ∀ {s s' b}, Ev s0 s → Post s0 L s s' b → isEval s x = false → isEval s' x = false := by
    intro s s' b hs hp he
    unfold isEval at *
    rw [hs.nameIndex] at he; rw [hp.ev.nameIndex]
    cases hi : s0.nameIndex.find x with
    | none => rfl
    | some i => simp only [hi] at he ⊢; exact hp.keeps hi hx he
  induction p with
  | ret u =>
      intro s fl v b hP hs hex hst h
      simp only [Prog.eval, Option.some.injEq, Prod.mk.injEq] at h
      obtain ⟨rfl, rfl⟩ := h
      exact ⟨s, fl, rfl, Post.refl hs, hst, hP, hex, rfl⟩
  | fail => intro s fl v b hP hs hex hst h; simp [Prog.eval] at h
  | ask n k ih =>
      intro s fl v b hP hs hex hst h
      unfold Prog.eval at h
      split at h
      · rename_i hn
        obtain rfl : n = x := by simpa using hn
        cases hd : (if fl then later else fst (den s0 L)) with
        | none => simp [hd] at h
        | some w =>
            simp only [hd, Option.bind_some, Option.map_eq_some_iff, Prod.mk.injEq] at h
            obtain ⟨⟨u, ub⟩, hu, rfl, rfl⟩ := h
            obtain ⟨s1, fl1, hr1, hp1, hst1, hP1, hlater, hfirst⟩ := hself s fl w hP hst hs hex hd
            have hex1 := keep hs hp1 hex
            obtain ⟨s2, fl2, hr2, hp2, hst2, hP2, hex2, he2⟩ := ih w.1 s1 fl1 u ub hP1 hp1.ev hex1 hst1 (by rw [hlater]; exact hu)
            refine ⟨s2, fl2, ?_, hp1.trans hp2, hst2, hP2, hex2, ?_⟩
            · unfold Prog.run; rw [bind_ok hr1]; exact hr2
            · unfold Prog.eval
              rw [if_pos rfl]
              have : (if fl then later else fst (restr s0 s2 L)) = some w := by
                cases fl with
                | true => simpa using hfirst
                | false => simpa using hfst _ _ (hp2.restr hp1.ev L) _ (by simpa using hfirst)
              rw [this]
              rw [hlater] at he2
              simp [he2]
      · rename_i hn
        cases hd : den s0 L n with
        | none => simp [hd] at h
        | some w =>
            obtain ⟨wv, wb⟩ := w
            simp only [hd, Option.bind_some, Option.map_eq_some_iff, Prod.mk.injEq] at h
            obtain ⟨⟨u, ub⟩, hu, rfl, rfl⟩ := h
            have htop : TopFree s0 L s := by
              intro y f r hy; rw [hst] at hy; cases hy; exact hx
            obtain ⟨s1, hr1, hp1, hst1, he1⟩ := hg n wv wb hd s hs htop
            have hex1 := keep hs hp1 hex
            obtain ⟨s2, fl2, hr2, hp2, hst2, hP2, hex2, he2⟩ := ih wv s1 fl u ub hP hp1.ev hex1 (hst1.trans hst) hu
            refine ⟨s2, fl2, ?_, hp1.trans hp2, hst2, hP2, hex2, ?_⟩
            · unfold Prog.run; rw [bind_ok hr1]; exact hr2
            · unfold Prog.eval
              rw [if_neg hn]
              have : restr s0 s2 L n = some (wv, wb) := by
                unfold restr; rw [if_pos (hp2.isEval hp1.ev he1)]; exact hd
              simp [this, he2]

end Verif.Adam
