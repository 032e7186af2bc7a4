import Verif.Expr.Parser
import Verif.Expr.Compile
import Mathlib.Tactic.Common
/-
The parser: what it accepts (soundness), and that it always stops.
-/
namespace Verif.Expr.Parser
open Verif.Expr Spec

variable {D O α β : Type}

theorem bind_def (x : M D O α) (f : α → M D O β) (st : List (Val D O)) (ts : List (Tok D)) :
    (x >>= f) st ts = match x st ts with
      | .ok a st ts => f a st ts
      | .throw => .throw
      | .fuel => .fuel := rfl

theorem pure_def (a : α) (st : List (Val D O)) (ts : List (Tok D)) : (pure a : M D O α) st ts = .ok a st ts := rfl

theorem pure_def' (a : α) (st : List (Val D O)) (ts : List (Tok D)) : (M.pure a : M D O α) st ts = .ok a st ts := rfl

theorem bind_ok {x : M D O α} {f : α → M D O β} {st ts b st' ts'} (h : (x >>= f) st ts = .ok b st' ts') :
    ∃ a s1 t1, x st ts = .ok a s1 t1 ∧ f a s1 t1 = .ok b st' ts' := by
  rw [bind_def] at h
  cases hx : x st ts with
  | ok a s1 t1 => rw [hx] at h; exact ⟨a, s1, t1, rfl, h⟩
  | throw => rw [hx] at h; cases h
  | fuel => rw [hx] at h; cases h

theorem bind_run {x : M D O α} (f : α → M D O β) {st ts a s1 t1} (h : x st ts = .ok a s1 t1) :
    (x >>= f) st ts = f a s1 t1 := by
  rw [bind_def, h]

/-! ### Inversion of the primitives -/

theorem accept_ok {f : Tok D → Option α} {st : List (Val D O)} {ts r st' ts'} (h : accept f st ts = .ok r st' ts') :
    st' = st ∧ ((∃ t a, r = some a ∧ f t = some a ∧ ts = t :: ts') ∨ (r = none ∧ ts' = ts)) := by
  unfold accept at h
  split at h
  · cases h; simp
  · cases h
  · rename_i t r' _
    cases ha : f t with
    | some a => rw [ha] at h; cases h; exact ⟨rfl, .inl ⟨t, a, rfl, ha, rfl⟩⟩
    | none => rw [ha] at h; cases h; exact ⟨rfl, .inr ⟨rfl, rfl⟩⟩

theorem isSym_ok {y : Sym} {st : List (Val D O)} {ts b st' ts'} (h : isSym y st ts = .ok b st' ts') :
    st' = st ∧ ((b = true ∧ ts = .sym y :: ts') ∨ (b = false ∧ ts' = ts)) := by
  unfold isSym at h
  obtain ⟨a, s1, t1, h1, h2⟩ := bind_ok h
  cases h2
  obtain ⟨hs, h1⟩ := accept_ok h1
  refine ⟨hs, ?_⟩
  rcases h1 with ⟨t, a', rfl, ht, hts⟩ | ⟨rfl, hts⟩
  · left
    refine ⟨rfl, ?_⟩
    cases t <;> simp only [reduceCtorEq] at ht
    split at ht
    · rename_i heq; subst heq; exact hts
    · cases ht
  · exact .inr ⟨rfl, hts⟩

theorem requireSym_ok {y : Sym} {st : List (Val D O)} {ts u st' ts'} (h : requireSym y st ts = .ok u st' ts') :
    st' = st ∧ ts = .sym y :: ts' := by
  unfold requireSym at h
  obtain ⟨a, s1, t1, h1, h2⟩ := bind_ok h
  replace h1 := isSym_ok h1
  obtain ⟨rfl, h1⟩ := h1
  rcases h1 with ⟨rfl, h1⟩ | ⟨rfl, h1⟩
  · cases h2; exact ⟨rfl, h1⟩
  · cases h2

theorem isIdent_ok {st : List (Val D O)} {ts r st' ts'} (h : isIdent st ts = .ok r st' ts') :
    st' = st ∧ ((∃ n, r = some n ∧ ts = .ident n :: ts') ∨ (r = none ∧ ts' = ts)) := by
  obtain ⟨hs, h⟩ := accept_ok h
  refine ⟨hs, ?_⟩
  rcases h with ⟨t, a, rfl, ht, hts⟩ | ⟨rfl, hts⟩
  · left
    cases t <;> simp only [reduceCtorEq, Option.some.injEq] at ht
    subst ht
    exact ⟨_, rfl, hts⟩
  · exact .inr ⟨rfl, hts⟩

theorem isKeyword_ok {k : Str} {st : List (Val D O)} {ts b st' ts'} (h : isKeyword k st ts = .ok b st' ts') :
    st' = st ∧ ((b = true ∧ ts = .kw k :: ts') ∨ (b = false ∧ ts' = ts)) := by
  unfold isKeyword at h
  obtain ⟨a, s1, t1, h1, h2⟩ := bind_ok h
  cases h2
  obtain ⟨hs, h1⟩ := accept_ok h1
  refine ⟨hs, ?_⟩
  rcases h1 with ⟨t, a', rfl, ht, hts⟩ | ⟨rfl, hts⟩
  · left
    refine ⟨rfl, ?_⟩
    cases t <;> simp only [reduceCtorEq] at ht
    split at ht
    · rename_i heq; subst heq; exact hts
    · cases ht
  · exact .inr ⟨rfl, hts⟩

theorem matchToken_ok {ops : List (Sym × Str)} {st : List (Val D O)} {ts r st' ts'}
    (h : matchToken ops st ts = .ok r st' ts') :
    st' = st ∧ ((∃ y k, r = some k ∧ (y, k) ∈ ops ∧ ts = .sym y :: ts') ∨ (r = none ∧ ts' = ts)) := by
  induction ops generalizing st ts with
  | nil => cases h; exact ⟨rfl, .inr ⟨rfl, rfl⟩⟩
  | cons p ops ih =>
    obtain ⟨y, k⟩ := p
    simp only [matchToken] at h
    obtain ⟨a, s1, t1, h1, h2⟩ := bind_ok h
    replace h1 := isSym_ok h1
    obtain ⟨rfl, h1⟩ := h1
    rcases h1 with ⟨rfl, h1⟩ | ⟨rfl, rfl⟩
    · cases h2; exact ⟨rfl, .inl ⟨y, k, rfl, by simp, h1⟩⟩
    · obtain ⟨hs, h2⟩ := ih h2
      refine ⟨hs, ?_⟩
      rcases h2 with ⟨y', k', h2⟩ | h2
      · exact .inl ⟨y', k', h2.1, by simp [h2.2.1], h2.2.2⟩
      · exact .inr h2

theorem require_ok {x : M D O Bool} {st : List (Val D O)} {ts u st' ts'} (h : require x st ts = .ok u st' ts') :
    x st ts = .ok true st' ts' := by
  unfold require at h
  obtain ⟨a, s1, t1, h1, h2⟩ := bind_ok h
  cases a
  · cases h2
  · cases h2; exact h1

theorem withStack_ok {x : M D O Unit} {st : List (Val D O)} {ts c st' ts'} (h : withStack x st ts = .ok c st' ts') :
    st' = st ∧ x [] ts = .ok () c ts' := by
  unfold withStack at h
  split at h
  · rename_i heq; cases h; exact ⟨rfl, heq⟩
  · cases h
  · cases h

theorem isName_ok {st : List (Val D O)} {ts r st' ts'} (h : isName st ts = .ok r st' ts') :
    st' = st ∧ ((∃ n, r = some (.name n) ∧ (ts = .sym .at :: .kw n :: ts' ∨ ts = .sym .at :: .ident n :: ts')) ∨
      (r = none ∧ ts' = ts)) := by
  unfold isName at h
  obtain ⟨a, s1, t1, h1, h2⟩ := bind_ok h
  replace h1 := isSym_ok h1
  obtain ⟨rfl, h1⟩ := h1
  rcases h1 with ⟨rfl, h1⟩ | ⟨rfl, rfl⟩
  · obtain ⟨a, s2, t2, h3, h4⟩ := bind_ok h2
    replace h3 := accept_ok h3
    obtain ⟨rfl, h3⟩ := h3
    rcases h3 with ⟨t, n, rfl, ht, rfl⟩ | ⟨rfl, rfl⟩
    · cases h4
      cases t <;> simp only [reduceCtorEq, Option.some.injEq] at ht
      subst ht
      exact ⟨rfl, .inl ⟨_, rfl, .inl h1⟩⟩
    · obtain ⟨a, s3, t3, h5, h6⟩ := bind_ok h4
      replace h5 := isIdent_ok h5
      obtain ⟨rfl, h5⟩ := h5
      rcases h5 with ⟨n, rfl, rfl⟩ | ⟨rfl, rfl⟩
      · cases h6
        exact ⟨rfl, .inl ⟨n, rfl, .inr h1⟩⟩
      · cases h6
  · cases h2
    exact ⟨rfl, .inr ⟨rfl, rfl⟩⟩

theorem isConstant_ok {st : List (Val D O)} {ts r st' ts'} (h : isConstant st ts = .ok r st' ts') :
    st' = st ∧ ((∃ v used, r = some v ∧ ts = used ++ ts' ∧ Derives .primary used (.e (.const v))) ∨ (r = none ∧ ts' = ts)) := by
  unfold isConstant at h
  obtain ⟨a, s1, t1, h1, h2⟩ := bind_ok h
  replace h1 := isName_ok h1
  obtain ⟨rfl, h1⟩ := h1
  rcases h1 with ⟨n, rfl, h1⟩ | ⟨rfl, rfl⟩
  · cases h2
    rcases h1 with rfl | rfl
    · exact ⟨rfl, .inl ⟨_, [_, _], rfl, rfl, .nameK n⟩⟩
    · exact ⟨rfl, .inl ⟨_, [_, _], rfl, rfl, .nameI n⟩⟩
  · obtain ⟨a, s2, t2, h3, h4⟩ := bind_ok h2
    replace h3 := accept_ok h3
    obtain ⟨rfl, h3⟩ := h3
    rcases h3 with ⟨t, d, rfl, ht, rfl⟩ | ⟨rfl, rfl⟩
    · cases h4
      cases t <;> simp only [reduceCtorEq, Option.some.injEq] at ht
      subst ht
      exact ⟨rfl, .inl ⟨_, [_], rfl, rfl, .num _⟩⟩
    · obtain ⟨b, s3, t3, h5, h6⟩ := bind_ok h4
      replace h5 := isKeyword_ok h5
      obtain ⟨rfl, h5⟩ := h5
      rcases h5 with ⟨rfl, rfl⟩ | ⟨rfl, rfl⟩
      · cases h6; exact ⟨rfl, .inl ⟨_, [_], rfl, rfl, .kwTrue⟩⟩
      · obtain ⟨b, s4, t4, h7, h8⟩ := bind_ok h6
        replace h7 := isKeyword_ok h7
        obtain ⟨rfl, h7⟩ := h7
        rcases h7 with ⟨rfl, rfl⟩ | ⟨rfl, rfl⟩
        · cases h8; exact ⟨rfl, .inl ⟨_, [_], rfl, rfl, .kwFalse⟩⟩
        · obtain ⟨b, s5, t5, h9, h10⟩ := bind_ok h8
          replace h9 := accept_ok h9
          obtain ⟨rfl, h9⟩ := h9
          rcases h9 with ⟨t, d, rfl, ht, rfl⟩ | ⟨rfl, rfl⟩
          · cases h10
            cases t <;> simp only [reduceCtorEq, Option.some.injEq] at ht
            subst ht
            exact ⟨rfl, .inl ⟨_, [_], rfl, rfl, .str _⟩⟩
          · obtain ⟨b, s6, t6, h11, h12⟩ := bind_ok h10
            replace h11 := isKeyword_ok h11
            obtain ⟨rfl, h11⟩ := h11
            rcases h11 with ⟨rfl, rfl⟩ | ⟨rfl, rfl⟩
            · cases h12; exact ⟨rfl, .inl ⟨_, [_], rfl, rfl, .kwEmpty⟩⟩
            · cases h12; exact ⟨rfl, .inr ⟨rfl, rfl⟩⟩

theorem isUnaryOperator_ok {st : List (Val D O)} {ts r st' ts'} (h : isUnaryOperator st ts = .ok r st' ts') :
    st' = st ∧ ((r = some [.name Vm.unary_negate_k] ∧ ts = .sym .subtract :: ts') ∨ (r = some [.name Vm.not_k] ∧ ts = .sym .not :: ts') ∨
      (r = some [] ∧ ts = .sym .add :: ts') ∨ (r = some [.name Vm.bitwise_negate_k] ∧ ts = .sym .bitNegate :: ts') ∨
      (r = none ∧ ts' = ts)) := by
  replace h := accept_ok h
  obtain ⟨rfl, h⟩ := h
  refine ⟨rfl, ?_⟩
  rcases h with ⟨t, a, rfl, ht, rfl⟩ | ⟨rfl, rfl⟩
  · split at ht
    · cases ht; simp
    · cases ht; simp
    · cases ht; simp
    · cases ht; simp
    · cases ht
  · simp

/-! ### Soundness -/

/-- The function that parses a level of the grammar. -/
def fOf : Nat → F
  | 0 => .unary
  | 1 => .multiplicative
  | 2 => .additive
  | 3 => .bitshift
  | 4 => .relational
  | 5 => .equality
  | 6 => .bitAnd
  | 7 => .bitXor
  | 8 => .bitOr
  | 9 => .andE
  | _ => .orE

/-- Its operators, with the names pushed for them. -/
def opsOf (k : Nat) : List (Sym × Str) := match k with
  | 9 => [(.and, Vm.and_k)]
  | 10 => [(.or, Vm.or_k)]
  | k => (binSyms k).map fun p => (p.1, opName p.2)

variable (c : Nat → D)

/-- An optional phrase: parsed completely, its code pushed; or nothing consumed, nothing pushed. -/
def PostE (nt : NT) (st : List (Val D O)) (ts : List (Tok D)) (b : Bool) (st' : List (Val D O)) (ts' : List (Tok D)) : Prop :=
  (b = true ∧ ∃ used e, ts = used ++ ts' ∧ Derives nt used (.e e) ∧ st' = st ++ compile c e) ∨ (b = false ∧ st' = st ∧ ts' = ts)

/-- The rest of a chain of operators. -/
def PostLoop (nt : NT) (st : List (Val D O)) (ts : List (Tok D)) (b : Bool) (st' : List (Val D O)) (ts' : List (Tok D)) : Prop :=
  ∀ u0 e0, Derives nt u0 (.e e0) → b = true ∧ ∃ used e tail, ts = used ++ ts' ∧ Derives nt (u0 ++ used) (.e e) ∧
    compile c e = compile c e0 ++ tail ∧ st' = st ++ tail

def PostArgs (st : List (Val D O)) (ts : List (Tok D)) (b : Bool) (st' : List (Val D O)) (ts' : List (Tok D)) : Prop :=
  (b = true ∧ ∃ used es, ts = used ++ ts' ∧ Derives .args used (.es es) ∧
    st' = st ++ (compileList c es ++ [.num (c es.length), .name Vm.array_k])) ∨ (b = false ∧ st' = st ∧ ts' = ts)

def PostNamed (st : List (Val D O)) (ts : List (Tok D)) (b : Bool) (st' : List (Val D O)) (ts' : List (Tok D)) : Prop :=
  (b = true ∧ ∃ used ms, ts = used ++ ts' ∧ Derives .named used (.ms ms) ∧
    st' = st ++ (compileMembers c ms ++ [.num (c ms.length), .name Vm.dictionary_k])) ∨ (b = false ∧ st' = st ∧ ts' = ts)

def Post : F → List (Val D O) → List (Tok D) → Bool → List (Val D O) → List (Tok D) → Prop
  | .expression => PostE c .expression
  | .orE => PostE c (.level 10)
  | .andE => PostE c (.level 9)
  | .bitOr => PostE c (.level 8)
  | .bitXor => PostE c (.level 7)
  | .bitAnd => PostE c (.level 6)
  | .equality => PostE c (.level 5)
  | .relational => PostE c (.level 4)
  | .bitshift => PostE c (.level 3)
  | .additive => PostE c (.level 2)
  | .multiplicative => PostE c (.level 1)
  | .unary => PostE c (.level 0)
  | .postfix => PostE c .postfix
  | .primary => PostE c .primary
  | .variableOrFunction => PostE c .primary
  | .dictionary => PostE c .primary
  | .array => PostE c .primary
  | .argList => PostArgs c
  | .namedArgList => PostNamed c
  | .argExprList => fun st ts b st' ts' => (b = true ∧ (PostArgs c st ts true st' ts' ∨ PostNamed c st ts true st' ts')) ∨
      (b = false ∧ st' = st ∧ ts' = ts)
  | .namedArg => fun st ts b st' ts' => (b = true ∧ ∃ n used e, ts = .ident n :: .sym .colon :: (used ++ ts') ∧
      Derives .expression used (.e e) ∧ st' = st ++ .name n :: compile c e) ∨ (b = false ∧ st' = st ∧ ts' = ts)
  | .postfixLoop => PostLoop c .postfix
  | .binaryLoop sub ops => fun st ts b st' ts' => ∀ k, k < 8 → sub = fOf k → ops = opsOf (k + 1) →
      PostLoop c (.level (k + 1)) st ts b st' ts'
  | .logicalLoop sub ops => fun st ts b st' ts' => ∀ k, k = 8 ∨ k = 9 → sub = fOf k → ops = opsOf (k + 1) →
      PostLoop c (.level (k + 1)) st ts b st' ts'
  | .argLoop count => fun st ts b st' ts' => ∀ u0 es0, es0.length = count → Derives .args u0 (.es es0) → b = true ∧
      ∃ used es more, ts = used ++ ts' ∧ Derives .args (u0 ++ used) (.es es) ∧ compileList c es = compileList c es0 ++ more ∧
        st' = st ++ (more ++ [.num (c es.length), .name Vm.array_k])
  | .namedLoop count => fun st ts b st' ts' => ∀ u0 ms0, ms0.length = count → Derives .named u0 (.ms ms0) → b = true ∧
      ∃ used ms more, ts = used ++ ts' ∧ Derives .named (u0 ++ used) (.ms ms) ∧
        compileMembers c ms = compileMembers c ms0 ++ more ∧
        st' = st ++ (more ++ [.num (c ms.length), .name Vm.dictionary_k])

theorem compileList_append (a b : List (Expr D O)) : compileList c (a ++ b) = compileList c a ++ compileList c b := by
  induction a with
  | nil => rfl
  | cons e es ih => simp [compileList, ih]

theorem compileMembers_append (a b : List (Str × Expr D O)) :
    compileMembers c (a ++ b) = compileMembers c a ++ compileMembers c b := by
  induction a with
  | nil => rfl
  | cons e es ih => simp [compileMembers, ih]

def SoundRec (rec : F → M D O Bool) : Prop :=
  ∀ f st ts b st' ts', rec f st ts = .ok b st' ts' → Post c f st ts b st' ts'

variable {c}

theorem isBinary_sound {rec : F → M D O Bool} (hr : SoundRec c rec) (k : Nat) (hk : k < 8)
    (hp : Post (D := D) (O := O) c (fOf k) = PostE c (.level k)) {st ts b st' ts'}
    (h : isBinary rec (fOf k) (opsOf (k + 1)) st ts = .ok b st' ts') : PostE c (.level (k + 1)) st ts b st' ts' := by
  unfold isBinary at h
  obtain ⟨a, s1, t1, h1, h2⟩ := bind_ok h
  replace h1 := hr _ _ _ _ _ _ h1
  rw [hp] at h1
  rcases h1 with ⟨rfl, used, e, hts, hd, hs⟩ | ⟨rfl, rfl, rfl⟩
  · replace h2 := hr _ _ _ _ _ _ h2 k hk rfl rfl used e (.level (by omega) hd)
    obtain ⟨rfl, used', e', tail, hts', hd', hc, hs'⟩ := h2
    exact .inl ⟨rfl, used ++ used', e', by rw [hts, hts']; simp, hd', by rw [hs', hs, hc]; simp⟩
  · cases h2
    exact .inr ⟨rfl, rfl, rfl⟩

theorem isLogical_sound {rec : F → M D O Bool} (hr : SoundRec c rec) (k : Nat) (hk : k = 8 ∨ k = 9)
    (hp : Post (D := D) (O := O) c (fOf k) = PostE c (.level k)) {st ts b st' ts'}
    (h : isLogical rec (fOf k) (opsOf (k + 1)) st ts = .ok b st' ts') : PostE c (.level (k + 1)) st ts b st' ts' := by
  unfold isLogical at h
  obtain ⟨a, s1, t1, h1, h2⟩ := bind_ok h
  replace h1 := hr _ _ _ _ _ _ h1
  rw [hp] at h1
  rcases h1 with ⟨rfl, used, e, hts, hd, hs⟩ | ⟨rfl, rfl, rfl⟩
  · replace h2 := hr _ _ _ _ _ _ h2 k hk rfl rfl used e (.level (by omega) hd)
    obtain ⟨rfl, used', e', tail, hts', hd', hc, hs'⟩ := h2
    exact .inl ⟨rfl, used ++ used', e', by rw [hts, hts']; simp, hd', by rw [hs', hs, hc]; simp⟩
  · cases h2
    exact .inr ⟨rfl, rfl, rfl⟩

theorem require_sound {rec : F → M D O Bool} (hr : SoundRec c rec) {f : F} {nt : NT}
    (hp : Post (D := D) (O := O) c f = PostE c nt) {st ts u st' ts'} (h : require (rec f) st ts = .ok u st' ts') :
    ∃ used e, ts = used ++ ts' ∧ Derives nt used (.e e) ∧ st' = st ++ compile c e := by
  have := hr _ _ _ _ _ _ (require_ok h)
  rw [hp] at this
  rcases this with ⟨_, h⟩ | ⟨h, _⟩
  · exact h
  · cases h

theorem postLoop_done {nt : NT} {st : List (Val D O)} {ts : List (Tok D)} : PostLoop c nt st ts true st ts := by
  intro u0 e0 hd
  exact ⟨rfl, [], e0, [], rfl, by simpa using hd, by simp, by simp⟩

theorem postLoop_step {nt : NT} {st st1 st' : List (Val D O)} {ts t1 ts' : List (Tok D)} {b : Bool} (u1 : List (Tok D))
    (tail1 : List (Val D O)) (next : Expr D O → Expr D O)
    (hstep : ∀ u0 e0, Derives nt u0 (.e e0) → Derives nt (u0 ++ u1) (.e (next e0)))
    (hc : ∀ e0, compile c (next e0) = compile c e0 ++ tail1) (hts : ts = u1 ++ t1) (hst : st1 = st ++ tail1)
    (h : PostLoop c nt st1 t1 b st' ts') : PostLoop c nt st ts b st' ts' := by
  intro u0 e0 hd
  obtain ⟨rfl, used, e, tail, hts', hd', hc', hs'⟩ := h (u0 ++ u1) (next e0) (hstep u0 e0 hd)
  exact ⟨rfl, u1 ++ used, e, tail1 ++ tail, by rw [hts, hts']; simp, by simpa using hd', by rw [hc', hc]; simp,
    by rw [hs', hst]; simp⟩

theorem body_sound {rec : F → M D O Bool} (hr : SoundRec c rec) : SoundRec c (body c rec) := by
  intro f st ts b st' ts' h
  cases f with
  | orE => exact isLogical_sound hr 9 (by omega) rfl h
  | andE => exact isLogical_sound hr 8 (by omega) rfl h
  | bitOr => exact isBinary_sound hr 7 (by omega) rfl h
  | bitXor => exact isBinary_sound hr 6 (by omega) rfl h
  | bitAnd => exact isBinary_sound hr 5 (by omega) rfl h
  | equality => exact isBinary_sound hr 4 (by omega) rfl h
  | relational => exact isBinary_sound hr 3 (by omega) rfl h
  | bitshift => exact isBinary_sound hr 2 (by omega) rfl h
  | additive => exact isBinary_sound hr 1 (by omega) rfl h
  | multiplicative => exact isBinary_sound hr 0 (by omega) rfl h
  | expression =>
    simp only [body] at h
    obtain ⟨a, s1, t1, h1, h2⟩ := bind_ok h
    replace h1 := hr _ _ _ _ _ _ h1
    rcases h1 with ⟨rfl, used, e, hts, hd, hs⟩ | ⟨rfl, rfl, rfl⟩
    · obtain ⟨a, s2, t2, h3, h4⟩ := bind_ok h2
      replace h3 := isSym_ok h3
      obtain ⟨rfl, h3⟩ := h3
      rcases h3 with ⟨rfl, rfl⟩ | ⟨rfl, rfl⟩
      · obtain ⟨o2, s3, t3, h5, h6⟩ := bind_ok h4
        replace h5 := withStack_ok h5
        obtain ⟨rfl, h5⟩ := h5
        obtain ⟨u2, e2, rfl, hd2, rfl⟩ := require_sound hr (nt := .expression) rfl h5
        obtain ⟨_, s4, t4, h7, h8⟩ := bind_ok h6
        obtain ⟨rfl, rfl⟩ := requireSym_ok h7
        obtain ⟨o3, s5, t5, h9, h10⟩ := bind_ok h8
        replace h9 := withStack_ok h9
        obtain ⟨rfl, h9⟩ := h9
        obtain ⟨u3, e3, rfl, hd3, rfl⟩ := require_sound hr (nt := .expression) rfl h9
        cases h10
        exact .inl ⟨rfl, used ++ .sym .question :: (u2 ++ .sym .colon :: u3), .cond e e2 e3, by rw [hts]; simp,
          .cond hd hd2 hd3, by rw [hs]; simp [compile]⟩
      · cases h4
        exact .inl ⟨rfl, used, e, hts, .expr hd, hs⟩
    · cases h2
      exact .inr ⟨rfl, rfl, rfl⟩
  | unary =>
    simp only [body] at h
    obtain ⟨a, s1, t1, h1, h2⟩ := bind_ok h
    replace h1 := hr _ _ _ _ _ _ h1
    rcases h1 with ⟨rfl, used, e, hts, hd, hs⟩ | ⟨rfl, rfl, rfl⟩
    · cases h2
      exact .inl ⟨rfl, used, e, hts, .postfix hd, hs⟩
    · obtain ⟨a, s2, t2, h3, h4⟩ := bind_ok h2
      replace h3 := isUnaryOperator_ok h3
      obtain ⟨rfl, h3⟩ := h3
      rcases h3 with ⟨rfl, rfl⟩ | ⟨rfl, rfl⟩ | ⟨rfl, rfl⟩ | ⟨rfl, rfl⟩ | ⟨rfl, rfl⟩
      · obtain ⟨_, s3, t3, h5, h6⟩ := bind_ok h4
        obtain ⟨u2, e2, rfl, hd2, rfl⟩ := require_sound hr (nt := .level 0) rfl h5
        cases h6
        exact .inl ⟨rfl, _ :: u2, _, rfl, .neg hd2, by simp [compile, unName]⟩
      · obtain ⟨_, s3, t3, h5, h6⟩ := bind_ok h4
        obtain ⟨u2, e2, rfl, hd2, rfl⟩ := require_sound hr (nt := .level 0) rfl h5
        cases h6
        exact .inl ⟨rfl, _ :: u2, _, rfl, .not hd2, by simp [compile, unName]⟩
      · obtain ⟨_, s3, t3, h5, h6⟩ := bind_ok h4
        obtain ⟨u2, e2, rfl, hd2, rfl⟩ := require_sound hr (nt := .level 0) rfl h5
        cases h6
        exact .inl ⟨rfl, _ :: u2, _, rfl, .plus hd2, by simp⟩
      · obtain ⟨_, s3, t3, h5, h6⟩ := bind_ok h4
        obtain ⟨u2, e2, rfl, hd2, rfl⟩ := require_sound hr (nt := .level 0) rfl h5
        cases h6
        exact .inl ⟨rfl, _ :: u2, _, rfl, .bitNot hd2, by simp [compile, unName]⟩
      · cases h4
        exact .inr ⟨rfl, rfl, rfl⟩
  | «postfix» =>
    simp only [body] at h
    obtain ⟨a, s1, t1, h1, h2⟩ := bind_ok h
    replace h1 := hr _ _ _ _ _ _ h1
    rcases h1 with ⟨rfl, used, e, hts, hd, hs⟩ | ⟨rfl, rfl, rfl⟩
    · obtain ⟨rfl, used', e', tail, hts', hd', hc, hs'⟩ := hr _ _ _ _ _ _ h2 used e (.primary hd)
      exact .inl ⟨rfl, used ++ used', e', by rw [hts, hts']; simp, hd', by rw [hs', hs, hc]; simp⟩
    · cases h2
      exact .inr ⟨rfl, rfl, rfl⟩
  | postfixLoop =>
    simp only [body] at h
    obtain ⟨a, s1, t1, h1, h2⟩ := bind_ok h
    replace h1 := isSym_ok h1
    obtain ⟨rfl, h1⟩ := h1
    rcases h1 with ⟨rfl, rfl⟩ | ⟨rfl, rfl⟩
    · obtain ⟨_, s2, t2, h3, h4⟩ := bind_ok h2
      obtain ⟨u2, e2, rfl, hd2, rfl⟩ := require_sound hr (nt := .expression) rfl h3
      obtain ⟨_, s3, t3, h5, h6⟩ := bind_ok h4
      obtain ⟨rfl, rfl⟩ := requireSym_ok h5
      obtain ⟨_, s4, t4, h7, h8⟩ := bind_ok h6
      cases h7
      exact postLoop_step (.sym .openBracket :: (u2 ++ [.sym .closeBracket])) (compile c e2 ++ [.name Vm.index_k])
        (fun e0 => .index e0 e2) (fun u0 e0 hd => .index hd hd2) (fun e0 => by simp [compile]) (by simp) (by simp)
        (hr _ _ _ _ _ _ h8)
    · obtain ⟨a, s2, t2, h3, h4⟩ := bind_ok h2
      replace h3 := isSym_ok h3
      obtain ⟨rfl, h3⟩ := h3
      rcases h3 with ⟨rfl, rfl⟩ | ⟨rfl, rfl⟩
      · obtain ⟨_, s3, t3, h5, h6⟩ := bind_ok h4
        replace h5 := isIdent_ok h5
        obtain ⟨rfl, h5⟩ := h5
        rcases h5 with ⟨n, rfl, rfl⟩ | ⟨rfl, rfl⟩
        · obtain ⟨_, s4, t4, h7, h8⟩ := bind_ok h6
          cases h7
          obtain ⟨_, s5, t5, h9, h10⟩ := bind_ok h8
          cases h9
          exact postLoop_step [.sym .dot, .ident n] [.name n, .name Vm.index_k] (fun e0 => .index e0 (.const (.name n)))
            (fun u0 e0 hd => .dot n hd) (fun e0 => by simp [compile]) (by simp) (by simp) (hr _ _ _ _ _ _ h10)
        · cases h6
      · cases h4
        exact postLoop_done
  | argExprList =>
    simp only [body] at h
    obtain ⟨a, s1, t1, h1, h2⟩ := bind_ok h
    replace h1 := hr _ _ _ _ _ _ h1
    rcases h1 with ⟨rfl, h1⟩ | ⟨rfl, rfl, rfl⟩
    · cases h2
      exact .inl ⟨rfl, .inr (.inl ⟨rfl, h1⟩)⟩
    · replace h2 := hr _ _ _ _ _ _ h2
      rcases h2 with ⟨rfl, h2⟩ | h2
      · exact .inl ⟨rfl, .inl (.inl ⟨rfl, h2⟩)⟩
      · exact .inr h2
  | argList =>
    simp only [body] at h
    obtain ⟨a, s1, t1, h1, h2⟩ := bind_ok h
    replace h1 := hr _ _ _ _ _ _ h1
    rcases h1 with ⟨rfl, used, e, hts, hd, hs⟩ | ⟨rfl, rfl, rfl⟩
    · obtain ⟨rfl, used', es, more, hts', hd', hc, hs'⟩ := hr _ _ _ _ _ _ h2 used [e] rfl (.arg hd)
      refine .inl ⟨rfl, used ++ used', es, by rw [hts, hts']; simp, hd', ?_⟩
      rw [hs', hs, hc]; simp [compileList]
    · cases h2
      exact .inr ⟨rfl, rfl, rfl⟩
  | argLoop count =>
    intro u0 es0 hlen hd
    simp only [body] at h
    obtain ⟨a, s1, t1, h1, h2⟩ := bind_ok h
    replace h1 := isSym_ok h1
    obtain ⟨rfl, h1⟩ := h1
    rcases h1 with ⟨rfl, rfl⟩ | ⟨rfl, rfl⟩
    · obtain ⟨_, s2, t2, h3, h4⟩ := bind_ok h2
      obtain ⟨u2, e2, rfl, hd2, rfl⟩ := require_sound hr (nt := .expression) rfl h3
      obtain ⟨rfl, used', es, more, hts', hd', hc, hs'⟩ :=
        hr _ _ _ _ _ _ h4 (u0 ++ .sym .comma :: u2) (es0 ++ [e2]) (by simp [hlen]) (.argMore hd hd2)
      refine ⟨rfl, .sym .comma :: (u2 ++ used'), es, compile c e2 ++ more, by rw [hts']; simp, by simpa using hd', ?_, ?_⟩
      · rw [hc, compileList_append]; simp [compileList]
      · rw [hs']; simp
    · cases h2
      exact ⟨rfl, [], es0, [], rfl, by simpa using hd, by simp, by simp [hlen]⟩
  | namedArgList =>
    simp only [body] at h
    obtain ⟨a, s1, t1, h1, h2⟩ := bind_ok h
    replace h1 := hr _ _ _ _ _ _ h1
    rcases h1 with ⟨rfl, n, used, e, hts, hd, hs⟩ | ⟨rfl, rfl, rfl⟩
    · obtain ⟨rfl, used', es, more, hts', hd', hc, hs'⟩ := hr _ _ _ _ _ _ h2 _ [(n, e)] rfl (.member n hd)
      refine .inl ⟨rfl, (.ident n :: .sym .colon :: used) ++ used', es, by rw [hts, hts']; simp, hd', ?_⟩
      rw [hs', hs, hc]; simp [compileMembers]
    · cases h2
      exact .inr ⟨rfl, rfl, rfl⟩
  | namedLoop count =>
    intro u0 es0 hlen hd
    simp only [body] at h
    obtain ⟨a, s1, t1, h1, h2⟩ := bind_ok h
    replace h1 := isSym_ok h1
    obtain ⟨rfl, h1⟩ := h1
    rcases h1 with ⟨rfl, rfl⟩ | ⟨rfl, rfl⟩
    · obtain ⟨_, s2, t2, h3, h4⟩ := bind_ok h2
      have h3 := hr _ _ _ _ _ _ (require_ok h3)
      rcases h3 with ⟨_, n, u2, e2, rfl, hd2, rfl⟩ | ⟨h, _⟩
      · obtain ⟨rfl, used', es, more, hts', hd', hc, hs'⟩ :=
          hr _ _ _ _ _ _ h4 (u0 ++ .sym .comma :: .ident n :: .sym .colon :: u2) (es0 ++ [(n, e2)]) (by simp [hlen])
            (.memberMore n hd hd2)
        refine ⟨rfl, .sym .comma :: .ident n :: .sym .colon :: (u2 ++ used'), es, .name n :: (compile c e2 ++ more), by rw [hts']; simp,
          by simpa using hd', ?_, ?_⟩
        · rw [hc, compileMembers_append]; simp [compileMembers]
        · rw [hs']; simp
      · cases h
    · cases h2
      exact ⟨rfl, [], es0, [], rfl, by simpa using hd, by simp, by simp [hlen]⟩
  | namedArg =>
    simp only [body] at h
    obtain ⟨a, s1, t1, h1, h2⟩ := bind_ok h
    replace h1 := isIdent_ok h1
    obtain ⟨rfl, h1⟩ := h1
    rcases h1 with ⟨n, rfl, rfl⟩ | ⟨rfl, rfl⟩
    · obtain ⟨a, s2, t2, h3, h4⟩ := bind_ok h2
      replace h3 := isSym_ok h3
      obtain ⟨rfl, h3⟩ := h3
      rcases h3 with ⟨rfl, rfl⟩ | ⟨rfl, rfl⟩
      · obtain ⟨_, s3, t3, h5, h6⟩ := bind_ok h4
        cases h5
        obtain ⟨_, s4, t4, h7, h8⟩ := bind_ok h6
        obtain ⟨u2, e2, rfl, hd2, rfl⟩ := require_sound hr (nt := .expression) rfl h7
        cases h8
        exact .inl ⟨rfl, n, u2, e2, rfl, hd2, by simp⟩
      · cases h4
        exact .inr ⟨rfl, rfl, rfl⟩
    · cases h2
      exact .inr ⟨rfl, rfl, rfl⟩
  | primary =>
    simp only [body] at h
    obtain ⟨a, s1, t1, h1, h2⟩ := bind_ok h
    replace h1 := isConstant_ok h1
    obtain ⟨rfl, h1⟩ := h1
    rcases h1 with ⟨v, used, rfl, rfl, hd⟩ | ⟨rfl, rfl⟩
    · cases h2
      exact .inl ⟨rfl, used, _, rfl, hd, by simp [compile]⟩
    · obtain ⟨a, s2, t2, h3, h4⟩ := bind_ok h2
      replace h3 := hr _ _ _ _ _ _ h3
      rcases h3 with ⟨rfl, h3⟩ | ⟨rfl, rfl, rfl⟩
      · cases h4
        exact .inl ⟨rfl, h3⟩
      · obtain ⟨a, s3, t3, h5, h6⟩ := bind_ok h4
        replace h5 := hr _ _ _ _ _ _ h5
        rcases h5 with ⟨rfl, h5⟩ | ⟨rfl, rfl, rfl⟩
        · cases h6
          exact .inl ⟨rfl, h5⟩
        · obtain ⟨a, s4, t4, h7, h8⟩ := bind_ok h6
          replace h7 := hr _ _ _ _ _ _ h7
          rcases h7 with ⟨rfl, h7⟩ | ⟨rfl, rfl, rfl⟩
          · cases h8
            exact .inl ⟨rfl, h7⟩
          · obtain ⟨a, s5, t5, h9, h10⟩ := bind_ok h8
            replace h9 := isSym_ok h9
            obtain ⟨rfl, h9⟩ := h9
            rcases h9 with ⟨rfl, rfl⟩ | ⟨rfl, rfl⟩
            · obtain ⟨_, s6, t6, h11, h12⟩ := bind_ok h10
              obtain ⟨u2, e2, rfl, hd2, rfl⟩ := require_sound hr (nt := .expression) rfl h11
              obtain ⟨_, s7, t7, h13, h14⟩ := bind_ok h12
              obtain ⟨rfl, rfl⟩ := requireSym_ok h13
              cases h14
              exact .inl ⟨rfl, _, e2, by simp, .paren hd2, rfl⟩
            · cases h10
              exact .inr ⟨rfl, rfl, rfl⟩
  | variableOrFunction =>
    simp only [body] at h
    obtain ⟨a, s1, t1, h1, h2⟩ := bind_ok h
    replace h1 := isIdent_ok h1
    obtain ⟨rfl, h1⟩ := h1
    rcases h1 with ⟨n, rfl, rfl⟩ | ⟨rfl, rfl⟩
    · obtain ⟨a, s2, t2, h3, h4⟩ := bind_ok h2
      replace h3 := isSym_ok h3
      obtain ⟨rfl, h3⟩ := h3
      rcases h3 with ⟨rfl, rfl⟩ | ⟨rfl, rfl⟩
      · obtain ⟨a, s3, t3, h5, h6⟩ := bind_ok h4
        replace h5 := hr _ _ _ _ _ _ h5
        rcases h5 with ⟨rfl, h5⟩ | ⟨rfl, rfl, rfl⟩
        · obtain ⟨_, s4, t4, h7, h8⟩ := bind_ok h6
          obtain ⟨rfl, rfl⟩ := requireSym_ok h7
          cases h8
          rcases h5 with h5 | h5
          · rcases h5 with ⟨_, used, es, rfl, hd, rfl⟩ | ⟨h, _⟩
            · refine .inl ⟨rfl, .ident n :: .sym .openParen :: (used ++ [.sym .closeParen]), _, by simp, .call n hd, ?_⟩
              rcases es with _ | ⟨e, es⟩
              · exfalso
                generalize hnt : NT.args = nt at hd
                generalize ho : Out.es ([] : List (Expr D O)) = o at hd
                cases hd <;> cases hnt <;> simp at ho
              · simp [compile, compileList]
            · cases h
          · rcases h5 with ⟨_, used, es, rfl, hd, rfl⟩ | ⟨h, _⟩
            · exact .inl ⟨rfl, .ident n :: .sym .openParen :: (used ++ [.sym .closeParen]), _, by simp, .callNamed n hd, by
                simp [compile]⟩
            · cases h
        · obtain ⟨_, s4, t4, h7, h8⟩ := bind_ok h6
          cases h7
          obtain ⟨_, s5, t5, h9, h10⟩ := bind_ok h8
          obtain ⟨rfl, rfl⟩ := requireSym_ok h9
          cases h10
          exact .inl ⟨rfl, [_, _, _], _, rfl, .call0 n, by simp [compile]⟩
      · cases h4
        exact .inl ⟨rfl, [_], _, rfl, .var n, by simp [compile]⟩
    · cases h2
      exact .inr ⟨rfl, rfl, rfl⟩
  | dictionary =>
    simp only [body] at h
    obtain ⟨a, s1, t1, h1, h2⟩ := bind_ok h
    replace h1 := isSym_ok h1
    obtain ⟨rfl, h1⟩ := h1
    rcases h1 with ⟨rfl, rfl⟩ | ⟨rfl, rfl⟩
    · obtain ⟨a, s2, t2, h3, h4⟩ := bind_ok h2
      replace h3 := hr _ _ _ _ _ _ h3
      rcases h3 with ⟨rfl, used, ms, rfl, hd, rfl⟩ | ⟨rfl, rfl, rfl⟩
      · obtain ⟨_, s3, t3, h5, h6⟩ := bind_ok h4
        obtain ⟨rfl, rfl⟩ := requireSym_ok h5
        cases h6
        exact .inl ⟨rfl, _, _, by simp, .dict hd, by simp [compile]⟩
      · obtain ⟨_, s3, t3, h5, h6⟩ := bind_ok h4
        cases h5
        obtain ⟨_, s4, t4, h7, h8⟩ := bind_ok h6
        obtain ⟨rfl, rfl⟩ := requireSym_ok h7
        cases h8
        exact .inl ⟨rfl, [_, _], _, rfl, .emptyDict, by simp [compile]⟩
    · cases h2
      exact .inr ⟨rfl, rfl, rfl⟩
  | array =>
    simp only [body] at h
    obtain ⟨a, s1, t1, h1, h2⟩ := bind_ok h
    replace h1 := isSym_ok h1
    obtain ⟨rfl, h1⟩ := h1
    rcases h1 with ⟨rfl, rfl⟩ | ⟨rfl, rfl⟩
    · obtain ⟨a, s2, t2, h3, h4⟩ := bind_ok h2
      replace h3 := hr _ _ _ _ _ _ h3
      rcases h3 with ⟨rfl, used, ms, rfl, hd, rfl⟩ | ⟨rfl, rfl, rfl⟩
      · obtain ⟨_, s3, t3, h5, h6⟩ := bind_ok h4
        obtain ⟨rfl, rfl⟩ := requireSym_ok h5
        cases h6
        exact .inl ⟨rfl, _, _, by simp, .array hd, by simp [compile]⟩
      · obtain ⟨_, s3, t3, h5, h6⟩ := bind_ok h4
        cases h5
        obtain ⟨_, s4, t4, h7, h8⟩ := bind_ok h6
        obtain ⟨rfl, rfl⟩ := requireSym_ok h7
        cases h8
        exact .inl ⟨rfl, [_, _], _, rfl, .emptyArray, by simp [compile]⟩
    · cases h2
      exact .inr ⟨rfl, rfl, rfl⟩
  | binaryLoop sub ops =>
    intro k hk hsub hops
    simp only [body] at h
    obtain ⟨a, s1, t1, h1, h2⟩ := bind_ok h
    replace h1 := matchToken_ok h1
    obtain ⟨rfl, h1⟩ := h1
    rcases h1 with ⟨y, o, rfl, hmem, rfl⟩ | ⟨rfl, rfl⟩
    · have hp : Post (D := D) (O := O) c sub = PostE c (.level k) := by
        subst hsub
        obtain h | h | h | h | h | h | h | h : k = 0 ∨ k = 1 ∨ k = 2 ∨ k = 3 ∨ k = 4 ∨ k = 5 ∨ k = 6 ∨ k = 7 := by omega
        all_goals subst h; rfl
      have hm : ∃ op, (y, op) ∈ binSyms (k + 1) ∧ o = opName op := by
        rw [hops] at hmem
        unfold opsOf at hmem
        split at hmem
        · omega
        · omega
        · simp only [List.mem_map, Prod.mk.injEq] at hmem
          obtain ⟨⟨y', op⟩, hm, rfl, rfl⟩ := hmem
          exact ⟨op, hm, rfl⟩
      obtain ⟨op, hm, rfl⟩ := hm
      obtain ⟨_, s2, t2, h3, h4⟩ := bind_ok h2
      obtain ⟨u2, e2, rfl, hd2, rfl⟩ := require_sound hr hp h3
      obtain ⟨_, s3, t3, h5, h6⟩ := bind_ok h4
      cases h5
      exact postLoop_step (.sym y :: u2) (compile c e2 ++ [.name (opName op)]) (fun e0 => .bin op e0 e2)
        (fun u0 e0 hd => .bin hd hm hd2) (fun e0 => by simp [compile]) (by simp) (by simp)
        (hr _ _ _ _ _ _ h6 k hk hsub hops)
    · cases h2
      exact postLoop_done
  | logicalLoop sub ops =>
    intro k hk hsub hops
    simp only [body] at h
    obtain ⟨a, s1, t1, h1, h2⟩ := bind_ok h
    replace h1 := matchToken_ok h1
    obtain ⟨rfl, h1⟩ := h1
    rcases h1 with ⟨y, o, rfl, hmem, rfl⟩ | ⟨rfl, rfl⟩
    · have hp : Post (D := D) (O := O) c sub = PostE c (.level k) := by
        subst hsub
        rcases hk with rfl | rfl <;> rfl
      obtain ⟨o2, s2, t2, h3, h4⟩ := bind_ok h2
      replace h3 := withStack_ok h3
      obtain ⟨rfl, h3⟩ := h3
      obtain ⟨u2, e2, rfl, hd2, rfl⟩ := require_sound hr hp h3
      obtain ⟨_, s3, t3, h5, h6⟩ := bind_ok h4
      cases h5
      obtain ⟨_, s4, t4, h7, h8⟩ := bind_ok h6
      cases h7
      rcases hk with rfl | rfl
      · rw [hops] at hmem
        simp only [opsOf, List.mem_singleton, Prod.mk.injEq] at hmem
        obtain ⟨rfl, rfl⟩ := hmem
        exact postLoop_step (.sym .and :: u2) [.arr (compile c e2), .name Vm.and_k] (fun e0 => .and e0 e2)
          (fun u0 e0 hd => .and hd hd2) (fun e0 => by simp [compile]) (by simp) (by simp)
          (hr _ _ _ _ _ _ h8 8 (.inl rfl) hsub hops)
      · rw [hops] at hmem
        simp only [opsOf, List.mem_singleton, Prod.mk.injEq] at hmem
        obtain ⟨rfl, rfl⟩ := hmem
        exact postLoop_step (.sym .or :: u2) [.arr (compile c e2), .name Vm.or_k] (fun e0 => .or e0 e2)
          (fun u0 e0 hd => .or hd hd2) (fun e0 => by simp [compile]) (by simp) (by simp)
          (hr _ _ _ _ _ _ h8 9 (.inr rfl) hsub hops)
    · cases h2
      exact postLoop_done

theorem parse_sound (n : Nat) : SoundRec (O := O) c (parse c n) := by
  induction n with
  | zero => intro f st ts b st' ts' h; cases h
  | succ n ih => exact body_sound ih

end Verif.Expr.Parser
