import Verif.Expr.ParserLemmas
/-
The parser always stops: with enough fuel it never runs out of it, and more fuel changes nothing.
-/
namespace Verif.Expr.Parser
open Verif.Expr Spec

variable {D O α β : Type}

/-! ### More fuel changes nothing -/

/-- `y` does what `x` does, unless `x` runs out of fuel. -/
def Le (x y : M D O α) : Prop := ∀ st ts, x st ts = .fuel ∨ x st ts = y st ts

theorem Le.refl (x : M D O α) : Le x x := fun _ _ => .inr rfl

theorem Le.bind {x y : M D O α} {f g : α → M D O β} (h : Le x y) (h' : ∀ a, Le (f a) (g a)) : Le (x >>= f) (y >>= g) := by
  intro st ts
  rw [bind_def, bind_def]
  rcases h st ts with h | h
  · rw [h]; exact .inl rfl
  · rw [← h]
    cases x st ts with
    | ok a s t => exact h' a s t
    | throw => exact .inr rfl
    | fuel => exact .inl rfl

theorem Le.ite {p : Prop} [Decidable p] {x y x' y' : M D O α} (h : Le x x') (h' : Le y y') :
    Le (if p then x else y) (if p then x' else y') := by
  split
  · exact h
  · exact h'

theorem Le.require {x y : M D O Bool} (h : Le x y) : Le (require x) (require y) :=
  h.bind fun _ => .refl _

theorem Le.withStack {x y : M D O Unit} (h : Le x y) : Le (withStack x) (withStack y) := by
  intro st ts
  unfold Parser.withStack
  rcases h [] ts with h | h
  · rw [h]; exact .inl rfl
  · rw [h]; exact .inr rfl

theorem body_le {c : Nat → D} {r r' : F → M D O Bool} (h : ∀ f, Le (r f) (r' f)) (f : F) : Le (body c r f) (body c r' f) := by
  cases f with
  | namedArg =>
    intro st ts
    unfold body
    refine Le.bind (.refl _) (fun a => ?_) st ts
    cases a with
    | none => exact .refl _
    | some a => exact Le.bind (.refl _) fun b => .ite (.refl _) (.bind (.refl _) fun _ => .bind (h _).require fun _ => .refl _)
  | unary =>
    refine Le.bind (h _) fun a => .ite (.refl _) (.bind (.refl _) fun b => ?_)
    cases b with
    | none => exact .refl _
    | some b => exact .bind (h _).require fun _ => .refl _
  | primary =>
    refine Le.bind (.refl _) fun a => ?_
    cases a with
    | some a => exact .refl _
    | none =>
      exact .bind (h _) fun _ => .ite (.refl _) <| .bind (h _) fun _ => .ite (.refl _) <| .bind (h _) fun _ =>
        .ite (.refl _) <| .bind (.refl _) fun _ => .ite (.bind (h _).require fun _ => .refl _) (.refl _)
  | variableOrFunction =>
    refine Le.bind (.refl _) fun a => ?_
    cases a with
    | none => exact .refl _
    | some a => exact .bind (.refl _) fun _ => .ite (.bind (h _) fun _ => .refl _) (.refl _)
  | postfixLoop =>
    refine Le.bind (.refl _) fun a => .ite ?_ (.bind (.refl _) fun b => .ite (.bind (.refl _) fun n => ?_) (.refl _))
    · exact .bind (h _).require fun _ => .bind (.refl _) fun _ => .bind (.refl _) fun _ => h _
    · cases n with
      | none => exact .refl _
      | some n => exact .bind (.refl _) fun _ => .bind (.refl _) fun _ => h _
  | logicalLoop sub ops =>
    refine Le.bind (.refl _) fun a => ?_
    cases a with
    | none => exact .refl _
    | some a => exact .bind (h _).require.withStack fun _ => .bind (.refl _) fun _ => .bind (.refl _) fun _ => h _
  | binaryLoop sub ops =>
    refine Le.bind (.refl _) fun a => ?_
    cases a with
    | none => exact .refl _
    | some a => exact .bind (h _).require fun _ => .bind (.refl _) fun _ => h _
  | expression =>
    exact .bind (h _) fun _ => .ite (.refl _) <| .bind (.refl _) fun _ => .ite (.refl _) <|
      .bind (h _).require.withStack fun _ => .bind (.refl _) fun _ => .bind (h _).require.withStack fun _ => .refl _
  | dictionary => exact .bind (.refl _) fun _ => .ite (.refl _) (.bind (h _) fun _ => .refl _)
  | array => exact .bind (.refl _) fun _ => .ite (.refl _) (.bind (h _) fun _ => .refl _)
  | argLoop n => exact .bind (.refl _) fun _ => .ite (.bind (h _).require fun _ => h _) (.refl _)
  | namedLoop n => exact .bind (.refl _) fun _ => .ite (.bind (h _).require fun _ => h _) (.refl _)
  | argExprList => exact .bind (h _) fun _ => .ite (.refl _) (h _)
  | _ => exact .bind (h _) fun _ => .ite (.refl _) (h _)

theorem parse_le_succ (c : Nat → D) (n : Nat) (f : F) : Le (parse (O := O) c n f) (parse c (n + 1) f) := by
  induction n generalizing f with
  | zero => intro st ts; exact .inl rfl
  | succ n ih => exact body_le ih f

theorem parse_le (c : Nat → D) {n m : Nat} (h : n ≤ m) (f : F) : Le (parse (O := O) c n f) (parse c m f) := by
  induction h with
  | refl => exact .refl _
  | step _ ih =>
    intro st ts
    rcases ih st ts with h1 | h1
    · exact .inl h1
    · rw [h1]; exact parse_le_succ c _ f st ts

/-! ### No token is given back that was not read -/

/-- Nothing is longer afterwards. -/
def Sh (x : M D O α) : Prop := ∀ st ts a st' ts', x st ts = .ok a st' ts' → ts'.length ≤ ts.length

theorem Sh.bind {x : M D O α} {f : α → M D O β} (h : Sh x) (h' : ∀ a, Sh (f a)) : Sh (x >>= f) := by
  intro st ts a st' ts' hx
  obtain ⟨b, s1, t1, h1, h2⟩ := bind_ok hx
  exact Nat.le_trans (h' _ _ _ _ _ _ h2) (h _ _ _ _ _ h1)

theorem Sh.pure (a : α) : Sh (pure a : M D O α) := by
  intro st ts a st' ts' h; cases h; exact Nat.le_refl _

theorem Sh.throw : Sh (throw : M D O α) := by
  intro st ts a st' ts' h; cases h

theorem Sh.push (v : Val D O) : Sh (push v) := by
  intro st ts a st' ts' h; cases h; exact Nat.le_refl _

theorem Sh.pushAll (v : List (Val D O)) : Sh (pushAll v) := by
  intro st ts a st' ts' h; cases h; exact Nat.le_refl _

theorem Sh.ite {p : Prop} [Decidable p] {x y : M D O α} (h : Sh x) (h' : Sh y) : Sh (if p then x else y) := by
  split
  · exact h
  · exact h'

theorem Sh.accept (f : Tok D → Option α) : Sh (accept (O := O) f) := by
  intro st ts a st' ts' h
  obtain ⟨_, ⟨t, a, _, _, rfl⟩ | ⟨_, rfl⟩⟩ := accept_ok h
  · simp
  · simp

theorem Sh.isSym (y : Sym) : Sh (isSym (D := D) (O := O) y) := (Sh.accept _).bind fun _ => .pure _
theorem Sh.isKeyword (y : Str) : Sh (isKeyword (D := D) (O := O) y) := (Sh.accept _).bind fun _ => .pure _
theorem Sh.requireSym (y : Sym) : Sh (requireSym (D := D) (O := O) y) :=
  (Sh.isSym y).bind fun _ => .ite (.pure _) .throw
theorem Sh.isIdent : Sh (isIdent (D := D) (O := O)) := Sh.accept _
theorem Sh.isUnaryOperator : Sh (isUnaryOperator (D := D) (O := O)) := Sh.accept _
theorem Sh.require {x : M D O Bool} (h : Sh x) : Sh (require x) := h.bind fun _ => .ite (.pure _) .throw

theorem Sh.withStack {x : M D O Unit} (h : Sh x) : Sh (withStack x) := by
  intro st ts a st' ts' hx
  exact h _ _ _ _ _ (withStack_ok hx).2

theorem Sh.matchToken (ops : List (Sym × Str)) : Sh (matchToken (D := D) (O := O) ops) := by
  intro st ts a st' ts' h
  obtain ⟨_, ⟨t, a, _, _, rfl⟩ | ⟨_, rfl⟩⟩ := matchToken_ok h <;> simp

theorem Sh.isConstant : Sh (isConstant (D := D) (O := O)) := by
  intro st ts a st' ts' h
  obtain ⟨_, ⟨t, a, _, rfl, _⟩ | ⟨_, rfl⟩⟩ := isConstant_ok h <;> simp

theorem body_sh {c : Nat → D} {r : F → M D O Bool} (h : ∀ f, Sh (r f)) (f : F) : Sh (body c r f) := by
  cases f with
  | namedArg =>
    intro st ts a st' ts' hx
    simp only [body] at hx
    obtain ⟨b, s1, t1, h1, h2⟩ := bind_ok hx
    cases b with
    | none => cases h2; exact Sh.isIdent _ _ _ _ _ h1
    | some b =>
      obtain ⟨b', s2, t2, h3, h4⟩ := bind_ok h2
      cases b' with
      | false => cases h4; exact Nat.le_refl _
      | true =>
        have l1 := Sh.isIdent _ _ _ _ _ h1
        have l2 := Sh.isSym _ _ _ _ _ _ h3
        have l3 : ts'.length ≤ t2.length :=
          (Sh.push _).bind (fun _ => (h F.expression).require.bind fun _ => .pure _) _ _ _ _ _ h4
        omega
  | unary =>
    refine Sh.bind (h _) fun a => .ite (.pure _) (.bind .isUnaryOperator fun b => ?_)
    cases b with
    | none => exact .pure _
    | some b => exact .bind (h _).require fun _ => .bind (.pushAll _) fun _ => .pure _
  | primary =>
    refine Sh.bind .isConstant fun a => ?_
    cases a with
    | some a => exact .bind (.push _) fun _ => .pure _
    | none =>
      exact .bind (h _) fun _ => .ite (.pure _) <| .bind (h _) fun _ => .ite (.pure _) <| .bind (h _) fun _ =>
        .ite (.pure _) <| .bind (.isSym _) fun _ => .ite (.bind (h _).require fun _ => .bind (.requireSym _) fun _ => .pure _) (.pure _)
  | variableOrFunction =>
    refine Sh.bind .isIdent fun a => ?_
    cases a with
    | none => exact .pure _
    | some a =>
      exact .bind (.isSym _) fun _ => .ite (.bind (h _) fun _ => .ite
        (.bind (.push _) fun _ => .bind (.requireSym _) fun _ => .bind (.push _) fun _ => .bind (.push _) fun _ => .pure _)
        (.bind (.requireSym _) fun _ => .bind (.push _) fun _ => .bind (.push _) fun _ => .pure _))
        (.bind (.push _) fun _ => .bind (.push _) fun _ => .pure _)
  | postfixLoop =>
    refine Sh.bind (.isSym _) fun a => .ite ?_ (.bind (.isSym _) fun b => .ite (.bind .isIdent fun n => ?_) (.pure _))
    · exact .bind (h _).require fun _ => .bind (.requireSym _) fun _ => .bind (.push _) fun _ => h _
    · cases n with
      | none => exact .throw
      | some n => exact .bind (.push _) fun _ => .bind (.push _) fun _ => h _
  | logicalLoop sub ops =>
    refine Sh.bind (.matchToken _) fun a => ?_
    cases a with
    | none => exact .pure _
    | some a => exact .bind (h _).require.withStack fun _ => .bind (.push _) fun _ => .bind (.push _) fun _ => h _
  | binaryLoop sub ops =>
    refine Sh.bind (.matchToken _) fun a => ?_
    cases a with
    | none => exact .pure _
    | some a => exact .bind (h _).require fun _ => .bind (.push _) fun _ => h _
  | expression =>
    exact .bind (h _) fun _ => .ite (.pure _) <| .bind (.isSym _) fun _ => .ite (.pure _) <|
      .bind (h _).require.withStack fun _ => .bind (.requireSym _) fun _ => .bind (h _).require.withStack fun _ =>
      .bind (.push _) fun _ => .bind (.push _) fun _ => .bind (.push _) fun _ => .pure _
  | dictionary =>
    exact .bind (.isSym _) fun _ => .ite (.pure _) (.bind (h _) fun _ => .ite
      (.bind (.push _) fun _ => .bind (.requireSym _) fun _ => .pure _) (.bind (.requireSym _) fun _ => .pure _))
  | array =>
    exact .bind (.isSym _) fun _ => .ite (.pure _) (.bind (h _) fun _ => .ite
      (.bind (.push _) fun _ => .bind (.requireSym _) fun _ => .pure _) (.bind (.requireSym _) fun _ => .pure _))
  | argLoop n => exact .bind (.isSym _) fun _ => .ite (.bind (h _).require fun _ => h _) (.bind (.push _) fun _ => .bind (.push _) fun _ => .pure _)
  | namedLoop n => exact .bind (.isSym _) fun _ => .ite (.bind (h _).require fun _ => h _) (.bind (.push _) fun _ => .bind (.push _) fun _ => .pure _)
  | argExprList => exact .bind (h _) fun _ => .ite (.pure _) (h _)
  | _ => exact .bind (h _) fun _ => .ite (.pure _) (h _)

theorem parse_sh (c : Nat → D) (n : Nat) (f : F) : Sh (parse (O := O) c n f) := by
  induction n generalizing f with
  | zero => intro st ts a st' ts' h; cases h
  | succ n ih => exact body_sh ih f

/-! ### Enough fuel -/

/-- How many calls deep a function goes without reading a token. -/
def rank : F → Nat
  | .primary => 2
  | .namedArgList => 2
  | .postfix => 3
  | .unary => 4
  | .multiplicative => 5
  | .additive => 6
  | .bitshift => 7
  | .relational => 8
  | .equality => 9
  | .bitAnd => 10
  | .bitXor => 11
  | .bitOr => 12
  | .andE => 13
  | .orE => 14
  | .expression => 15
  | .argList => 16
  | .argExprList => 17
  | _ => 1

theorem rank_le (f : F) : rank f ≤ 17 := by cases f <;> simp [rank]

/-- Does not run out of fuel when there are at most `n` tokens, and takes at least `k` of them. -/
def Nf (n : Nat) (x : M D O α) : Prop := ∀ st ts, ts.length ≤ n → x st ts ≠ .fuel

theorem Nf.bind {n : Nat} {x : M D O α} {f : α → M D O β} (h : Nf n x) (hs : Sh x) (h' : ∀ a, Nf n (f a)) : Nf n (x >>= f) := by
  intro st ts hl hx
  rw [bind_def] at hx
  split at hx
  · rename_i a s t heq
    exact h' a s t (Nat.le_trans (hs _ _ _ _ _ heq) hl) hx
  · cases hx
  · rename_i heq; exact h st ts hl heq

/-- After a token has been read there is one less. -/
theorem Nf.sym {n : Nat} {y : Sym} {f : Bool → M D O β} (h : n ≠ 0 → Nf (n - 1) (f true)) (h' : Nf n (f false)) :
    Nf n (isSym y >>= f) := by
  intro st ts hl hx
  rw [bind_def] at hx
  split at hx
  · rename_i a s t heq
    obtain ⟨_, ⟨rfl, rfl⟩ | ⟨rfl, rfl⟩⟩ := isSym_ok heq
    · simp only [List.length_cons] at hl
      exact h (by omega) s t (by omega) hx
    · exact h' s _ hl hx
  · cases hx
  · rename_i heq
    unfold isSym at heq
    rw [bind_def] at heq
    split at heq
    · cases heq
    · cases heq
    · rename_i heq2
      unfold accept at heq2
      split at heq2
      · cases heq2
      · cases heq2
      · split at heq2 <;> cases heq2

theorem Nf.accept {n : Nat} {g : Tok D → Option α} {f : Option α → M D O β} (h : n ≠ 0 → ∀ a, Nf (n - 1) (f (some a))) (h' : Nf n (f none)) :
    Nf n (accept g >>= f) := by
  intro st ts hl hx
  rw [bind_def] at hx
  split at hx
  · rename_i a s t heq
    obtain ⟨_, ⟨_, a, rfl, _, rfl⟩ | ⟨rfl, rfl⟩⟩ := accept_ok heq
    · simp only [List.length_cons] at hl
      exact h (by omega) a s t (by omega) hx
    · exact h' s _ hl hx
  · cases hx
  · rename_i heq2
    unfold Parser.accept at heq2
    split at heq2
    · cases heq2
    · cases heq2
    · split at heq2 <;> cases heq2

theorem Nf.ite {n : Nat} {p : Prop} [Decidable p] {x y : M D O α} (h : Nf n x) (h' : Nf n y) : Nf n (if p then x else y) := by
  split
  · exact h
  · exact h'

theorem Nf.pure (n : Nat) (a : α) : Nf n (pure a : M D O α) := by intro st ts _ h; cases h
theorem Nf.throw (n : Nat) : Nf n (throw : M D O α) := by intro st ts _ h; cases h
theorem Nf.push (n : Nat) (v : Val D O) : Nf n (push v) := by intro st ts _ h; cases h
theorem Nf.pushAll (n : Nat) (v : List (Val D O)) : Nf n (pushAll v) := by intro st ts _ h; cases h
theorem Nf.require {n : Nat} {x : M D O Bool} (h : Nf n x) (hs : Sh x) : Nf n (require x) := h.bind hs fun _ => .ite (.pure _ _) (.throw _)
theorem Nf.requireSym (n : Nat) (y : Sym) : Nf n (requireSym (D := D) (O := O) y) := .sym (fun _ => .pure _ _) (.throw _)

theorem Nf.withStack {n : Nat} {x : M D O Unit} (h : Nf n x) : Nf n (withStack x) := by
  intro st ts hl hx
  unfold Parser.withStack at hx
  split at hx
  · cases hx
  · cases hx
  · rename_i heq; exact h _ _ hl heq

theorem Nf.isKeyword {n : Nat} (k : Str) : Nf n (isKeyword (D := D) (O := O) k) := .accept (fun _ _ => .pure _ _) (.pure _ _)

theorem Nf.isConstant {n : Nat} : Nf n (isConstant (D := D) (O := O)) := by
  unfold Parser.isConstant
  refine .bind ?_ ?_ fun a => ?_
  · unfold isName
    refine .sym (fun _ => .accept (fun _ _ => .pure _ _) (.accept (fun _ _ => .pure _ _) (.throw _))) (.pure _ _)
  · intro st ts a st' ts' h
    obtain ⟨_, ⟨_, _, rfl | rfl⟩ | ⟨_, rfl⟩⟩ := isName_ok h <;> simp <;> omega
  · cases a with
    | some a => exact .pure _ _
    | none =>
      refine .accept (fun _ _ => .pure _ _) ?_
      refine .bind (.isKeyword _) (.isKeyword _) fun a => .ite (.pure _ _) ?_
      refine .bind (.isKeyword _) (.isKeyword _) fun a => .ite (.pure _ _) ?_
      refine .accept (fun _ _ => .pure _ _) ?_
      exact .bind (.isKeyword _) (.isKeyword _) fun a => .ite (.pure _ _) (.pure _ _)

theorem Nf.matchToken {n : Nat} {ops : List (Sym × Str)} {f : Option Str → M D O β} (h : n ≠ 0 → ∀ a, Nf (n - 1) (f (some a)))
    (h' : Nf n (f none)) : Nf n (matchToken ops >>= f) := by
  induction ops with
  | nil => exact h'
  | cons p ops ih =>
    have : (Parser.matchToken (p :: ops) >>= f : M D O β) =
        (Parser.isSym p.1 >>= fun b => if b then f (some p.2) else Parser.matchToken ops >>= f) := by
      funext st ts
      simp only [Parser.matchToken, bind_def]
      cases Parser.isSym p.1 st ts with
      | ok a s t => cases a <;> rfl
      | throw => rfl
      | fuel => rfl
    rw [this]
    exact .sym (fun hn => h hn _) ih

theorem body_nf {c : Nat → D} {r : F → M D O Bool} (hs : ∀ f, Sh (r f)) (n : Nat) (f : F)
    (h1 : ∀ g, rank g < rank f → Nf n (r g)) (h2 : ∀ m, m < n → ∀ g, Nf m (r g)) : Nf n (body c r f) := by
  have h2' : n ≠ 0 → ∀ g, Nf (n - 1) (r g) := fun hn g => h2 (n - 1) (by omega) g
  cases f with
  | namedArg =>
    intro st ts hl hx
    simp only [body] at hx
    refine Nf.accept (n := n) (D := D) (O := O) ?_ ?_ st ts hl hx
    · intro hn a
      refine .sym (fun hn' => ?_) ?_
      · exact .bind (.push _ _) (.push _) fun _ => .bind (.require (h2 _ (by omega) _) (hs _)) (.require (hs _)) fun _ => .pure _ _
      · intro _ _ _ h; cases h
    · exact .pure _ _
  | unary =>
    refine .bind (h1 _ (by decide)) (hs _) fun a => .ite (.pure _ _) (.accept (fun hn b => ?_) ?_)
    · exact .bind (.require (h2' hn _) (hs _)) (.require (hs _)) fun _ => .bind (.pushAll _ _) (.pushAll _) fun _ => .pure _ _
    · exact .pure _ _
  | primary =>
    refine .bind .isConstant .isConstant fun a => ?_
    cases a with
    | some a => exact .bind (.push _ _) (.push _) fun _ => .pure _ _
    | none =>
      exact .bind (h1 _ (by decide)) (hs _) fun _ => .ite (.pure _ _) <| .bind (h1 _ (by decide)) (hs _) fun _ => .ite (.pure _ _) <|
        .bind (h1 _ (by decide)) (hs _) fun _ => .ite (.pure _ _) <| .sym (fun hn => .bind (.require (h2' hn _) (hs _))
          (.require (hs _)) fun _ => .bind (.requireSym _ _) (.requireSym _) fun _ => .pure _ _) (.pure _ _)
  | variableOrFunction =>
    refine .accept (fun hn a => ?_) (.pure _ _)
    exact .sym (fun hn' => .bind (h2 _ (by omega) _) (hs _) fun _ => .ite
        (.bind (.push _ _) (.push _) fun _ => .bind (.requireSym _ _) (.requireSym _) fun _ => .bind (.push _ _) (.push _) fun _ => .bind (.push _ _) (.push _) fun _ => .pure _ _)
        (.bind (.requireSym _ _) (.requireSym _) fun _ => .bind (.push _ _) (.push _) fun _ => .bind (.push _ _) (.push _) fun _ => .pure _ _))
        (.bind (.push _ _) (.push _) fun _ => .bind (.push _ _) (.push _) fun _ => .pure _ _)
  | postfixLoop =>
    refine .sym (fun hn => ?_) (.sym (fun hn => .accept (fun hn' a => ?_) (.throw _)) (.pure _ _))
    · exact .bind (.require (h2' hn _) (hs _)) (.require (hs _)) fun _ => .bind (.requireSym _ _) (.requireSym _) fun _ => .bind (.push _ _) (.push _) fun _ => h2' hn _
    · exact .bind (.push _ _) (.push _) fun _ => .bind (.push _ _) (.push _) fun _ => h2 _ (by omega) _
  | logicalLoop sub ops =>
    exact .matchToken (fun hn a => .bind (Nf.withStack (.require (h2' hn _) (hs _))) (Sh.withStack (.require (hs _))) fun _ =>
      .bind (.push _ _) (.push _) fun _ => .bind (.push _ _) (.push _) fun _ => h2' hn _) (.pure _ _)
  | binaryLoop sub ops =>
    exact .matchToken (fun hn a => .bind (.require (h2' hn _) (hs _)) (.require (hs _)) fun _ =>
      .bind (.push _ _) (.push _) fun _ => h2' hn _) (.pure _ _)
  | expression =>
    exact .bind (h1 _ (by decide)) (hs _) fun _ => .ite (.pure _ _) <| .sym (fun hn =>
      .bind (Nf.withStack (.require (h2' hn _) (hs _))) (Sh.withStack (.require (hs _))) fun _ =>
      .bind (.requireSym _ _) (.requireSym _) fun _ => .bind (Nf.withStack (.require (h2' hn _) (hs _))) (Sh.withStack (.require (hs _))) fun _ =>
      .bind (.push _ _) (.push _) fun _ => .bind (.push _ _) (.push _) fun _ => .bind (.push _ _) (.push _) fun _ => .pure _ _) (.pure _ _)
  | dictionary =>
    exact .sym (fun hn => .bind (h2' hn _) (hs _) fun _ => .ite (.bind (.push _ _) (.push _) fun _ =>
      .bind (.requireSym _ _) (.requireSym _) fun _ => .pure _ _) (.bind (.requireSym _ _) (.requireSym _) fun _ => .pure _ _)) (.pure _ _)
  | array =>
    exact .sym (fun hn => .bind (h2' hn _) (hs _) fun _ => .ite (.bind (.push _ _) (.push _) fun _ =>
      .bind (.requireSym _ _) (.requireSym _) fun _ => .pure _ _) (.bind (.requireSym _ _) (.requireSym _) fun _ => .pure _ _)) (.pure _ _)
  | argLoop n =>
    exact .sym (fun hn => .bind (.require (h2' hn _) (hs _)) (.require (hs _)) fun _ => h2' hn _)
      (.bind (.push _ _) (.push _) fun _ => .bind (.push _ _) (.push _) fun _ => .pure _ _)
  | namedLoop n =>
    exact .sym (fun hn => .bind (.require (h2' hn _) (hs _)) (.require (hs _)) fun _ => h2' hn _)
      (.bind (.push _ _) (.push _) fun _ => .bind (.push _ _) (.push _) fun _ => .pure _ _)
  | argExprList => exact .bind (h1 _ (by decide)) (hs _) fun _ => .ite (.pure _ _) (h1 _ (by decide))
  | _ => exact .bind (h1 _ (by decide)) (hs _) fun _ => .ite (.pure _ _) (h1 _ (by simp [rank]))

/-- Enough fuel for `n` tokens. -/
def fuelFor (n : Nat) (f : F) : Nat := 20 * n + rank f

theorem parse_nf (c : Nat → D) (k : Nat) (f : F) (n : Nat) (h : fuelFor n f ≤ k) : Nf n (parse (O := O) c k f) := by
  induction k generalizing f n with
  | zero =>
    exfalso
    unfold fuelFor at h
    have : 1 ≤ rank f := by cases f <;> simp [rank]
    omega
  | succ k ih =>
    refine body_nf (parse_sh c k) n f (fun g hg => ih g n ?_) (fun m hm g => ih g m ?_)
    · unfold fuelFor at *; omega
    · unfold fuelFor at *
      have := rank_le g
      have : 1 ≤ rank f := by cases f <;> simp [rank]
      omega

/-- The parser. -/
def P (c : Nat → D) (f : F) : M D O Bool := fun st ts => parse c (fuelFor ts.length f) f st ts

theorem P_ne_fuel (c : Nat → D) (f : F) (st : List (Val D O)) (ts : List (Tok D)) : P c f st ts ≠ .fuel :=
  parse_nf c _ f ts.length (Nat.le_refl _) st ts (Nat.le_refl _)

/-- Any amount of fuel that suffices gives the same. -/
theorem parse_eq_P (c : Nat → D) (n : Nat) (f : F) (st : List (Val D O)) (ts : List (Tok D)) :
    parse c n f st ts = .fuel ∨ parse c n f st ts = P c f st ts := by
  rcases Nat.le_total n (fuelFor ts.length f) with h | h
  · exact parse_le c h f st ts
  · rcases parse_le c h f st ts with h' | h'
    · exact absurd h' (P_ne_fuel c f st ts)
    · exact .inr h'.symm

theorem parse_of_le (c : Nat → D) (n : Nat) (f : F) (st : List (Val D O)) (ts : List (Tok D)) (h : fuelFor ts.length f ≤ n) :
    parse c n f st ts = P c f st ts := by
  rcases parse_eq_P c n f st ts with h' | h'
  · exact absurd h' (parse_nf c n f ts.length h st ts (Nat.le_refl _))
  · exact h'

/-- The functions of the parser call each other as the code says. -/
theorem P_eq (c : Nat → D) (f : F) : P (O := O) c f = body c (P c) f := by
  funext st ts
  rw [← parse_of_le c (fuelFor ts.length f + 1) f st ts (by omega)]
  have := body_le (c := c) (r := parse (O := O) c (fuelFor ts.length f)) (r' := P c)
    (fun f st ts => parse_eq_P c _ f st ts) f st ts
  rcases this with h | h
  · exfalso
    have := parse_nf (O := O) c (fuelFor ts.length f + 1) f ts.length (by omega) st ts (Nat.le_refl _)
    exact this h
  · exact h

theorem P_sound (c : Nat → D) : SoundRec (O := O) c (P c) := fun _ _ _ _ _ _ h => parse_sound _ _ _ _ _ _ _ h

end Verif.Expr.Parser
