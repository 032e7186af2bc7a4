import Verif.Expr.Total
/-
Every phrase of the grammar, followed by a token that cannot continue it, is parsed.
-/
namespace Verif.Expr.Parser
open Verif.Expr Spec

variable {D O α β : Type}

/-! ### Facts about phrases -/

theorem derives_ne_nil {nt : NT} {ts : List (Tok D)} {o : Out D O} (h : Derives nt ts o) : ts ≠ [] := by
  induction h <;> simp_all

theorem derives_no_bad {nt : NT} {ts : List (Tok D)} {o : Out D O} (h : Derives nt ts o) : Tok.bad ∉ ts := by
  induction h <;> simp_all

/-- A phrase that is not a list of named arguments does not look like one. -/
theorem derives_no_colon {nt : NT} {ts : List (Tok D)} {o : Out D O} (h : Derives nt ts o) (hn : nt ≠ .named) (n : Str)
    (r : List (Tok D)) : ts ≠ .ident n :: .sym .colon :: r := by
  have key : ∀ (ts us : List (Tok D)) (y : Sym), ts ≠ [] → y ≠ .colon →
      (∀ r, ts ≠ .ident n :: .sym .colon :: r) → ∀ r, ts ++ .sym y :: us ≠ .ident n :: .sym .colon :: r := by
    intro ts us y hne hy ih r heq
    rcases ts with _ | ⟨t, _ | ⟨t', ts⟩⟩
    · exact hne rfl
    · simp only [List.cons_append, List.nil_append, List.cons.injEq, Tok.sym.injEq] at heq
      exact hy heq.2.1
    · simp only [List.cons_append, List.cons.injEq] at heq
      exact ih ts (by rw [heq.1, heq.2.1])
  induction h generalizing r with
  | primary _ ih => exact ih (by simp) r
  | «postfix» _ ih => exact ih (by simp) r
  | level _ _ ih => exact ih (by simp) r
  | expr _ ih => exact ih (by simp) r
  | arg _ ih => exact ih (by simp) r
  | index h _ ih _ => exact key _ _ _ (derives_ne_nil h) (by decide) (ih (by simp)) r
  | dot m h ih => exact key _ _ _ (derives_ne_nil h) (by decide) (ih (by simp)) r
  | @bin k _ _ _ _ y op h hm _ ih _ =>
    refine key _ _ _ (derives_ne_nil h) ?_ (ih (by simp)) r
    rintro rfl
    unfold binSyms at hm
    split at hm <;> simp at hm
  | and h _ ih _ => exact key _ _ _ (derives_ne_nil h) (by decide) (ih (by simp)) r
  | or h _ ih _ => exact key _ _ _ (derives_ne_nil h) (by decide) (ih (by simp)) r
  | cond h _ _ ih _ _ => exact key _ _ _ (derives_ne_nil h) (by decide) (ih (by simp)) r
  | argMore h _ ih _ => exact key _ _ _ (derives_ne_nil h) (by decide) (ih (by simp)) r
  | member n _ => exact absurd rfl hn
  | memberMore n _ _ => exact absurd rfl hn
  | _ => simp

/-! ### What may follow -/

/-- The level of an operator. -/
def symLevel : Sym → Nat
  | .openParen => 0 | .openBracket => 0 | .dot => 0
  | .multiply => 1 | .divide => 1 | .modulus => 1
  | .add => 2 | .subtract => 2
  | .bitLshift => 3 | .bitRshift => 3
  | .less => 4 | .greater => 4 | .lessEqual => 4 | .greaterEqual => 4
  | .equal => 5 | .notEqual => 5
  | .bitAnd => 6
  | .bitXor => 7
  | .bitOr => 8
  | .and => 9
  | .or => 10
  | .question => 11
  | _ => 12

/-- The token cannot continue a phrase of level `k` (11: an expression). -/
def tokStops (k : Nat) : Tok D → Prop
  | .bad => False
  | .sym y => k < symLevel y
  | _ => True

def Stops (k : Nat) : List (Tok D) → Prop
  | [] => True
  | t :: _ => tokStops k t

theorem Stops.mono {k l : Nat} {ts : List (Tok D)} (h : Stops l ts) (hl : k ≤ l) : Stops k ts := by
  rcases ts with _ | ⟨t, ts⟩
  · trivial
  · cases t <;> simp only [Stops, tokStops] at * 
    omega

theorem isSym_self (y : Sym) (st : List (Val D O)) (ts : List (Tok D)) : isSym y st (.sym y :: ts) = .ok true st ts := by
  simp [isSym, accept, bind_def, pure_def]

theorem isSym_not {y : Sym} {st : List (Val D O)} {ts : List (Tok D)} (h : Stops (symLevel y) ts) :
    isSym y st ts = .ok false st ts := by
  rcases ts with _ | ⟨t, ts⟩
  · simp [isSym, accept, bind_def, pure_def]
  · cases t with
    | sym z =>
      simp only [Stops, tokStops] at h
      have : z ≠ y := by rintro rfl; omega
      simp [isSym, accept, bind_def, pure_def, this]
    | bad => exact h.elim
    | _ => simp [isSym, accept, bind_def, pure_def]

theorem isIdent_self (n : Str) (st : List (Val D O)) (ts : List (Tok D)) : isIdent st (.ident n :: ts) = .ok (some n) st ts := rfl

theorem isSym_other {y z : Sym} (h : z ≠ y) (st : List (Val D O)) (ts : List (Tok D)) :
    isSym y st (.sym z :: ts) = .ok false st (.sym z :: ts) := by
  simp [isSym, accept, bind_def, pure_def, h]

theorem matchToken_hit {ops : List (Sym × Str)} {y : Sym} {k : Str} (h : (y, k) ∈ ops) (hd : ∀ k', (y, k') ∈ ops → k' = k)
    (st : List (Val D O)) (ts : List (Tok D)) : matchToken ops st (.sym y :: ts) = .ok (some k) st ts := by
  induction ops with
  | nil => simp at h
  | cons p ops ih =>
    obtain ⟨z, k'⟩ := p
    simp only [matchToken]
    by_cases hz : y = z
    · subst hz
      rw [bind_run _ (isSym_self y st ts)]
      have := hd k' (by simp)
      subst this
      rfl
    · rw [bind_run _ (isSym_other hz st ts)]
      simp only [List.mem_cons, Prod.mk.injEq, hz, false_and, false_or] at h
      exact ih h fun k'' hk => hd k'' (by simp [hk])

theorem matchToken_miss {ops : List (Sym × Str)} {st : List (Val D O)} {ts : List (Tok D)} {l : Nat} (h : Stops l ts)
    (ho : ∀ p ∈ ops, symLevel p.1 ≤ l) : matchToken ops st ts = .ok none st ts := by
  induction ops with
  | nil => rfl
  | cons p ops ih =>
    obtain ⟨z, k'⟩ := p
    simp only [matchToken]
    rw [bind_run _ (isSym_not (h.mono (ho (z, k') (by simp))))]
    exact ih fun p hp => ho p (by simp [hp])

theorem require_run {x : M D O Bool} {st ts st' ts'} (h : x st ts = .ok true st' ts') : require x st ts = .ok () st' ts' := by
  unfold require
  rw [bind_run _ h]; rfl

theorem withStack_run {x : M D O Unit} {st ts c ts'} (h : x [] ts = .ok () c ts') : withStack x st ts = .ok c st ts' := by
  unfold withStack
  rw [h]

theorem requireSym_run (y : Sym) (st : List (Val D O)) (ts : List (Tok D)) : requireSym y st (.sym y :: ts) = .ok () st ts := by
  unfold requireSym
  rw [bind_run _ (isSym_self y st ts)]; rfl

theorem push_run (v : Val D O) (st : List (Val D O)) (ts : List (Tok D)) : push v st ts = .ok () (st ++ [v]) ts := rfl

variable (c : Nat → D)

/-! ### What each kind of phrase does -/

/-- What the parser does with a phrase. -/
def Does (nt : NT) (used : List (Tok D)) (o : Out D O) : Prop := match nt, o with
  | .primary, .e e => ∀ st rest, Stops 0 rest ∨ (∃ r, rest = .sym .openBracket :: r ∨ rest = .sym .dot :: r) →
      P c .primary st (used ++ rest) = .ok true (st ++ compile c e) rest
  | .postfix, .e e => ∀ st rest, Stops 0 rest ∨ (∃ r, rest = .sym .openBracket :: r ∨ rest = .sym .dot :: r) →
      P c .postfix st (used ++ rest) = P c .postfixLoop (st ++ compile c e) rest
  | .level 0, .e e => ∀ st rest, Stops 0 rest → P c .unary st (used ++ rest) = .ok true (st ++ compile c e) rest
  | .level (k + 1), .e e => k < 10 → ∀ st rest, Stops k rest →
      P c (fOf (k + 1)) st (used ++ rest) =
        P c (if k < 8 then .binaryLoop (fOf k) (opsOf (k + 1)) else .logicalLoop (fOf k) (opsOf (k + 1))) (st ++ compile c e) rest
  | .expression, .e e => ∀ st rest, Stops 11 rest → P c .expression st (used ++ rest) = .ok true (st ++ compile c e) rest
  | .args, .es es => ∀ st rest, Stops 11 rest →
      P c .argList st (used ++ rest) = P c (.argLoop es.length) (st ++ compileList c es) rest
  | .named, .ms ms => ∀ st rest, Stops 11 rest →
      P c .namedArgList st (used ++ rest) = P c (.namedLoop ms.length) (st ++ compileMembers c ms) rest
  | _, _ => True

theorem stops_sym {k : Nat} {y : Sym} (h : k < symLevel y) (r : List (Tok D)) : Stops k (Tok.sym y :: r) := h

theorem P_run (f : F) (st : List (Val D O)) (ts : List (Tok D)) : P c f st ts = body c (P c) f st ts := by
  rw [P_eq]

variable {c}

theorem constant_none {t : Tok D} {r : List (Tok D)} {st : List (Val D O)}
    (h : (∃ y, t = .sym y ∧ y ≠ .at) ∨ ∃ n, t = .ident n) : isConstant st (t :: r) = .ok none st (t :: r) := by
  rcases h with ⟨y, rfl, hy⟩ | ⟨n, rfl⟩ <;>
  simp [isConstant, isName, isSym, isKeyword, accept, bind_def, pure_def, *]

theorem array_none {t : Tok D} {r : List (Tok D)} {st : List (Val D O)} (ht : t ≠ .bad) (h : t ≠ .sym .openBracket) :
    P c .array st (t :: r) = .ok false st (t :: r) := by
  rw [P_run]
  cases t <;> simp_all [body, isSym, accept, bind_def, pure_def]

theorem dictionary_none {t : Tok D} {r : List (Tok D)} {st : List (Val D O)} (ht : t ≠ .bad) (h : t ≠ .sym .openBrace) :
    P c .dictionary st (t :: r) = .ok false st (t :: r) := by
  rw [P_run]
  cases t <;> simp_all [body, isSym, accept, bind_def, pure_def]

theorem variable_none {t : Tok D} {r : List (Tok D)} {st : List (Val D O)} (ht : t ≠ .bad) (h : ∀ n, t ≠ .ident n) :
    P c .variableOrFunction st (t :: r) = .ok false st (t :: r) := by
  rw [P_run]
  cases t <;> simp_all [body, isIdent, accept, bind_def, pure_def]

/-- Nothing that starts an expression. -/
theorem primary_none {y : Sym} {r : List (Tok D)} {st : List (Val D O)} (h1 : y ≠ .at) (h2 : y ≠ .openBracket) (h3 : y ≠ .openBrace)
    (h4 : y ≠ .openParen) : P c .primary st (.sym y :: r) = .ok false st (.sym y :: r) := by
  rw [P_run]
  simp only [body]
  rw [bind_run _ (constant_none (.inl ⟨y, rfl, h1⟩))]
  dsimp only
  rw [bind_run _ (array_none (by simp) (by simp [h2]))]
  simp only [Bool.false_eq_true, if_false]
  rw [bind_run _ (dictionary_none (by simp) (by simp [h3]))]
  simp only [Bool.false_eq_true, if_false]
  rw [bind_run _ (variable_none (by simp) (by simp))]
  simp only [Bool.false_eq_true, if_false]
  rw [bind_run _ (isSym_other h4 st r)]
  rfl

theorem postfix_none {y : Sym} {r : List (Tok D)} {st : List (Val D O)} (h1 : y ≠ .at) (h2 : y ≠ .openBracket) (h3 : y ≠ .openBrace)
    (h4 : y ≠ .openParen) : P c .postfix st (.sym y :: r) = .ok false st (.sym y :: r) := by
  rw [P_run]
  simp only [body]
  rw [bind_run _ (primary_none h1 h2 h3 h4)]
  rfl

theorem unary_none {y : Sym} {r : List (Tok D)} {st : List (Val D O)} (h : y = .closeParen ∨ y = .closeBracket ∨ y = .closeBrace) :
    P c .unary st (.sym y :: r) = .ok false st (.sym y :: r) := by
  rw [P_run]
  simp only [body]
  rw [bind_run _ (postfix_none _ _ _ _)] <;> rcases h with rfl | rfl | rfl <;> first | decide | rfl

theorem fOf_none (k : Nat) (hk : k ≤ 10) {y : Sym} {r : List (Tok D)} {st : List (Val D O)}
    (h : y = .closeParen ∨ y = .closeBracket ∨ y = .closeBrace) :
    P c (fOf k) st (.sym y :: r) = .ok false st (.sym y :: r) := by
  induction k with
  | zero => exact unary_none h
  | succ k ih =>
    rw [P_run]
    have ih := ih (by omega)
    obtain e | e | e | e | e | e | e | e | e | e : k = 0 ∨ k = 1 ∨ k = 2 ∨ k = 3 ∨ k = 4 ∨ k = 5 ∨ k = 6 ∨ k = 7 ∨ k = 8 ∨ k = 9 := by omega
    all_goals
      subst e
      simp only [fOf, body, isBinary, isLogical] at ih ⊢
      rw [bind_run _ ih]
      rfl

theorem expression_none {y : Sym} {r : List (Tok D)} {st : List (Val D O)}
    (h : y = .closeParen ∨ y = .closeBracket ∨ y = .closeBrace) :
    P c .expression st (.sym y :: r) = .ok false st (.sym y :: r) := by
  rw [P_run]
  simp only [body]
  have := fOf_none (c := c) (st := st) (r := r) 10 (by omega) h
  simp only [fOf] at this
  rw [bind_run _ this]
  rfl

theorem argList_none {y : Sym} {r : List (Tok D)} {st : List (Val D O)}
    (h : y = .closeParen ∨ y = .closeBracket ∨ y = .closeBrace) :
    P c .argList st (.sym y :: r) = .ok false st (.sym y :: r) := by
  rw [P_run]
  simp only [body]
  rw [bind_run _ (expression_none h)]
  rfl

theorem namedArg_none {ts : List (Tok D)} {st : List (Val D O)} (hb : ts.head? ≠ some .bad)
    (h : ∀ n r, ts ≠ .ident n :: .sym .colon :: r) (hb' : ∀ n r, ts ≠ .ident n :: .bad :: r) : P c .namedArg st ts = .ok false st ts := by
  rw [P_run]
  rcases ts with _ | ⟨t, r⟩
  · rfl
  · cases t with
    | ident n =>
      rcases r with _ | ⟨t', r⟩
      · rfl
      · cases t' with
        | sym y =>
          have : y ≠ .colon := by rintro rfl; exact h n r rfl
          simp only [body]
          rw [bind_run _ (isIdent_self _ _ _)]
          dsimp only
          rw [bind_run _ (isSym_other this st r)]
          rfl
        | bad => exact absurd rfl (hb' n r)
        | _ => rfl
    | bad => simp at hb
    | _ => rfl

theorem namedArgList_none {ts : List (Tok D)} {st : List (Val D O)} (hb : ts.head? ≠ some .bad)
    (h : ∀ n r, ts ≠ .ident n :: .sym .colon :: r) (hb' : ∀ n r, ts ≠ .ident n :: .bad :: r) : P c .namedArgList st ts = .ok false st ts := by
  rw [P_run]
  simp only [body]
  rw [bind_run _ (namedArg_none hb h hb')]
  rfl

theorem argLoop_done (n : Nat) {st : List (Val D O)} {rest : List (Tok D)} (h : Stops 12 rest ∨ ∃ y r, y ≠ .comma ∧ rest = .sym y :: r) :
    P c (.argLoop n) st rest = .ok true (st ++ [.num (c n), .name Vm.array_k]) rest := by
  rw [P_run]
  simp only [body]
  have : isSym .comma st rest = .ok false st rest := by
    rcases h with h | ⟨y, r, hy, rfl⟩
    · exact isSym_not (h.mono (by decide))
    · exact isSym_other hy _ _
  rw [bind_run _ this]
  simp only [Bool.false_eq_true, if_false, bind_def, push_run, pure_def]
  simp

theorem namedLoop_done (n : Nat) {st : List (Val D O)} {rest : List (Tok D)} (h : Stops 12 rest ∨ ∃ y r, y ≠ .comma ∧ rest = .sym y :: r) :
    P c (.namedLoop n) st rest = .ok true (st ++ [.num (c n), .name Vm.dictionary_k]) rest := by
  rw [P_run]
  simp only [body]
  have : isSym .comma st rest = .ok false st rest := by
    rcases h with h | ⟨y, r, hy, rfl⟩
    · exact isSym_not (h.mono (by decide))
    · exact isSym_other hy _ _
  rw [bind_run _ this]
  simp only [Bool.false_eq_true, if_false, bind_def, push_run, pure_def]
  simp

theorem postfixLoop_done {st : List (Val D O)} {rest : List (Tok D)} (h : Stops 0 rest) :
    P c .postfixLoop st rest = .ok true st rest := by
  rw [P_run]
  simp only [body]
  rw [bind_run _ (isSym_not (y := .openBracket) h)]
  simp only [Bool.false_eq_true, if_false]
  rw [bind_run _ (isSym_not (y := .dot) h)]
  rfl

theorem opsOf_level (k : Nat) (hk : k < 10) : ∀ p ∈ opsOf (k + 1), symLevel p.1 = k + 1 := by
  obtain e | e | e | e | e | e | e | e | e | e : k = 0 ∨ k = 1 ∨ k = 2 ∨ k = 3 ∨ k = 4 ∨ k = 5 ∨ k = 6 ∨ k = 7 ∨ k = 8 ∨ k = 9 := by omega
  all_goals subst e; decide

theorem opsOf_unique (k : Nat) (hk : k < 10) : ∀ p ∈ opsOf (k + 1), ∀ q ∈ opsOf (k + 1), p.1 = q.1 → p = q := by
  obtain e | e | e | e | e | e | e | e | e | e : k = 0 ∨ k = 1 ∨ k = 2 ∨ k = 3 ∨ k = 4 ∨ k = 5 ∨ k = 6 ∨ k = 7 ∨ k = 8 ∨ k = 9 := by omega
  all_goals subst e; decide

theorem loop_done (k : Nat) (hk : k < 10) {st : List (Val D O)} {rest : List (Tok D)} (h : Stops (k + 1) rest) :
    P c (if k < 8 then .binaryLoop (fOf k) (opsOf (k + 1)) else .logicalLoop (fOf k) (opsOf (k + 1))) st rest = .ok true st rest := by
  have hm : matchToken (opsOf (k + 1)) st rest = .ok none st rest :=
    matchToken_miss h fun p hp => by rw [opsOf_level k hk p hp]; exact Nat.le_refl _
  split
  · rw [P_run]; simp only [body]; rw [bind_run _ hm]; rfl
  · rw [P_run]; simp only [body]; rw [bind_run _ hm]; rfl

/-- A phrase of a level, when no operator of the level follows. -/
theorem Does.level {k : Nat} (hk : k ≤ 10) {used : List (Tok D)} {e : Expr D O} (h : Does c (.level k) used (.e e))
    (st : List (Val D O)) {rest : List (Tok D)} (hr : Stops k rest) :
    P c (fOf k) st (used ++ rest) = .ok true (st ++ compile c e) rest := by
  rcases k with _ | k
  · exact h st rest hr
  · rw [h (by omega) st rest (hr.mono (by omega))]
    exact loop_done k (by omega) hr

theorem unary_op {y : Sym} {ts st' ts'} {st : List (Val D O)} {code : List (Val D O)} (h : P c .unary st ts = .ok true st' ts') (h1 : y ≠ .at) (h2 : y ≠ .openBracket) (h3 : y ≠ .openBrace)
    (h4 : y ≠ .openParen) (hu : ∀ st : List (Val D O), isUnaryOperator st (.sym y :: ts) = .ok (some code) st ts) :
    P c .unary st (.sym y :: ts) = .ok true (st' ++ code) ts' := by
  rw [P_run]
  simp only [body]
  rw [bind_run _ (postfix_none h1 h2 h3 h4)]
  simp only [Bool.false_eq_true, if_false]
  rw [bind_run _ (hu st)]
  dsimp only
  rw [bind_run _ (require_run h)]
  rfl

theorem namedArg_run (n : Str) {ts st' ts'} {st : List (Val D O)} (h : P c .expression (st ++ [.name n]) ts = .ok true st' ts') :
    P c .namedArg st (.ident n :: .sym .colon :: ts) = .ok true st' ts' := by
  rw [P_run]
  simp only [body]
  rw [bind_run _ (isIdent_self _ _ _)]
  dsimp only
  rw [bind_run _ (isSym_self _ _ _)]
  show (push (.name n) >>= fun _ => require (P c .expression) >>= fun _ => pure true) st ts = _
  rw [bind_run _ (push_run _ _ _), bind_run _ (require_run h)]
  rfl

theorem ident_primary {n : Str} {ts : List (Tok D)} {st : List (Val D O)} {b st' ts'}
    (h : (isSym Sym.openParen >>= fun b =>
        if b = true then P c .argExprList >>= fun b =>
          if (!b) = true then push (.arr []) >>= fun _ => requireSym .closeParen >>= fun _ => push (.name n) >>= fun _ =>
            push (.name Vm.function_k) >>= fun _ => pure true
          else requireSym .closeParen >>= fun _ => push (.name n) >>= fun _ => push (.name Vm.function_k) >>= fun _ => pure true
        else push (.name n) >>= fun _ => push (.name Vm.variable_k) >>= fun _ => pure true) st ts = .ok true st' ts') (hb : b = true := by rfl) :
    P c .primary st (.ident n :: ts) = .ok b st' ts' := by
  subst hb
  rw [P_run]
  simp only [body]
  rw [bind_run _ (constant_none (.inr ⟨n, rfl⟩))]
  dsimp only
  rw [bind_run _ (array_none (by simp) (by simp))]
  simp only [Bool.false_eq_true, if_false]
  rw [bind_run _ (dictionary_none (by simp) (by simp))]
  simp only [Bool.false_eq_true, if_false]
  have : P c .variableOrFunction st (.ident n :: ts) = .ok true st' ts' := by
    rw [P_run]
    simp only [body]
    rw [bind_run _ (isIdent_self _ _ _)]
    exact h
  rw [bind_run _ this]
  rfl

set_option maxHeartbeats 400000 in
theorem does {nt : NT} {used : List (Tok D)} {o : Out D O} (h : Derives nt used o) : Does c nt used o := by
  induction h with
  | num d => intro st rest _; rw [P_run]; rfl
  | str s => intro st rest _; rw [P_run]; rfl
  | kwTrue => intro st rest _; rw [P_run]; rfl
  | kwFalse => intro st rest _; rw [P_run]; rfl
  | kwEmpty => intro st rest _; rw [P_run]; rfl
  | nameI n => intro st rest _; rw [P_run]; rfl
  | nameK n => intro st rest _; rw [P_run]; rfl
  | emptyArray =>
    intro st rest _
    rw [P_run]
    simp only [body, List.cons_append]
    rw [bind_run _ (constant_none (.inl ⟨_, rfl, by decide⟩))]
    have : P c .array st (.sym .openBracket :: .sym .closeBracket :: rest) = .ok true (st ++ [.arr []]) rest := by
      rw [P_run]
      simp only [body]
      rw [bind_run _ (isSym_self _ _ _)]
      simp only [Bool.not_true, Bool.false_eq_true, if_false]
      rw [bind_run _ (argList_none (.inr (.inl rfl)))]
      simp only [Bool.not_false, if_true]
      rw [bind_run _ (push_run _ _ _), bind_run _ (requireSym_run _ _ _)]
      rfl
    dsimp only
    simp only [List.nil_append]
    rw [bind_run _ this]
    rfl
  | @array ts es hd ih =>
    intro st rest _
    rw [P_run]
    simp only [body, List.cons_append, List.append_assoc]
    rw [bind_run _ (constant_none (.inl ⟨_, rfl, by decide⟩))]
    have : P c .array st (.sym .openBracket :: (ts ++ .sym .closeBracket :: rest)) = .ok true (st ++ compile c (.array es)) rest := by
      rw [P_run]
      simp only [body]
      rw [bind_run _ (isSym_self _ _ _)]
      simp only [Bool.not_true, Bool.false_eq_true, if_false]
      have h1 := ih st (.sym .closeBracket :: rest) (stops_sym (by decide) _)
      rw [argLoop_done _ (.inr ⟨_, _, by decide, rfl⟩)] at h1
      rw [bind_run _ h1]
      simp only [Bool.not_true, Bool.false_eq_true, if_false]
      rw [bind_run _ (requireSym_run _ _ _)]
      simp [pure_def, compile]
    dsimp only
    simp only [List.nil_append]
    rw [bind_run _ this]
    rfl
  | emptyDict =>
    intro st rest _
    rw [P_run]
    simp only [body, List.cons_append]
    rw [bind_run _ (constant_none (.inl ⟨_, rfl, by decide⟩))]
    have : P c .dictionary st (.sym .openBrace :: .sym .closeBrace :: rest) = .ok true (st ++ [.dict []]) rest := by
      rw [P_run]
      simp only [body]
      rw [bind_run _ (isSym_self _ _ _)]
      simp only [Bool.not_true, Bool.false_eq_true, if_false]
      rw [bind_run _ (namedArgList_none (by simp) (by simp) (by simp))]
      simp only [Bool.not_false, if_true]
      rw [bind_run _ (push_run _ _ _), bind_run _ (requireSym_run _ _ _)]
      rfl
    dsimp only
    simp only [List.nil_append]
    rw [bind_run _ (array_none (by simp) (by simp))]
    simp only [Bool.false_eq_true, if_false]
    rw [bind_run _ this]
    rfl
  | @dict ts ms hd ih =>
    intro st rest _
    rw [P_run]
    simp only [body, List.cons_append, List.append_assoc]
    rw [bind_run _ (constant_none (.inl ⟨_, rfl, by decide⟩))]
    have : P c .dictionary st (.sym .openBrace :: (ts ++ .sym .closeBrace :: rest)) = .ok true (st ++ compile c (.dict ms)) rest := by
      rw [P_run]
      simp only [body]
      rw [bind_run _ (isSym_self _ _ _)]
      simp only [Bool.not_true, Bool.false_eq_true, if_false]
      have h1 := ih st (.sym .closeBrace :: rest) (stops_sym (by decide) _)
      rw [namedLoop_done _ (.inr ⟨_, _, by decide, rfl⟩)] at h1
      rw [bind_run _ h1]
      simp only [Bool.not_true, Bool.false_eq_true, if_false]
      rw [bind_run _ (requireSym_run _ _ _)]
      simp [pure_def, compile]
    dsimp only
    simp only [List.nil_append]
    rw [bind_run _ (array_none (by simp) (by simp))]
    simp only [Bool.false_eq_true, if_false]
    rw [bind_run _ this]
    rfl
  | var n =>
    intro st rest hr
    refine ident_primary ?_
    have : isSym .openParen st rest = .ok false st rest := by
      rcases hr with hr | ⟨r, rfl | rfl⟩
      · exact isSym_not hr
      · exact isSym_other (by decide) _ _
      · exact isSym_other (by decide) _ _
    show (_ >>= _ : M D O Bool) st rest = _
    rw [bind_run _ this]
    simp [bind_def, pure_def, push_run, compile]
  | call0 f =>
    intro st rest _
    refine ident_primary ?_
    show (_ >>= _ : M D O Bool) st (.sym .openParen :: .sym .closeParen :: rest) = _
    rw [bind_run _ (isSym_self _ _ _)]
    simp only [if_true]
    have : P c .argExprList st (.sym .closeParen :: rest) = .ok false st (.sym .closeParen :: rest) := by
      rw [P_run]
      simp only [body]
      rw [bind_run _ (namedArgList_none (by simp) (by simp) (by simp))]
      exact argList_none (.inl rfl)
    rw [bind_run _ this]
    simp only [Bool.not_false, if_true]
    rw [bind_run _ (push_run _ _ _), bind_run _ (requireSym_run _ _ _), bind_run _ (push_run _ _ _), bind_run _ (push_run _ _ _)]
    simp [pure_def, compile]
  | @call f ts es hd ih =>
    intro st rest _
    rw [show (.ident f :: .sym .openParen :: (ts ++ [.sym .closeParen]) ++ rest : List (Tok D)) =
      .ident f :: .sym .openParen :: (ts ++ .sym .closeParen :: rest) by simp]
    refine ident_primary ?_
    rw [bind_run _ (isSym_self _ _ _)]
    simp only [if_true]
    have h1 := ih st (.sym .closeParen :: rest) (stops_sym (by decide) _)
    rw [argLoop_done _ (.inr ⟨_, _, by decide, rfl⟩)] at h1
    have : P c .argExprList st (ts ++ .sym .closeParen :: rest) =
        .ok true (st ++ compileList c es ++ [.num (c es.length), .name Vm.array_k]) (.sym .closeParen :: rest) := by
      rw [P_run]
      simp only [body]
      have h0 : P c .namedArgList st (ts ++ .sym .closeParen :: rest) = .ok false st (ts ++ .sym .closeParen :: rest) := by
        have hb := derives_no_bad hd
        have hn := derives_ne_nil hd
        have hc := derives_no_colon hd (by simp)
        refine namedArgList_none ?_ ?_ ?_
        · rcases ts with _ | ⟨t, ts⟩
          · exact absurd rfl hn
          · simp only [List.cons_append, List.head?_cons, ne_eq, Option.some.injEq]
            rintro rfl
            simp at hb
        · intro n r heq
          rcases ts with _ | ⟨t, _ | ⟨t', ts⟩⟩
          · exact hn rfl
          · simp at heq
          · simp only [List.cons_append, List.cons.injEq] at heq
            exact hc n ts (by rw [heq.1, heq.2.1])
        · intro n r heq
          rcases ts with _ | ⟨t, _ | ⟨t', ts⟩⟩
          · exact hn rfl
          · simp at heq
          · simp only [List.cons_append, List.cons.injEq] at heq
            exact hb (by rw [heq.2.1]; simp)
      rw [bind_run _ h0]
      exact h1
    rw [bind_run _ this]
    simp only [Bool.not_true, Bool.false_eq_true, if_false]
    rw [bind_run _ (requireSym_run _ _ _), bind_run _ (push_run _ _ _), bind_run _ (push_run _ _ _)]
    rcases es with _ | ⟨e, es⟩
    · exfalso
      generalize hnt : NT.args = nt at hd
      generalize ho : Out.es ([] : List (Expr D O)) = o at hd
      cases hd <;> cases hnt <;> simp at ho
    · simp [pure_def, compile, compileList]
  | @callNamed f ts ms hd ih =>
    intro st rest _
    rw [show (.ident f :: .sym .openParen :: (ts ++ [.sym .closeParen]) ++ rest : List (Tok D)) =
      .ident f :: .sym .openParen :: (ts ++ .sym .closeParen :: rest) by simp]
    refine ident_primary ?_
    rw [bind_run _ (isSym_self _ _ _)]
    simp only [if_true]
    have h1 := ih st (.sym .closeParen :: rest) (stops_sym (by decide) _)
    rw [namedLoop_done _ (.inr ⟨_, _, by decide, rfl⟩)] at h1
    have : P c .argExprList st (ts ++ .sym .closeParen :: rest) =
        .ok true (st ++ compileMembers c ms ++ [.num (c ms.length), .name Vm.dictionary_k]) (.sym .closeParen :: rest) := by
      rw [P_run]
      simp only [body]
      rw [bind_run _ h1]
      rfl
    rw [bind_run _ this]
    simp only [Bool.not_true, Bool.false_eq_true, if_false]
    rw [bind_run _ (requireSym_run _ _ _), bind_run _ (push_run _ _ _), bind_run _ (push_run _ _ _)]
    simp [pure_def, compile]
  | @paren ts x hd ih =>
    intro st rest _
    rw [P_run]
    simp only [body, List.cons_append, List.append_assoc]
    rw [bind_run _ (constant_none (.inl ⟨_, rfl, by decide⟩))]
    dsimp only
    simp only [List.nil_append]
    rw [bind_run _ (array_none (by simp) (by simp))]
    simp only [Bool.false_eq_true, if_false]
    rw [bind_run _ (dictionary_none (by simp) (by simp))]
    simp only [Bool.false_eq_true, if_false]
    rw [bind_run _ (variable_none (by simp) (by simp))]
    simp only [Bool.false_eq_true, if_false]
    rw [bind_run _ (isSym_self _ _ _)]
    simp only [if_true]
    rw [bind_run _ (require_run (ih st (.sym .closeParen :: rest) (stops_sym (by decide) _))), bind_run _ (requireSym_run _ _ _)]
    rfl
  | @primary ts x hd ih =>
    intro st rest hr
    rw [P_run]
    simp only [body]
    rw [bind_run _ (ih st rest hr)]
    rfl
  | @index ts us x i hd hi ih ihi =>
    intro st rest hr
    simp only [List.append_assoc, List.cons_append]
    rw [ih st _ (.inr ⟨_, .inl rfl⟩), P_run]
    simp only [body]
    rw [bind_run _ (isSym_self _ _ _)]
    simp only [if_true, List.nil_append]
    rw [bind_run _ (require_run (ihi _ (.sym .closeBracket :: rest) (stops_sym (by decide) _))), bind_run _ (requireSym_run _ _ _),
      bind_run _ (push_run _ _ _)]
    simp [compile]
  | @dot ts x n hd ih =>
    intro st rest hr
    simp only [List.append_assoc, List.cons_append]
    rw [ih st _ (.inr ⟨_, .inr rfl⟩), P_run]
    simp only [body]
    rw [bind_run _ (isSym_other (by decide) _ _)]
    simp only [Bool.false_eq_true, if_false, List.nil_append]
    rw [bind_run _ (isSym_self _ _ _)]
    simp only [if_true]
    rw [bind_run _ (isIdent_self _ _ _)]
    dsimp only
    rw [bind_run _ (push_run _ _ _), bind_run _ (push_run _ _ _)]
    simp [compile]
  | @«postfix» ts x hd ih =>
    intro st rest hr
    rw [P_run]
    simp only [body]
    have := ih st rest (.inl hr)
    rw [postfixLoop_done hr] at this
    rw [bind_run _ this]
    rfl
  | @plus ts x _ ih =>
    intro st rest hr
    have := unary_op (c := c) (y := .add) (ih st rest hr) (by decide) (by decide) (by decide) (by decide) (fun _ => rfl)
    simpa [compile, unName] using this
  | @neg ts x _ ih =>
    intro st rest hr
    have := unary_op (c := c) (y := .subtract) (ih st rest hr) (by decide) (by decide) (by decide) (by decide) (fun _ => rfl)
    simpa [compile, unName] using this
  | @not ts x _ ih =>
    intro st rest hr
    have := unary_op (c := c) (y := .not) (ih st rest hr) (by decide) (by decide) (by decide) (by decide) (fun _ => rfl)
    simpa [compile, unName] using this
  | @bitNot ts x _ ih =>
    intro st rest hr
    have := unary_op (c := c) (y := .bitNegate) (ih st rest hr) (by decide) (by decide) (by decide) (by decide) (fun _ => rfl)
    simpa [compile, unName] using this
  | @level k ts x hk hd ih =>
    intro _ st rest hr
    have := ih.level (by omega) st hr
    rw [P_run]
    obtain e | e | e | e | e | e | e | e | e | e : k = 0 ∨ k = 1 ∨ k = 2 ∨ k = 3 ∨ k = 4 ∨ k = 5 ∨ k = 6 ∨ k = 7 ∨ k = 8 ∨ k = 9 := by omega
    all_goals
      subst e
      simp only [fOf, body, isBinary, isLogical] at this ⊢
      rw [bind_run _ this]
      rfl
  | @bin k ts us a b y op hd hm hb ih ihb =>
    intro hk st rest hr
    have hk8 : k < 8 := by
      unfold binSyms at hm
      split at hm <;> first | omega | simp at hm
    have hops : opsOf (k + 1) = (binSyms (k + 1)).map fun p => (p.1, opName p.2) := by
      unfold opsOf; split <;> first | omega | rfl
    have hmem : (y, opName op) ∈ opsOf (k + 1) := by
      rw [hops]; exact List.mem_map.2 ⟨(y, op), hm, rfl⟩
    have hy := opsOf_level k hk _ hmem
    simp only [List.append_assoc, List.cons_append]
    rw [ih hk st (.sym y :: (us ++ rest)) (stops_sym (by simp only at hy; omega) _)]
    simp only [hk8, if_true]
    rw [P_run]
    simp only [body]
    rw [bind_run _ (matchToken_hit hmem (fun k' hk' => by
      have := opsOf_unique k hk _ hk' _ hmem rfl
      simpa using this) _ _)]
    dsimp only
    rw [bind_run _ (require_run (ihb.level (by omega) _ hr)), bind_run _ (push_run _ _ _)]
    simp [compile]
  | @and ts us a b hd hb ih ihb =>
    intro hk st rest hr
    simp only [List.append_assoc, List.cons_append]
    rw [ih hk st (.sym .and :: (us ++ rest)) (stops_sym (by decide) _)]
    rw [if_neg (by decide), P_run]
    simp only [body]
    rw [bind_run _ (matchToken_hit (k := Vm.and_k) (by decide) (fun k' hk' => by
      have := opsOf_unique 8 hk _ hk' (.and, Vm.and_k) (by decide) rfl
      simpa using this) _ _)]
    dsimp only
    rw [bind_run _ (withStack_run (require_run (ihb.level (by omega) _ hr))), bind_run _ (push_run _ _ _), bind_run _ (push_run _ _ _)]
    simp [compile]
  | @or ts us a b hd hb ih ihb =>
    intro hk st rest hr
    simp only [List.append_assoc, List.cons_append]
    rw [ih hk st (.sym .or :: (us ++ rest)) (stops_sym (by decide) _)]
    rw [if_neg (by decide), P_run]
    simp only [body]
    rw [bind_run _ (matchToken_hit (k := Vm.or_k) (by decide) (fun k' hk' => by
      have := opsOf_unique 9 hk _ hk' (.or, Vm.or_k) (by decide) rfl
      simpa using this) _ _)]
    dsimp only
    rw [bind_run _ (withStack_run (require_run (ihb.level (by omega) _ hr))), bind_run _ (push_run _ _ _), bind_run _ (push_run _ _ _)]
    simp [compile]
  | @expr ts x hd ih =>
    intro st rest hr
    have := ih.level (by omega) st (hr.mono (by omega))
    rw [P_run]
    simp only [body, fOf] at this ⊢
    rw [bind_run _ this]
    simp only [Bool.not_true, Bool.false_eq_true, if_false]
    rw [bind_run _ (isSym_not (y := .question) hr)]
    rfl
  | @cond ts us vs x a b hx ha hb ihx iha ihb =>
    intro st rest hr
    simp only [List.append_assoc, List.cons_append]
    have := ihx.level (by omega) st (rest := .sym .question :: (us ++ .sym .colon :: (vs ++ rest))) (stops_sym (by decide) _)
    rw [P_run]
    simp only [body, fOf] at this ⊢
    rw [bind_run _ this]
    simp only [Bool.not_true, Bool.false_eq_true, if_false]
    rw [bind_run _ (isSym_self _ _ _)]
    simp only [Bool.not_true, Bool.false_eq_true, if_false]
    rw [bind_run _ (withStack_run (require_run (iha _ _ (stops_sym (by decide) _)))), bind_run _ (requireSym_run _ _ _),
      bind_run _ (withStack_run (require_run (ihb _ _ hr))), bind_run _ (push_run _ _ _), bind_run _ (push_run _ _ _), bind_run _ (push_run _ _ _)]
    simp [pure_def, compile]
  | @arg ts x hd ih =>
    intro st rest hr
    rw [P_run]
    simp only [body]
    rw [bind_run _ (ih st rest hr)]
    simp [compileList]
  | @argMore ts us x xs hd hx ih ihx =>
    intro st rest hr
    simp only [List.append_assoc, List.cons_append]
    rw [ih st _ (stops_sym (by decide) _), P_run]
    simp only [body]
    rw [bind_run _ (isSym_self _ _ _)]
    simp only [if_true]
    rw [bind_run _ (require_run (ihx _ _ hr))]
    simp [compileList_append, compileList]
  | @member ts x n hd ih =>
    intro st rest hr
    rw [P_run]
    simp only [body, List.cons_append]
    have h1 : P c .expression (st ++ [.name n]) (ts ++ rest) = .ok true (st ++ [.name n] ++ compile c x) rest := ih _ _ hr
    rw [bind_run _ (namedArg_run n h1)]
    simp [compileMembers]
  | @memberMore ts us x xs n hd hx ih ihx =>
    intro st rest hr
    simp only [List.append_assoc, List.cons_append]
    rw [ih st _ (stops_sym (by decide) _), P_run]
    simp only [body]
    rw [bind_run _ (isSym_self _ _ _)]
    simp only [if_true]
    have h1 : ∀ st', P c .expression (st' ++ [.name n]) (us ++ rest) = .ok true (st' ++ [.name n] ++ compile c x) rest :=
      fun st' => ihx _ _ hr
    rw [bind_run _ (require_run (namedArg_run n (h1 _)))]
    simp [compileMembers_append, compileMembers]

end Verif.Expr.Parser
