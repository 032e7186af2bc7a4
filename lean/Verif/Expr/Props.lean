import Verif.Expr.Reject
/-
C45: the parser of expressions accepts the documented grammar.
C46: evaluating what it produces computes the meaning of the expression.
-/
namespace Verif.Expr
open Spec Parser

variable {D O S : Type}

/-- C45: `is_expression` stops on every sequence of tokens, finite or ended by an error of the lexical analyser: from some depth of
recursion on, its result no longer changes (`fuel` would mean it needs more). -/
theorem C45_terminates (c : Nat → D) (st : List (Val D O)) (ts : List (Tok D)) :
    ∃ n0 r, r ≠ .fuel ∧ ∀ n, n0 ≤ n → parse c n .expression st ts = r :=
  ⟨_, P c .expression st ts, P_ne_fuel c _ st ts, fun n hn => parse_of_le c n .expression st ts hn⟩

/-- C45: whatever `is_expression` accepts is a phrase of the grammar; it is consumed completely, and what is pushed on top of the
stack is its postfix form.  If it returns `false` it has consumed nothing and pushed nothing. -/
theorem C45_sound (c : Nat → D) (n : Nat) (st st' : List (Val D O)) (ts rest : List (Tok D)) (b : Bool)
    (h : parse c n .expression st ts = .ok b st' rest) :
    (b = true ∧ ∃ used e, ts = used ++ rest ∧ Derives .expression used (.e e) ∧ st' = st ++ compile c e) ∨
      (b = false ∧ st' = st ∧ rest = ts) :=
  parse_sound n _ _ _ _ _ _ h

/-- C45: every phrase of the grammar is accepted, whatever follows it, as long as the next token does not continue it. -/
theorem C45_complete (c : Nat → D) (used rest : List (Tok D)) (e : Spec.Expr D O) (hd : Derives .expression used (.e e))
    (hr : CanFollow rest) (st : List (Val D O)) :
    ∃ n0, ∀ n, n0 ≤ n → parse c n .expression st (used ++ rest) = .ok true (st ++ compile c e) rest := by
  refine ⟨fuelFor (used ++ rest).length .expression, fun n hn => ?_⟩
  rw [parse_of_le c n .expression st _ hn]
  exact does hd st rest (canFollow_stops.1 hr)

/-- C45: `is_expression` returns `false` exactly when no expression begins with the next token. -/
theorem C45_false_iff (c : Nat → D) (st : List (Val D O)) (ts : List (Tok D)) :
    (∃ n st' ts', parse c n .expression st ts = .ok false st' ts') ↔ ∀ t r, ts = t :: r → t ≠ .bad ∧ ¬ CanStart t := by
  constructor
  · rintro ⟨n, st', ts', h⟩ t r rfl
    have h' : P c .expression st (t :: r) = .ok false st' ts' := by
      rcases parse_eq_P c n .expression st (t :: r) with h1 | h1
      · rw [h1] at h; cases h
      · rw [← h1, h]
    refine ⟨?_, fun hs => yes_expression hs r _ _ _ h'⟩
    rintro rfl
    have : P c .expression st (.bad :: r) = .throw := by
      have h1 : isConstant st (.bad :: r : List (Tok D)) = .throw := rfl
      have e1 : P c .primary st (.bad :: r) = .throw := by rw [P_run]; simp only [body]; rw [bind_def, h1]
      have e2 : P c .postfix st (.bad :: r) = .throw := by rw [P_run]; simp only [body]; rw [bind_def, e1]
      have key : ∀ k, k ≤ 10 → P c (fOf k) st (.bad :: r) = .throw := by
        intro k
        induction k with
        | zero => intro _; show P c .unary st (.bad :: r) = _; rw [P_run]; simp only [body]; rw [bind_def, e2]
        | succ k ih =>
          intro hk
          have ih := ih (by omega)
          rw [P_run]
          obtain e | e | e | e | e | e | e | e | e | e : k = 0 ∨ k = 1 ∨ k = 2 ∨ k = 3 ∨ k = 4 ∨ k = 5 ∨ k = 6 ∨ k = 7 ∨ k = 8 ∨ k = 9 := by omega
          all_goals
            subst e
            simp only [fOf, body, isBinary, isLogical] at ih ⊢
            rw [bind_def, ih]
      have := key 10 (by omega)
      simp only [fOf] at this
      rw [P_run]; simp only [body]; rw [bind_def, this]
    rw [this] at h'
    cases h'
  · intro h
    exact ⟨_, st, ts, expression_no h st⟩

/-- Every phrase begins with a token of `CanStart`. -/
theorem C45_start (used : List (Tok D)) (e : Spec.Expr D O) (hd : Derives .expression used (.e e)) :
    ∃ t r, used = t :: r ∧ CanStart t := derives_start hd

/-! ### Meaning -/

theorem plainList_append {a b : List (Spec.Expr D O)} (ha : PlainList a) (hb : PlainList b) : PlainList (a ++ b) := by
  induction a with
  | nil => exact hb
  | cons e es ih => exact ⟨ha.1, ih ha.2⟩

theorem plainMembers_append {a b : List (Str × Spec.Expr D O)} (ha : PlainMembers a) (hb : PlainMembers b) :
    PlainMembers (a ++ b) := by
  induction a with
  | nil => exact hb
  | cons e es ih => exact ⟨ha.1, ha.2.1, ih ha.2.2⟩

/-- What the parser produces from well-formed tokens can be evaluated. -/
def PlainOut (len : Nat) : Out D O → Prop
  | .e e => Plain e
  | .es es => PlainList es ∧ es.length ≤ len
  | .ms ms => PlainMembers ms ∧ ms.length ≤ len

theorem derives_plain {nt : NT} {ts : List (Tok D)} {o : Out D O} (h : Derives nt ts o) (hn : NamesOk ts)
    (hl : ts.length < 2 ^ 31) : PlainOut ts.length o := by
  have sub : ∀ {a b : List (Tok D)}, NamesOk a → (∀ t, t ∈ b → t ∈ a) → NamesOk b := by
    intro a b ha hs n h
    exact ha n (h.imp (hs _) (hs _))
  induction h with
  | num => trivial
  | str => trivial
  | kwTrue => trivial
  | kwFalse => trivial
  | kwEmpty => trivial
  | nameI n => exact hn n (by simp)
  | nameK n => exact hn n (by simp)
  | emptyArray => trivial
  | array _ ih =>
    simp only [List.length_cons, List.length_append, List.length_nil] at hl
    have := ih (sub hn (by grind)) (by omega)
    exact ⟨by have := this.2; omega, this.1⟩
  | emptyDict => trivial
  | dict _ ih =>
    simp only [List.length_cons, List.length_append, List.length_nil] at hl
    have := ih (sub hn (by grind)) (by omega)
    exact ⟨by have := this.2; omega, this.1⟩
  | var n => exact hn n (by simp)
  | call0 f => exact ⟨hn f (by simp), by simp, trivial⟩
  | call f _ ih =>
    simp only [List.length_cons, List.length_append, List.length_nil] at hl
    have := ih (sub hn (by grind)) (by omega)
    exact ⟨hn f (by simp), by have := this.2; omega, this.1⟩
  | callNamed f _ ih =>
    simp only [List.length_cons, List.length_append, List.length_nil] at hl
    have := ih (sub hn (by grind)) (by omega)
    exact ⟨hn f (by simp), by have := this.2; omega, this.1⟩
  | paren _ ih =>
    simp only [List.length_cons, List.length_append, List.length_nil] at hl
    exact ih (sub hn (by grind)) (by omega)
  | primary _ ih => exact ih hn hl
  | «postfix» _ ih => exact ih hn hl
  | level _ _ ih => exact ih hn hl
  | expr _ ih => exact ih hn hl
  | index _ _ ih ih' =>
    simp only [List.length_cons, List.length_append, List.length_nil] at hl
    exact ⟨ih (sub hn (by grind)) (by omega), ih' (sub hn (by grind)) (by omega)⟩
  | dot n _ ih =>
    simp only [List.length_cons, List.length_append, List.length_nil] at hl
    exact ⟨ih (sub hn (by grind)) (by omega), hn n (by simp)⟩
  | plus _ ih => simp only [List.length_cons] at hl; exact ih (sub hn (by grind)) (by omega)
  | neg _ ih => simp only [List.length_cons] at hl; exact ih (sub hn (by grind)) (by omega)
  | not _ ih => simp only [List.length_cons] at hl; exact ih (sub hn (by grind)) (by omega)
  | bitNot _ ih => simp only [List.length_cons] at hl; exact ih (sub hn (by grind)) (by omega)
  | bin _ _ _ ih ih' =>
    simp only [List.length_cons, List.length_append] at hl
    exact ⟨ih (sub hn (by grind)) (by omega), ih' (sub hn (by grind)) (by omega)⟩
  | and _ _ ih ih' =>
    simp only [List.length_cons, List.length_append] at hl
    exact ⟨ih (sub hn (by grind)) (by omega), ih' (sub hn (by grind)) (by omega)⟩
  | or _ _ ih ih' =>
    simp only [List.length_cons, List.length_append] at hl
    exact ⟨ih (sub hn (by grind)) (by omega), ih' (sub hn (by grind)) (by omega)⟩
  | cond _ _ _ ih ih' ih'' =>
    simp only [List.length_cons, List.length_append] at hl
    exact ⟨ih (sub hn (by grind)) (by omega), ih' (sub hn (by grind)) (by omega), ih'' (sub hn (by grind)) (by omega)⟩
  | arg h ih =>
    have := derives_ne_nil h
    refine ⟨⟨ih hn hl, trivial⟩, ?_⟩
    have := List.length_pos_iff.2 this
    simp only [List.length_singleton]; omega
  | argMore _ h ih ih' =>
    simp only [List.length_cons, List.length_append] at hl
    have h1 := ih (sub hn (by grind)) (by omega)
    have h2 := ih' (sub hn (by grind)) (by omega)
    refine ⟨plainList_append h1.1 ⟨h2, trivial⟩, ?_⟩
    have := h1.2
    simp only [List.length_append, List.length_cons, List.length_nil]; omega
  | member n h ih =>
    simp only [List.length_cons] at hl
    refine ⟨⟨hn n (by simp), ih (sub hn (by grind)) (by omega), trivial⟩, ?_⟩
    simp only [List.length_cons, List.length_nil]; omega
  | memberMore n _ h ih ih' =>
    simp only [List.length_cons, List.length_append] at hl
    have h1 := ih (sub hn (by grind)) (by omega)
    have h2 := ih' (sub hn (by grind)) (by omega)
    refine ⟨plainMembers_append h1.1 ⟨hn n (by simp), h2, trivial⟩, ?_⟩
    have := h1.2
    simp only [List.length_append, List.length_cons, List.length_nil]; omega

/-- C46: the code of an expression, run by the virtual machine on any stack, computes the meaning of the expression: on success its
value is pushed and nothing else on the stack has changed; if the meaning is an exception the machine throws it, in the same state
of the world, and what was on the stack is still there, below whatever the interrupted evaluation left; the machine does something
undefined only where the meaning is undefined (it never takes anything from an empty stack). -/
theorem C46_meaning (E : Env D O S) (hN : E.num.Ok) (hO : ∀ n, E.override n ≠ none → Overridable n)
    (used : List (Tok D)) (e : Spec.Expr D O) (hd : Derives .expression used (.e e)) (hn : NamesOk used)
    (hl : used.length < 2 ^ 31) :
    ∃ n0, ∀ n, n0 ≤ n → ∀ st s, match eval E e s with
      | .ok v s' => Vm.evaluate E n (compile E.num.ofU32 e) st s = .ok () (v :: st) s'
      | .throw err s' => ∃ extra, Vm.evaluate E n (compile E.num.ofU32 e) st s = .throw err (extra ++ st) s'
      | .undef => Vm.evaluate E n (compile E.num.ofU32 e) st s = .ub := by
  refine ⟨need e + 1, fun n hn' st s => ?_⟩
  obtain ⟨m, rfl⟩ : ∃ m, n = m + 1 := ⟨n - 1, by omega⟩
  have := vm_correct hN hO e (derives_plain hd hn hl) m (by omega) st s
  unfold Agrees at this
  cases h : eval E e s <;> rw [h] at this <;> exact this

/-- C46: from text to value.  Whatever the parser accepts, evaluating the result gives the meaning of a reading of the consumed
tokens in the grammar. -/
theorem C46_parse_evaluate (E : Env D O S) (hN : E.num.Ok) (hO : ∀ n, E.override n ≠ none → Overridable n)
    (ts rest : List (Tok D)) (hn : NamesOk ts) (hl : ts.length < 2 ^ 31) (k : Nat) (code : List (Val D O))
    (h : parse E.num.ofU32 k .expression [] ts = .ok true code rest) :
    ∃ used e, ts = used ++ rest ∧ Derives .expression used (.e e) ∧
      ∃ n0, ∀ n, n0 ≤ n → ∀ st s, match eval E e s with
        | .ok v s' => Vm.evaluate E n code st s = .ok () (v :: st) s'
        | .throw err s' => ∃ extra, Vm.evaluate E n code st s = .throw err (extra ++ st) s'
        | .undef => Vm.evaluate E n code st s = .ub := by
  rcases C45_sound _ _ _ _ _ _ _ h with ⟨_, used, e, rfl, hd, rfl⟩ | ⟨hb, _⟩
  · refine ⟨used, e, rfl, hd, C46_meaning E hN hO used e hd ?_ ?_⟩
    · intro n hm; exact hn n (hm.imp (by simp; exact .inl) (by simp; exact .inl))
    · simp only [List.length_append] at hl; omega
  · cases hb

/-- C46: a sequence of tokens has one meaning: two readings of it in the grammar evaluate to the same. -/
theorem C46_unambiguous (E : Env D O S) (hN : E.num.Ok) (hO : ∀ n, E.override n ≠ none → Overridable n)
    (ts : List (Tok D)) (hn : NamesOk ts) (hl : ts.length < 2 ^ 31) (e1 e2 : Spec.Expr D O)
    (h1 : Derives .expression ts (.e e1)) (h2 : Derives .expression ts (.e e2)) : eval E e1 = eval E e2 := by
  obtain ⟨k1, hk1⟩ := C45_complete E.num.ofU32 ts [] e1 h1 trivial []
  obtain ⟨k2, hk2⟩ := C45_complete E.num.ofU32 ts [] e2 h2 trivial []
  have hc : compile E.num.ofU32 e1 = compile E.num.ofU32 e2 := by
    have a := hk1 (max k1 k2) (Nat.le_max_left _ _)
    rw [hk2 (max k1 k2) (Nat.le_max_right _ _)] at a
    simp only [List.nil_append, R.ok.injEq] at a
    exact a.2.1.symm
  obtain ⟨n1, m1⟩ := C46_meaning E hN hO ts e1 h1 hn hl
  obtain ⟨n2, m2⟩ := C46_meaning E hN hO ts e2 h2 hn hl
  funext s
  have a := m1 (max n1 n2) (Nat.le_max_left _ _) [] s
  have b := m2 (max n1 n2) (Nat.le_max_right _ _) [] s
  rw [hc] at a
  cases h1 : eval E e1 s <;> cases h2 : eval E e2 s <;> rw [h1] at a <;> rw [h2] at b <;> simp only at a b
  · rw [a] at b; simp at b; rw [b.1, b.2]
  · obtain ⟨_, b⟩ := b; rw [a] at b; cases b
  · rw [a] at b; cases b
  · obtain ⟨_, a⟩ := a; rw [a] at b; cases b
  · obtain ⟨_, a⟩ := a; obtain ⟨_, b⟩ := b; rw [a] at b; simp at b; rw [b.1, b.2.2]
  · obtain ⟨_, a⟩ := a; rw [a] at b; cases b
  · rw [a] at b; cases b
  · obtain ⟨_, b⟩ := b; rw [a] at b; cases b

/-! ### Examples -/

/-- Numbers for the examples. -/
def exNum : Num Int where
  neg x := -x
  add := (· + ·)
  sub := (· - ·)
  mul := (· * ·)
  div := Int.tdiv
  lt x y := decide (x < y)
  le x y := decide (x ≤ y)
  eq x y := decide (x = y)
  round x := x
  toU32 x := if 0 ≤ x ∧ x < 2 ^ 32 then some x.toNat else none
  toI32 x := if -2 ^ 31 ≤ x ∧ x < 2 ^ 31 then some x else none
  toSize x := if 0 ≤ x ∧ x < 2 ^ 64 then some x.toNat else none
  ofU32 n := n
  ofInt x := x
  zero := 0
  one := 1

theorem exNum_ok : exNum.Ok where
  u32 n h := by
    have : ((n : Int) < 4294967296) := by omega
    simp [exNum, this]
  u32_lt d n h := by
    simp only [exNum] at h
    split at h
    · cases h; omega
    · cases h

/-- A client with one variable `x` that counts how often it is asked. -/
def exEnv : Env Int Unit Nat where
  num := exNum
  eqO _ _ := true
  typeO _ := []
  var := some fun n s => if n = ['x'] then .ok (.num 5) (s + 1) else .throw .undefined s
  arrFn := none
  dictFn := none
  namedIndex := none
  numIndex := none
  override _ := none
  localize x := x
  escape x := x
  unescape x := some x

/-- `x - 2 * 3 > 0 && x ; ` -/
def exToks : List (Tok Int) := [.ident ['x'], .sym .subtract, .num 2, .sym .multiply, .num 3, .sym .greater, .num 0, .sym .and, .ident ['x'],
  .sym .semicolon]

def exAst : Spec.Expr Int Unit :=
  .and (.bin .gt (.bin .sub (.var ['x']) (.bin .mul (.const (.num 2)) (.const (.num 3)))) (.const (.num 0))) (.var ['x'])

example : parse exNum.ofU32 200 .expression [] exToks = .ok true (compile exNum.ofU32 exAst) [.sym .semicolon] := by rfl
example : ∃ used rest, exToks = used ++ rest ∧ CanFollow rest ∧ Derives (O := Unit) .expression used (.e exAst) := by
  refine ⟨exToks.take 9, [.sym .semicolon], rfl, by simp [CanFollow, continuing], ?_⟩
  have lift : ∀ k {ts : List (Tok Int)} {e : Spec.Expr Int Unit}, Derives .primary ts (.e e) → k ≤ 10 → Derives (.level k) ts (.e e) := by
    intro k ts e h hk
    induction k with
    | zero => exact .postfix (.primary h)
    | succ k ih => exact .level (by omega) (ih (by omega))
  have m : Derives (D := Int) (O := Unit) (.level 1) ([.num 2] ++ .sym .multiply :: [.num 3]) _ :=
    .bin (op := .mul) (lift 1 (.num 2) (by omega)) (by decide) (lift 0 (.num 3) (by omega))
  have a : Derives (D := Int) (O := Unit) (.level 2) ([.ident ['x']] ++ .sym .subtract :: _) _ :=
    .bin (op := .sub) (lift 2 (.var ['x']) (by omega)) (by decide) m
  have g : Derives (D := Int) (O := Unit) (.level 4) (_ ++ .sym .greater :: [.num 0]) _ :=
    .bin (op := .gt) (.level (by omega) (.level (by omega) a)) (by decide) (lift 3 (.num 0) (by omega))
  exact .expr (.level (by omega) (.and (.level (by omega) (.level (by omega) (.level (by omega) (.level (by omega) (.level (by omega) g)))))
    (lift 8 (.var ['x']) (by omega))))
/-- The right operand is not evaluated: the variable is asked once. -/
example : eval exEnv exAst 0 = .ok (.bool false) 1 := by rfl
example : Vm.evaluate exEnv 3 (compile exNum.ofU32 exAst) [.num 7] 0 = .ok () [.bool false, .num 7] 1 := by rfl
example : NamesOk exToks ∧ exToks.length < 2 ^ 31 ∧ (∀ n, exEnv.override n ≠ none → Overridable n) := by
  refine ⟨?_, by decide, fun n h => absurd rfl h⟩
  intro n h
  simp [exToks] at h
  subst h
  decide
/-- An exception leaves the left operand on the stack, above what was there. -/
example : Vm.evaluate exEnv 3 (compile exNum.ofU32 (.bin .add (.const (.num 1)) (.var ['y']))) [.num 7] 0 =
    .throw .undefined [.num 1, .num 7] 0 := by rfl
/-- Nothing is an expression that begins with `)`; `1 +` is an error. -/
example : parse (O := Unit) exNum.ofU32 60 .expression [] [.sym .closeParen] = .ok false [] [.sym .closeParen] := by rfl
example : parse (O := Unit) exNum.ofU32 60 .expression [] [.num 1, .sym .add] = .throw := by rfl

end Verif.Expr
