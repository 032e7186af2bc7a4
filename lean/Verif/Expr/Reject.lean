import Verif.Expr.Complete
import Verif.Expr.VmCorrect
/-
When the parser says that there is no expression.
-/
namespace Verif.Expr
open Spec Parser

variable {D O S : Type}

namespace Parser

theorem canFollow_stops {ts : List (Tok D)} : CanFollow ts ↔ Stops 11 ts := by
  rcases ts with _ | ⟨t, ts⟩
  · simp [CanFollow, Stops]
  · cases t with
    | sym y => cases y <;> simp [CanFollow, Stops, tokStops, symLevel, continuing]
    | _ => simp [CanFollow, Stops, tokStops]

theorem derives_start {nt : NT} {ts : List (Tok D)} {o : Out D O} (h : Derives nt ts o) :
    ∃ t r, ts = t :: r ∧ CanStart t := by
  induction h <;> first
    | exact ⟨_, _, rfl, by simp [CanStart]⟩
    | assumption
    | (rename_i ih _; obtain ⟨t, r, rfl, ht⟩ := ih; exact ⟨t, _, rfl, ht⟩)
    | (rename_i ih; obtain ⟨t, r, rfl, ht⟩ := ih; exact ⟨t, _, rfl, ht⟩)
    | (rename_i ih _ _; obtain ⟨t, r, rfl, ht⟩ := ih; exact ⟨t, _, rfl, ht⟩)

variable {c : Nat → D}

/-- A token no expression begins with. -/
theorem primary_no {t : Tok D} (ht : t ≠ .bad) (h : ¬ CanStart t) (r : List (Tok D)) (st : List (Val D O)) :
    P c .primary st (t :: r) = .ok false st (t :: r) := by
  have h0 : isConstant st (t :: r) = .ok none st (t :: r) := by
    cases t with
    | sym y =>
      refine constant_none (.inl ⟨y, rfl, ?_⟩)
      rintro rfl; exact h (by simp [CanStart])
    | kw n =>
      simp only [CanStart, not_or] at h
      have hk : ∀ k : Str, n ≠ k → isKeyword k st (.kw n :: r) = .ok false st (.kw n :: r) := by
        intro k hk
        simp [isKeyword, accept, bind_def, pure_def, hk]
      unfold isConstant
      rw [bind_run (a := none) (s1 := st) (t1 := .kw n :: r) (x := isName) _ rfl]
      dsimp only
      rw [bind_run (a := none) (s1 := st) (t1 := .kw n :: r) (x := accept _) _ rfl]
      dsimp only
      rw [bind_run _ (hk _ h.1)]
      simp only [Bool.false_eq_true, if_false]
      rw [bind_run _ (hk _ h.2.1)]
      simp only [Bool.false_eq_true, if_false]
      rw [bind_run (a := none) (s1 := st) (t1 := .kw n :: r) (x := accept _) _ rfl]
      dsimp only
      rw [bind_run _ (hk _ h.2.2)]
      rfl
    | leadComment n => rfl
    | trailComment n => rfl
    | bad => exact absurd rfl ht
    | _ => exact absurd trivial h
  rw [P_run]
  simp only [body]
  rw [bind_run _ h0]
  dsimp only
  rw [bind_run _ (array_none ht (by rintro rfl; exact h (by simp [CanStart])))]
  simp only [Bool.false_eq_true, if_false]
  rw [bind_run _ (dictionary_none ht (by rintro rfl; exact h (by simp [CanStart])))]
  simp only [Bool.false_eq_true, if_false]
  rw [bind_run _ (variable_none ht (by rintro n rfl; exact h trivial))]
  simp only [Bool.false_eq_true, if_false]
  have : isSym .openParen st (t :: r) = .ok false st (t :: r) := by
    cases t with
    | sym y => exact isSym_other (by rintro rfl; exact h (by simp [CanStart])) _ _
    | bad => exact absurd rfl ht
    | _ => rfl
  rw [bind_run _ this]
  rfl

theorem primary_nil (st : List (Val D O)) : P c .primary st [] = .ok false st [] := by
  rw [P_run]
  simp only [body]
  rw [bind_run (a := none) (s1 := st) (t1 := []) (x := isConstant) _ rfl]
  dsimp only
  rw [bind_run (a := false) (s1 := st) (t1 := []) (x := P c .array) _ (by rw [P_run]; rfl)]
  simp only [Bool.false_eq_true, if_false]
  rw [bind_run (a := false) (s1 := st) (t1 := []) (x := P c .dictionary) _ (by rw [P_run]; rfl)]
  simp only [Bool.false_eq_true, if_false]
  rw [bind_run (a := false) (s1 := st) (t1 := []) (x := P c .variableOrFunction) _ (by rw [P_run]; rfl)]
  rfl

theorem fOf_no {ts : List (Tok D)} {st : List (Val D O)} (h : P c .primary st ts = .ok false st ts)
    (hu : isUnaryOperator st ts = .ok none st ts) (k : Nat) (hk : k ≤ 10) : P c (fOf k) st ts = .ok false st ts := by
  induction k with
  | zero =>
    show P c .unary st ts = _
    rw [P_run]
    simp only [body]
    have : P c .postfix st ts = .ok false st ts := by
      rw [P_run]; simp only [body]; rw [bind_run _ h]; rfl
    rw [bind_run _ this]
    simp only [Bool.false_eq_true, if_false]
    rw [bind_run _ hu]
    rfl
  | succ k ih =>
    rw [P_run]
    have ih := ih (by omega)
    obtain e | e | e | e | e | e | e | e | e | e : k = 0 ∨ k = 1 ∨ k = 2 ∨ k = 3 ∨ k = 4 ∨ k = 5 ∨ k = 6 ∨ k = 7 ∨ k = 8 ∨ k = 9 := by omega
    all_goals
      subst e
      simp only [fOf, body, isBinary, isLogical] at ih ⊢
      rw [bind_run _ ih]
      rfl

theorem expression_no {ts : List (Tok D)} (h : ∀ t r, ts = t :: r → t ≠ .bad ∧ ¬ CanStart t) (st : List (Val D O)) :
    P c .expression st ts = .ok false st ts := by
  have h1 : P c .primary st ts = .ok false st ts := by
    rcases ts with _ | ⟨t, r⟩
    · exact primary_nil st
    · exact primary_no (h t r rfl).1 (h t r rfl).2 r st
  have h2 : isUnaryOperator st ts = .ok none st ts := by
    rcases ts with _ | ⟨t, r⟩
    · rfl
    · obtain ⟨hb, hs⟩ := h t r rfl
      cases t with
      | sym y => cases y <;> first | rfl | exact absurd (by simp [CanStart]) hs
      | bad => exact absurd rfl hb
      | _ => rfl
  have := fOf_no (c := c) h1 h2 10 (by omega)
  simp only [fOf] at this
  rw [P_run]
  simp only [body]
  rw [bind_run _ this]
  rfl

/-- Never `false`. -/
def Yes (x : M D O Bool) (ts : List (Tok D)) : Prop := ∀ st st' ts', x st ts ≠ .ok false st' ts'

theorem yes_array (r : List (Tok D)) : Yes (P (O := O) c .array) (.sym .openBracket :: r) := by
  intro st st' ts' h
  rw [P_run] at h
  simp only [body] at h
  rw [bind_run _ (isSym_self _ _ _)] at h
  simp only [Bool.not_true, Bool.false_eq_true, if_false] at h
  obtain ⟨a, s1, t1, h1, h2⟩ := bind_ok h
  cases a with
  | true => obtain ⟨a, s2, t2, h3, h4⟩ := bind_ok h2; cases h4
  | false =>
    obtain ⟨a, s2, t2, h3, h4⟩ := bind_ok h2
    obtain ⟨a, s2, t2, h5, h6⟩ := bind_ok h4
    cases h6

theorem yes_dictionary (r : List (Tok D)) : Yes (P (O := O) c .dictionary) (.sym .openBrace :: r) := by
  intro st st' ts' h
  rw [P_run] at h
  simp only [body] at h
  rw [bind_run _ (isSym_self _ _ _)] at h
  simp only [Bool.not_true, Bool.false_eq_true, if_false] at h
  obtain ⟨a, s1, t1, h1, h2⟩ := bind_ok h
  cases a with
  | true => obtain ⟨a, s2, t2, h3, h4⟩ := bind_ok h2; cases h4
  | false =>
    obtain ⟨a, s2, t2, h3, h4⟩ := bind_ok h2
    obtain ⟨a, s2, t2, h5, h6⟩ := bind_ok h4
    cases h6

theorem yes_variable (n : Str) (r : List (Tok D)) : Yes (P (O := O) c .variableOrFunction) (.ident n :: r) := by
  intro st st' ts' h
  rw [P_run] at h
  simp only [body] at h
  rw [bind_run _ (isIdent_self _ _ _)] at h
  obtain ⟨a, s1, t1, h1, h2⟩ := bind_ok h
  cases a with
  | false =>
    obtain ⟨_, s2, t2, h3, h4⟩ := bind_ok h2
    obtain ⟨_, s2, t2, h5, h6⟩ := bind_ok h4
    cases h6
  | true =>
    obtain ⟨a, s2, t2, h3, h4⟩ := bind_ok h2
    cases a with
    | true =>
      obtain ⟨_, s2, t2, h5, h6⟩ := bind_ok h4
      obtain ⟨_, s2, t2, h7, h8⟩ := bind_ok h6
      obtain ⟨_, s2, t2, h9, h10⟩ := bind_ok h8
      cases h10
    | false =>
      obtain ⟨_, s2, t2, h5, h6⟩ := bind_ok h4
      obtain ⟨_, s2, t2, h7, h8⟩ := bind_ok h6
      obtain ⟨_, s2, t2, h9, h10⟩ := bind_ok h8
      obtain ⟨_, s2, t2, h11, h12⟩ := bind_ok h10
      cases h12

theorem yes_primary {t : Tok D} (h : CanStart t) (hu : ∀ y, t = .sym y → y ∉ [.add, .subtract, .not, .bitNegate])
    (r : List (Tok D)) : Yes (P (O := O) c .primary) (t :: r) := by
  intro st st' ts' hp
  rw [P_run] at hp
  simp only [body] at hp
  obtain ⟨a, s1, t1, h1, h2⟩ := bind_ok hp
  cases a with
  | some v => cases h2
  | none =>
    obtain ⟨rfl, h1'⟩ := isConstant_ok h1
    rcases h1' with ⟨_, _, h1', _⟩ | ⟨_, rfl⟩
    · cases h1'
    dsimp only at h2
    obtain ⟨a, s2, t2, h3, h4⟩ := bind_ok h2
    cases a with
    | true => cases h4
    | false =>
      have hb := P_sound c _ _ _ _ _ _ h3
      rcases hb with ⟨hb, _⟩ | ⟨_, rfl, rfl⟩
      · cases hb
      simp only [Bool.false_eq_true, if_false] at h4
      obtain ⟨a, s3, t3, h5, h6⟩ := bind_ok h4
      cases a with
      | true => cases h6
      | false =>
        have hb := P_sound c _ _ _ _ _ _ h5
        rcases hb with ⟨hb, _⟩ | ⟨_, rfl, rfl⟩
        · cases hb
        simp only [Bool.false_eq_true, if_false] at h6
        obtain ⟨a, s4, t4, h7, h8⟩ := bind_ok h6
        cases a with
        | true => cases h8
        | false =>
          have hb := P_sound c _ _ _ _ _ _ h7
          rcases hb with ⟨hb, _⟩ | ⟨_, rfl, rfl⟩
          · cases hb
          simp only [Bool.false_eq_true, if_false] at h8
          obtain ⟨a, s5, t5, h9, h10⟩ := bind_ok h8
          cases a with
          | true =>
            obtain ⟨_, s6, t6, h11, h12⟩ := bind_ok h10
            obtain ⟨_, s7, t7, h13, h14⟩ := bind_ok h12
            cases h14
          | false =>
            cases t with
            | num d => cases h1
            | str d => cases h1
            | ident n => exact yes_variable n _ _ _ _ h7
            | kw n =>
              rcases h with rfl | rfl | rfl <;> cases h1
            | sym y =>
              have hu := hu y rfl
              simp only [CanStart, List.mem_cons, List.not_mem_nil, or_false] at h hu
              simp only [not_or] at hu
              rcases h with rfl | rfl | rfl | rfl | rfl | rfl | rfl | rfl
              · unfold isConstant at h1
                obtain ⟨a, s6, t6, h11, h12⟩ := bind_ok h1
                obtain ⟨_, h11'⟩ := isName_ok h11
                rcases h11' with ⟨n, rfl, _⟩ | ⟨rfl, rfl⟩
                · cases h12
                · unfold isName at h11
                  rw [bind_run _ (isSym_self _ _ _)] at h11
                  simp only [Bool.not_true, Bool.false_eq_true, if_false] at h11
                  obtain ⟨a, s7, t7, h13, h14⟩ := bind_ok h11
                  cases a with
                  | some a => cases h14
                  | none =>
                    obtain ⟨a, s8, t8, h15, h16⟩ := bind_ok h14
                    cases a <;> cases h16
              · exact yes_array _ _ _ _ h3
              · exact yes_dictionary _ _ _ _ h5
              · rw [isSym_self] at h9; cases h9
              · exact hu.1 rfl
              · exact hu.2.1 rfl
              · exact hu.2.2.1 rfl
              · exact hu.2.2.2 rfl
            | leadComment => exact h
            | trailComment => exact h
            | bad => exact h

theorem yes_unary {t : Tok D} (h : CanStart t) (r : List (Tok D)) : Yes (P (O := O) c .unary) (t :: r) := by
  intro st st' ts' hp
  rw [P_run] at hp
  simp only [body] at hp
  obtain ⟨a, s1, t1, h1, h2⟩ := bind_ok hp
  cases a with
  | true => cases h2
  | false =>
    have hb := P_sound c _ _ _ _ _ _ h1
    rcases hb with ⟨hb, _⟩ | ⟨_, rfl, rfl⟩
    · cases hb
    by_cases hu : ∀ y, t = .sym y → y ∉ [Sym.add, .subtract, .not, .bitNegate]
    · rw [P_run] at h1
      simp only [body] at h1
      obtain ⟨a, s3, t3, h3, h4⟩ := bind_ok h1
      cases a with
      | false => exact yes_primary h hu r _ _ _ h3
      | true =>
        have := P_sound c _ _ _ _ _ _ h4 [.kw "empty".toList] (.const .empty) (.primary .kwEmpty)
        cases this.1
    · simp only [Bool.false_eq_true, if_false] at h2
      obtain ⟨a, s3, t3, h3, h4⟩ := bind_ok h2
      have : a ≠ none := by
        rintro rfl
        apply hu
        rintro y rfl hy
        simp only [List.mem_cons, List.not_mem_nil, or_false] at hy
        rcases hy with rfl | rfl | rfl | rfl <;> cases h3
      cases a with
      | none => exact this rfl
      | some a =>
        obtain ⟨_, s5, t5, h5, h6⟩ := bind_ok h4
        cases h6

theorem yes_fOf {t : Tok D} (h : CanStart t) (r : List (Tok D)) (k : Nat) (hk : k ≤ 10) :
    Yes (P (O := O) c (fOf k)) (t :: r) := by
  have atom : Derives (D := D) (O := O) (.level 0) [.kw "empty".toList] (.e (.const .empty)) := .postfix (.primary .kwEmpty)
  have atoms : ∀ k, k ≤ 10 → Derives (D := D) (O := O) (.level k) [.kw "empty".toList] (.e (.const .empty)) := by
    intro k
    induction k with
    | zero => intro _; exact atom
    | succ k ih => intro hk; exact .level (by omega) (ih (by omega))
  induction k with
  | zero => exact yes_unary h r
  | succ k ih =>
    have ih := ih (by omega)
    have hloop : ∀ st ts b st' ts', P (O := O) c (if k < 8 then .binaryLoop (fOf k) (opsOf (k + 1)) else .logicalLoop (fOf k) (opsOf (k + 1)))
        st ts = .ok b st' ts' → b = true := by
      intro st ts b st' ts' hl
      split at hl
      · rename_i h8
        exact (P_sound c _ _ _ _ _ _ hl k h8 rfl rfl _ _ (atoms (k + 1) hk)).1
      · exact (P_sound c _ _ _ _ _ _ hl k (by omega) rfl rfl _ _ (atoms (k + 1) hk)).1
    intro st st' ts' hp
    rw [P_run] at hp
    obtain e | e | e | e | e | e | e | e | e | e : k = 0 ∨ k = 1 ∨ k = 2 ∨ k = 3 ∨ k = 4 ∨ k = 5 ∨ k = 6 ∨ k = 7 ∨ k = 8 ∨ k = 9 := by omega
    all_goals
      subst e
      simp only [fOf, body, isBinary, isLogical] at ih hp
      obtain ⟨a, s1, t1, h1, h2⟩ := bind_ok hp
      cases a with
      | false => exact ih _ _ _ h1
      | true => exact absurd (hloop _ _ _ _ _ h2) (by simp)

theorem yes_expression {t : Tok D} (h : CanStart t) (r : List (Tok D)) : Yes (P (O := O) c .expression) (t :: r) := by
  intro st st' ts' hp
  rw [P_run] at hp
  simp only [body] at hp
  obtain ⟨a, s1, t1, h1, h2⟩ := bind_ok hp
  cases a with
  | false => exact yes_fOf h r 10 (by omega) _ _ _ h1
  | true =>
    obtain ⟨a, s2, t2, h3, h4⟩ := bind_ok h2
    cases a with
    | false => cases h4
    | true =>
      obtain ⟨_, s5, t5, h5, h6⟩ := bind_ok h4
      obtain ⟨_, s5, t5, h7, h8⟩ := bind_ok h6
      obtain ⟨_, s5, t5, h9, h10⟩ := bind_ok h8
      obtain ⟨_, s5, t5, h11, h12⟩ := bind_ok h10
      obtain ⟨_, s5, t5, h13, h14⟩ := bind_ok h12
      obtain ⟨_, s5, t5, h15, h16⟩ := bind_ok h14
      cases h16

end Parser
end Verif.Expr
