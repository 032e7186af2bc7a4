import Verif.Adam.Link
/-! A sheet with expressions of the language: the hypotheses of the `C114` theorems are met. -/
namespace Verif.Adam.LinkEx
open Verif.Expr Verif.Expr.Spec Verif.Expr.Parser

abbrev Vl := Val Int Unit

mutual
def eqb : Vl → Vl → Bool
  | .empty, .empty => true
  | .bool a, .bool b => decide (a = b)
  | .num a, .num b => decide (a = b)
  | .name a, .name b => decide (a = b)
  | .str a, .str b => decide (a = b)
  | .arr a, .arr b => eqbList a b
  | .dict a, .dict b => eqbMembers a b
  | .other _, .other _ => true
  | _, _ => false
def eqbList : List Vl → List Vl → Bool
  | [], [] => true
  | a :: as, b :: bs => eqb a b && eqbList as bs
  | _, _ => false
def eqbMembers : List (Str × Vl) → List (Str × Vl) → Bool
  | [], [] => true
  | (k, a) :: as, (l, b) :: bs => decide (k = l) && eqb a b && eqbMembers as bs
  | _, _ => false
end

mutual
theorem eqb_iff : ∀ a b : Vl, eqb a b = true ↔ a = b
  | .empty, b => by cases b <;> simp [eqb]
  | .bool a, b => by cases b <;> simp [eqb]
  | .num a, b => by cases b <;> simp [eqb]
  | .name a, b => by cases b <;> simp [eqb]
  | .str a, b => by cases b <;> simp [eqb]
  | .arr a, b => by cases b <;> simp [eqb, eqbList_iff a]
  | .dict a, b => by cases b <;> simp [eqb, eqbMembers_iff a]
  | .other a, b => by cases b <;> simp [eqb]
theorem eqbList_iff : ∀ a b : List Vl, eqbList a b = true ↔ a = b
  | [], b => by cases b <;> simp [eqbList]
  | a :: as, b => by cases b <;> simp [eqbList, eqb_iff a, eqbList_iff as]
theorem eqbMembers_iff : ∀ a b : List (Str × Vl), eqbMembers a b = true ↔ a = b
  | [], b => by cases b <;> simp [eqbMembers]
  | (k, a) :: as, [] => by simp [eqbMembers]
  | (k, a) :: as, (l, b) :: bs => by simp [eqbMembers, eqb_iff a, eqbMembers_iff as]
end

instance : DecidableEq Vl := fun a b => decidable_of_iff _ (eqb_iff a b)

/-- A client with a variable lookup and nothing else. -/
def P : Vm.PureEnv Int Unit where
  num := exNum
  eqO _ _ := true
  typeO _ := []
  arrFn := none
  dictFn := none
  namedIndex := none
  numIndex := none
  override _ := none
  localize x := x
  escape x := x
  unescape x := some x

theorem P_own : P.Own := ⟨fun _ h => (by cases h), fun _ h => (by cases h), fun _ h => (by cases h), fun _ h => (by cases h), fun _ _ h => (by cases h)⟩

/-- `x - 2 * 3` -/
def toks : List (Tok Int) := [.ident ['x'], .sym .subtract, .num 2, .sym .multiply, .num 3]
def ast : Spec.Expr Int Unit := .bin .sub (.var ['x']) (.bin .mul (.const (.num 2)) (.const (.num 3)))

theorem derives : Derives .expression toks (.e ast) := by
  have lift : ∀ k {ts : List (Tok Int)} {e : Spec.Expr Int Unit}, Derives .primary ts (.e e) → k ≤ 10 → Derives (.level k) ts (.e e) := by
    intro k ts e h hk
    induction k with
    | zero => exact .postfix (.primary h)
    | succ k ih => exact .level (by omega) (ih (by omega))
  have m : Derives (D := Int) (O := Unit) (.level 1) ([.num 2] ++ .sym .multiply :: [.num 3]) _ :=
    .bin (op := .mul) (lift 1 (.num 2) (by omega)) (by decide) (lift 0 (.num 3) (by omega))
  have a : Derives (D := Int) (O := Unit) (.level 2) ([.ident ['x']] ++ .sym .subtract :: _) _ :=
    .bin (op := .sub) (lift 2 (.var ['x']) (by omega)) (by decide) m
  exact .expr (.level (by omega) (.level (by omega) (.level (by omega) (.level (by omega) (.level (by omega) (.level (by omega)
    (.level (by omega) (.level (by omega) a))))))))

theorem names : NamesOk toks := by
  intro n h
  simp [toks] at h
  subst h
  decide

/-- The hypotheses of `C114_expression_program` are met. -/
example : ∃ p, IsProgram P ast p :=
  C114_expression_program P P_own exNum_ok (fun _ h => absurd rfl h) toks ast derives names (by decide)

/-- The program, written down. -/
def prog : Prog Str Vl := .ask ['x'] fun v => match v with
  | .num i => .ret (.num (i - 6))
  | _ => .fail

theorem prog_is : IsProgram P ast prog := by
  constructor
  · intro enc g s
    have hrun : prog.run g s = match g ['x'] s with
        | (.ok v, s') => (match v with | .num i => Prog.ret (.num (i - 6)) | _ => .fail : Prog Str Vl).run g s'
        | (.error a, s') => (.error a, s') := by
      show (g ['x'] >>= fun v => _) s = _
      simp only [bind]
      cases g ['x'] s with
      | mk r s' => cases r <;> rfl
    rw [hrun]
    have hev : Spec.eval (P.env _ (sheetVar enc g)) ast s = match sheetVar enc g ['x'] s with
        | .ok (.num i) s' => .ok (.num (i - 6)) s'
        | .ok _ s' => .throw .type s'
        | .throw e s' => .throw e s' := by
      show (Res.bind (Spec.ofCall (sheetVar enc g ['x'] s)) _) = _
      cases sheetVar enc g ['x'] s with
      | throw e s' => rfl
      | ok v s' => cases v <;> rfl
    rw [hev]
    unfold sheetVar
    cases g ['x'] s with
    | mk r s' => cases r with
        | error a => exact ⟨a, rfl, rfl⟩
        | ok v => cases v <;> rfl
  · intro x env first later
    have hev : Spec.eval (P.env _ (tableVar x env first later)) ast (false, 0) = match tableVar x env first later ['x'] (false, 0) with
        | .ok (.num i) s' => .ok (.num (i - 6)) s'
        | .ok _ s' => .throw .type s'
        | .throw e s' => .throw e s' := by
      show (Res.bind (Spec.ofCall (tableVar x env first later ['x'] (false, 0))) _) = _
      cases tableVar x env first later ['x'] (false, 0) with
      | throw e s' => rfl
      | ok v s' => cases v <;> rfl
    rw [hev]
    unfold tableVar
    simp only [prog, Prog.eval]
    by_cases h : some ['x'] = x
    · simp only [if_pos h]
      cases first with
      | none => rfl
      | some w => obtain ⟨v, b⟩ := w; cases v <;> simp [Prog.eval]
    · simp only [if_neg h]
      cases env ['x'] with
      | none => rfl
      | some w => obtain ⟨v, b⟩ := w; cases v <;> simp [Prog.eval]

/-- `interface: x : 10; output: y <== x - 2 * 3;` -/
abbrev S := Sheet Str Vl
def s1 : S := (addInterfaceValue ['x'] (.num 10) (Sheet.empty ['x'])).2
def s2 : S := (addOutput ['y'] prog s1).2
def ord : List Nat := [1, 2]

theorem s2_reachable : Reachable s2 := by
  have h0 : Reachable (Sheet.empty ['x'] : S) := Reachable.empty _
  have h1 : Reachable s1 := h0.addInterfaceValue (Prod.ext (by decide +kernel) rfl)
  exact h1.addOutput (Prod.ext (by decide +kernel) rfl)

example : (update Ex.srt ord s2).2.value ['y'] = some (.num 4) := by decide +kernel
example : s2.nameIndex.find ['y'] = some 2 ∧ (s2.cell 2).spec = .output ∧ (s2.cell 2).calculator = .expr prog :=
  ⟨by decide +kernel, by decide +kernel, rfl⟩
/-- The meaning of the text in the values of the sheet. -/
example : Means P ast (tableVar none (fun n => if n = ['x'] then some (.num 10, 1) else none) none none) (some (.num 4)) := rfl

end Verif.Adam.LinkEx
