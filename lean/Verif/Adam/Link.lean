import Verif.Adam.Props
import Verif.Expr.Tree
import Verif.Expr.Props
/-!
The expressions of a sheet are those of the language: what `Verif.Adam` calls a `Prog` is what the virtual machine (`Verif.Expr`) does
when it runs the array the parser made of the text of an expression, with the sheet as its lookup of variables.
-/
namespace Verif.Adam
open Verif.Expr Verif.Expr.Spec Verif.Expr.Parser

variable {D O : Type}

/-- The casts of `any_regular_t` the sheet uses (source/adam.cpp:328-331, 1106-1114). -/
instance : Values (Val D O) where
  asBool | .bool b => some b | _ => none
  asArray | .arr l => some l | _ => none
  empty := .empty

variable [DecidableEq (Val D O)]

/-- The function installed by `set_variable_lookup`: the lookup `g` of a sheet, where the code `enc a` stands for the exception `a`.
models: source/adam.cpp:917-925 and test/property_model_eval/queryable_sheet.cpp:25. -/
def sheetVar (enc : Err Str → Nat) (g : Str → M Str (Val D O) (Val D O)) (n : Str) (s : Sheet Str (Val D O)) :
    Call D O (Sheet Str (Val D O)) :=
  match g n s with
  | (.ok v, s') => .ok v s'
  | (.error a, s') => .throw (.client (enc a)) s'

/-- The lookup in a table of values: it collects the sets of cells read, and the variable `x`, the one the expression is for, is `first` the first
time and `later` from then on.  The world is: has `x` been read, and the cells read so far. -/
def tableVar (x : Option Str) (env : Env Str (Val D O)) (first later : Option (Val D O × Bits)) (n : Str) (s : Bool × Bits) :
    Call D O (Bool × Bits) :=
  if some n = x then
    match if s.1 then later else first with
    | some w => .ok w.1 (true, s.2 ||| w.2)
    | none => .throw (.client 0) s
  else
    match env n with
    | some w => .ok w.1 (s.1, s.2 ||| w.2)
    | none => .throw (.client 0) s

/-- The program a tree of questions is: its value is the top of the stack. -/
def ofTree : Vm.Tree D O Unit → Prog Str (Val D O)
  | .ok _ (v :: _) => .ret v
  | .ask n _ k => .ask n fun v => ofTree (k v)
  | _ => .fail

theorem ofTree_run (enc : Err Str → Nat) (g : Str → M Str (Val D O) (Val D O)) (t : Vm.Tree D O Unit) (ht : t.Own)
    (s : Sheet Str (Val D O)) : match t.run (sheetVar enc g) s with
      | .ok _ (v :: _) s' => (ofTree t).run g s = (.ok v, s')
      | .throw (.client c) _ s' => ∃ a, c = enc a ∧ (ofTree t).run g s = (.error a, s')
      | .throw _ _ s' => (ofTree t).run g s = (.error .evalFailed, s')
      | _ => True := by
  induction t generalizing s with
  | ok a st => cases st with
      | nil => trivial
      | cons v r => rfl
  | throw e st =>
      cases e with
      | client c => exact absurd rfl (ht c)
      | type => rfl
      | range => rfl
      | args => rfl
      | undefined => rfl
  | ub => trivial
  | fuel => trivial
  | ask n st k ih =>
      have hrun : (ofTree (.ask n st k)).run g s = match g n s with
          | (.ok v, s') => (ofTree (k v)).run g s'
          | (.error a, s') => (.error a, s') := by
        show (g n >>= fun v => (ofTree (k v)).run g) s = _
        simp only [bind]
        cases g n s with
        | mk r s' => cases r <;> rfl
      rw [hrun]
      simp only [Vm.Tree.run, sheetVar]
      cases h : g n s with
      | mk r s' =>
          cases r with
          | ok v => exact ih v (ht v) s'
          | error a => exact ⟨a, rfl, rfl⟩

theorem ofTree_eval (x : Option Str) (env : Env Str (Val D O)) (first later : Option (Val D O × Bits)) (t : Vm.Tree D O Unit)
    (b : Bool) (c : Bits) : match t.run (tableVar x env first later) (b, c) with
      | .ok _ (v :: _) s' => ∃ d, (ofTree t).eval x env (if b then later else first) later = some (v, d) ∧ s'.2 = c ||| d
      | .throw _ _ _ => (ofTree t).eval x env (if b then later else first) later = none
      | _ => True := by
  induction t generalizing b c with
  | ok a st => cases st with
      | nil => trivial
      | cons v r => exact ⟨0, rfl, by simp⟩
  | throw e st => rfl
  | ub => trivial
  | fuel => trivial
  | ask n st k ih =>
      have hev : (ofTree (.ask n st k)).eval x env (if b then later else first) later =
          if some n = x then (if b then later else first).bind fun w => (Prog.eval x env later later (ofTree (k w.1))).map fun u => (u.1, w.2 ||| u.2)
          else (env n).bind fun w => (Prog.eval x env (if b then later else first) later (ofTree (k w.1))).map fun u => (u.1, w.2 ||| u.2) := rfl
      rw [hev]
      simp only [Vm.Tree.run, tableVar]
      by_cases hx : some n = x
      · simp only [if_pos hx]
        cases hw : (if b then later else first) with
        | none => rfl
        | some w =>
            have h := ih w.1 true (c ||| w.2)
            simp only [if_true] at h
            simp only [Option.bind_some]
            revert h
            cases Vm.Tree.run (tableVar x env first later) (k w.1) (true, c ||| w.2) with
            | ok u st s' => cases st with
                | nil => exact fun _ => trivial
                | cons v r =>
                    rintro ⟨d, h1, h2⟩
                    refine ⟨w.2 ||| d, ?_, ?_⟩
                    · rw [h1]; rfl
                    · rw [h2, Nat.or_assoc]
            | throw e st s' => intro h; rw [h]; rfl
            | ub => exact fun _ => trivial
            | fuel => exact fun _ => trivial
      · simp only [if_neg hx]
        cases hw : env n with
        | none => rfl
        | some w =>
            have h := ih w.1 b (c ||| w.2)
            simp only [Option.bind_some]
            revert h
            cases Vm.Tree.run (tableVar x env first later) (k w.1) (b, c ||| w.2) with
            | ok u st s' => cases st with
                | nil => exact fun _ => trivial
                | cons v r =>
                    rintro ⟨d, h1, h2⟩
                    refine ⟨w.2 ||| d, ?_, ?_⟩
                    · rw [h1]; rfl
                    · rw [h2, Nat.or_assoc]
            | throw e st s' => intro h; rw [h]; rfl
            | ub => exact fun _ => trivial
            | fuel => exact fun _ => trivial

/-- The program `p` is the expression `e`.  In every sheet and for every way `g` of answering its questions, it gives the value the expression has
when its variables are what `g` answers, in the same state of the sheet; if the meaning of the expression is an exception of the lookup it ends
with this exception, if it is another exception with `evalFailed` (`enc` codes the exceptions of the sheet as exceptions of a client).  In a
table of values likewise.  Nothing is said where the meaning is undefined. -/
def IsProgram (P : Vm.PureEnv D O) (e : Spec.Expr D O) (p : Prog Str (Val D O)) : Prop :=
  (∀ (enc : Err Str → Nat) (g : Str → M Str (Val D O) (Val D O)) (s : Sheet Str (Val D O)),
    match Spec.eval (P.env _ (sheetVar enc g)) e s with
    | .ok v s' => p.run g s = (.ok v, s')
    | .throw (.client c) s' => ∃ a, c = enc a ∧ p.run g s = (.error a, s')
    | .throw _ s' => p.run g s = (.error .evalFailed, s')
    | .undef => True) ∧
  ∀ (x : Option Str) (env : Env Str (Val D O)) (first later : Option (Val D O × Bits)),
    match Spec.eval (P.env _ (tableVar x env first later)) e (false, 0) with
    | .ok v s' => p.eval x env first later = some (v, s'.2)
    | .throw _ _ => p.eval x env first later = none
    | .undef => True

/-- C114: an expression of the language is a program.  Whatever text an expression has, there is one program — the array the parser makes, run by
the machine — which is this expression. -/
theorem C114_expression_program (P : Vm.PureEnv D O) (hP : P.Own) (hN : P.num.Ok) (hO : ∀ n, P.override n ≠ none → Overridable n)
    (ts : List (Tok D)) (e : Spec.Expr D O) (hd : Derives .expression ts (.e e)) (hn : NamesOk ts) (hl : ts.length < 2 ^ 31) :
    ∃ p : Prog Str (Val D O), IsProgram P e p := by
  have hOv : ∀ S g n, (P.env S g).override n ≠ none → Overridable n := by
    intro S g n h
    refine hO n fun h' => h ?_
    show (P.override n).map _ = none
    rw [h']; rfl
  -- one amount of fuel for all worlds
  obtain ⟨t, hto, ht⟩ := Vm.rep_evaluate P hP (need e + 1) (compile P.num.ofU32 e)
  have hm : ∀ S g s, match Spec.eval (P.env S g) e s with
      | .ok v s' => (t []).run g s = .ok () [v] s'
      | .throw err s' => ∃ st, (t []).run g s = .throw err st s'
      | .undef => True := by
    intro S g s
    have h := vm_correct (E := P.env S g) hN (hOv S g) e (derives_plain hd hn hl) (need e) (Nat.le_refl _) [] s
    have h' := ht S g [] s
    unfold Agrees at h
    cases he : Spec.eval (P.env S g) e s with
    | ok v s' => rw [he] at h; exact h'.symm.trans h
    | throw err s' => rw [he] at h; obtain ⟨ex, h⟩ := h; exact ⟨_, h'.symm.trans h⟩
    | undef => trivial
  refine ⟨ofTree (t []), ?_, ?_⟩
  · intro enc g s
    have h := hm _ (sheetVar enc g) s
    have h2 := ofTree_run enc g (t []) (hto []) s
    cases he : Spec.eval (P.env _ (sheetVar enc g)) e s with
    | ok v s' => rw [he] at h; simp only at h; rw [h] at h2; exact h2
    | throw err s' =>
        rw [he] at h
        obtain ⟨st, h⟩ := h
        rw [h] at h2
        cases err <;> exact h2
    | undef => trivial
  · intro x env first later
    have h := hm _ (tableVar x env first later) (false, 0)
    have h2 := ofTree_eval x env first later (t []) false 0
    cases he : Spec.eval (P.env _ (tableVar x env first later)) e (false, 0) with
    | ok v s' =>
        rw [he] at h; simp only at h; rw [h] at h2
        obtain ⟨d, h2, h3⟩ := h2
        simp only [Nat.zero_or] at h3
        show _ = some (v, s'.2)
        rw [h3]
        exact h2
    | throw err s' =>
        rw [he] at h
        obtain ⟨st, h⟩ := h
        rw [h] at h2
        exact h2
    | undef => trivial

/-- The value is what the expression means when its variables are looked up with `var`; nothing is said where that is undefined. -/
def Means (P : Vm.PureEnv D O) (e : Spec.Expr D O) (var : Str → Bool × Bits → Call D O (Bool × Bits)) (v : Option (Val D O)) : Prop :=
  match Spec.eval (P.env _ var) e (false, 0) with
  | .ok w _ => v = some w
  | .throw _ _ => False
  | .undef => True

theorem means_of {P : Vm.PureEnv D O} {e : Spec.Expr D O} {p : Prog Str (Val D O)} (hp : IsProgram P e p) {x : Option Str} {env : Env Str (Val D O)}
    {first later : Option (Val D O × Bits)} {v : Val D O} {b : Bits} (h : p.eval x env first later = some (v, b)) :
    Means P e (tableVar x env first later) (some v) := by
  have := hp.2 x env first later
  unfold Means
  cases he : Spec.eval (P.env _ (tableVar x env first later)) e (false, 0) with
  | ok w s' =>
      rw [he] at this
      have := this.symm.trans h
      simp only [Option.some.injEq, Prod.mk.injEq] at this
      rw [this.1]
  | throw => rw [he] at this; rw [this] at h; cases h
  | undef => trivial

/-- C114: values of cells are values of texts.  After an update that succeeds, in terms of a solution `env` of the equations of the sheet:
an output cell declared with the expression `e` has the value of `e` when its variables have the values `env`; an interface cell derived by a relation with the
expression `e` has the value of `e` where its own name stands for what was set. -/
theorem C114_cell_values (P : Vm.PureEnv D O) {s : Sheet Str (Val D O)} (hs : Reachable s) (hcond : CondOk (startUpdate s)) {srt : Sorter}
    (hsrt : SortOk srt) :
    OverConstrained srt s ∨ ∀ ord, Enumerates s ord → Sensible srt s → ∃ ev s', update srt ord s = (.ok ev, s') ∧
      ∀ env, Solves (settled srt s) env → ∀ n i e p, s.nameIndex.find n = some i → IsProgram P e p →
        ((s.cell i).spec = .output ∨ (s.cell i).spec = .invariant → (s.cell i).calculator = .expr p →
          Means P e (tableVar none env none none) (s'.value n)) ∧
        ∀ j, (s.cell i).spec = .interfaceOutput → (s.cell i).input = some j → (s.cell i).calculator = .self →
          ((settled srt s).cell i).term = some ⟨p, none⟩ →
          Means P e (tableVar (some n) env (some ((s.cell j).state, (s.cell j).contributing)) (some ((s.cell j).state, (s.cell j).contributing)))
            (s'.value n) := by
  rcases C51_update_computes_the_solution hs hcond hsrt with h | h
  · exact Or.inl h
  · right
    intro ord ho hsen
    obtain ⟨ev, s', hu, hv⟩ := h ord ho hsen
    refine ⟨ev, s', hu, fun env henv n i e p hn hp => ⟨fun hsp hc => ?_, fun j hsp hj hc ht => ?_⟩⟩
    · have hout : s.outputIndex.find n = some i := (hs.good.fit.wf.output n i).mpr ⟨hn, by rcases hsp with h | h <;> simp [h]⟩
      have hno : (s.cell i).input = none := hs.good.fit.wf.noInput i (by rcases hsp with h | h <;> rw [h] <;> simp)
      obtain ⟨v, hval, hsol⟩ := hv n (by simp [Sheet.hasOutputCell, hout])
      obtain ⟨b, hb⟩ := hsol env henv
      rw [hval]
      refine means_of hp (b := b) ?_
      rw [← hb, henv n]
      have hn' : (settled srt s).nameIndex.find n = some i := hn
      have h1 : ((settled srt s).cell i).spec = (s.cell i).spec := rfl
      have h2 : ((settled srt s).cell i).count = 0 := rfl
      have h3 : ((settled srt s).cell i).input = none := hno
      have h4 : ((settled srt s).cell i).calculator = .expr p := hc
      unfold rhs
      rw [hn']
      simp only [h1, h2, h3, h4]
      rcases hsp with h | h <;> simp [h]
    · have hout : s.outputIndex.find n = some i := (hs.good.fit.wf.output n i).mpr ⟨hn, by simp [hsp]⟩
      obtain ⟨v, hval, hsol⟩ := hv n (by simp [Sheet.hasOutputCell, hout])
      obtain ⟨b, hb⟩ := hsol env henv
      rw [hval]
      have hn' : (settled srt s).nameIndex.find n = some i := hn
      have h1 : ((settled srt s).cell i).spec = (s.cell i).spec := rfl
      have h2 : ((settled srt s).cell i).count = 0 := rfl
      have h3 : ((settled srt s).cell i).input = some j := hj
      have h4 : ((settled srt s).cell i).calculator = .self := hc
      rw [henv n] at hb
      unfold rhs at hb
      rw [hn'] at hb
      simp only [h1, h2, h3, h4, hsp] at hb
      simp only [firstRef, ht, Term.eval] at hb
      have h5 : ((settled srt s).cell j).state = (s.cell j).state := rfl
      have h6 : ((settled srt s).cell j).contributing = (s.cell j).contributing := rfl
      rw [h5, h6] at hb
      refine means_of hp (b := b) ?_
      revert hb
      cases Prog.eval (some n) env (some ((s.cell j).state, (s.cell j).contributing)) (some ((s.cell j).state, (s.cell j).contributing)) p with
      | none => intro hb; simp at hb
      | some w => intro hb; simpa [pick] using hb

end Verif.Adam
