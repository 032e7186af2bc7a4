import Verif.Expr.Compile
import Mathlib.Tactic.Common
namespace Verif.Expr
open Spec Vm

variable {D O S : Type}

theorem Agrees.array {E : Env D O S} {ev : List (Val D O) → Vm.M D O S Unit} (hN : E.num.Ok) (vs : List (Val D O))
    (hl : vs.length < 2 ^ 31) (st : List (Val D O)) (s : S) :
    findOperator E ev array_k (.num (E.num.ofU32 vs.length) :: (vs.reverse ++ st)) s = .ok () (.arr vs :: st) s := by
  show arrayOperator _ _ _ = _
  have h := hN.u32 vs.length (by omega)
  simp [arrayOperator, popAs, back, castVia, h, M.bind_def, popBack, M.pure_def, M.pure_def', takeTop, dropTop, push]

/-- Names and values on the stack. -/
def flat : List (Str × Val D O) → List (Val D O)
  | [] => []
  | (n, v) :: ms => .name n :: v :: flat ms

theorem flat_length (ms : List (Str × Val D O)) : (flat ms).length = 2 * ms.length := by
  induction ms with
  | nil => rfl
  | cons m ms ih => simp only [flat, List.length_cons, ih]; omega

theorem lookup_none {ms : List (Str × Val D O)} {k : Str} : ms.lookup k = none ↔ k ∉ ms.map Prod.fst := by
  rw [List.lookup_eq_none_iff]
  simp
  constructor
  · intro h x hx; exact h k x hx rfl
  · intro h a b hab hk; subst hk; exact h b hab

theorem dictLoop_flat (ms acc : List (Str × Val D O)) (st : List (Val D O)) (s : S) :
    dictLoop (flat ms) acc st s = .ok (acc ++ (dictOf ms).filter fun m => m.1 ∉ acc.map Prod.fst) st s := by
  induction ms generalizing acc with
  | nil => simp [flat, dictLoop, dictOf, M.pure_def']
  | cons m ms ih =>
    obtain ⟨k, v⟩ := m
    simp only [flat, dictLoop, M.bind_def, castName, M.pure_def', ih, dictOf]
    congr 1
    unfold dictInsert
    cases hl : acc.lookup k with
    | some w =>
      have hk : k ∈ acc.map Prod.fst := by
        by_contra hn
        rw [lookup_none.mpr hn] at hl
        cases hl
      simp only [List.filter_cons, hk, not_true_eq_false, decide_false, Bool.false_eq_true, if_false, List.filter_filter]
      congr 1
      apply List.filter_congr
      intro x _
      by_cases hx : x.1 = k
      · simp [hx, hk]
      · simp [hx]
    | none =>
      have hk := lookup_none.mp hl
      simp only [List.filter_cons, hk, not_false_eq_true, decide_true, if_true, List.filter_filter, List.append_assoc,
        List.singleton_append]
      congr 2
      apply List.filter_congr
      intro x _
      simp only [List.map_append, List.map_cons, List.map_nil, List.mem_append, List.mem_singleton]
      by_cases hx : x.1 = k <;> by_cases hy : x.1 ∈ acc.map Prod.fst <;> simp [hx, hy]

theorem Agrees.dict {E : Env D O S} {ev : List (Val D O) → Vm.M D O S Unit} (hN : E.num.Ok) (ms : List (Str × Val D O))
    (hl : ms.length < 2 ^ 31) (st : List (Val D O)) (s : S) :
    findOperator E ev dictionary_k (.num (E.num.ofU32 ms.length) :: ((flat ms).reverse ++ st)) s =
      .ok () (.dict (dictOf ms) :: st) s := by
  show dictionaryOperator _ _ _ = _
  have h := hN.u32 ms.length (by omega)
  have h2 : ms.length * 2 % 4294967296 = (flat ms).length := by rw [flat_length]; omega
  have h3 := dictLoop_flat ms [] ((flat ms).reverse ++ st) s
  simp only [List.nil_append, List.map_nil, List.not_mem_nil, not_false_eq_true, decide_true] at h3
  rw [List.filter_eq_self.mpr (fun _ _ => rfl)] at h3
  simp [dictionaryOperator, popAs, back, castVia, h, h2, M.bind_def, popBack, M.pure_def, M.pure_def', takeTop, dropTop, push, h3]

theorem evalList_length (E : Env D O S) (es : List (Expr D O)) (s : S) {vs : List (Val D O)} {s' : S}
    (h : evalList E es s = .ok vs s') : vs.length = es.length := by
  induction es generalizing s vs s' with
  | nil => simp only [evalList, Res.ok.injEq] at h; simp [← h.1]
  | cons e es ih =>
    simp only [evalList] at h
    cases he : eval E e s with
    | ok v s1 =>
      rw [he] at h
      simp only [Res.bind] at h
      cases hr : evalList E es s1 with
      | ok ws s2 =>
        rw [hr] at h
        simp only [Res.ok.injEq] at h
        simp [← h.1, ih s1 hr]
      | throw _ _ => rw [hr] at h; cases h
      | undef => rw [hr] at h; cases h
    | throw _ _ => rw [he] at h; cases h
    | undef => rw [he] at h; cases h

theorem evalMembers_length (E : Env D O S) (es : List (Str × Expr D O)) (s : S) {vs : List (Str × Val D O)} {s' : S}
    (h : evalMembers E es s = .ok vs s') : vs.length = es.length := by
  induction es generalizing s vs s' with
  | nil => simp only [evalMembers, Res.ok.injEq] at h; simp [← h.1]
  | cons e es ih =>
    simp only [evalMembers] at h
    cases he : eval E e.2 s with
    | ok v s1 =>
      rw [he] at h
      simp only [Res.bind] at h
      cases hr : evalMembers E es s1 with
      | ok ws s2 =>
        rw [hr] at h
        simp only [Res.ok.injEq] at h
        simp [← h.1, ih s1 hr]
      | throw _ _ => rw [hr] at h; cases h
      | undef => rw [hr] at h; cases h
    | throw _ _ => rw [he] at h; cases h
    | undef => rw [he] at h; cases h

/-- Only operators with two evaluated operands are overridden. -/
def OverridesOk (E : Env D O S) : Prop := ∀ n, E.override n ≠ none → Overridable n

theorem OverridesOk.none {E : Env D O S} (h : OverridesOk E) {n : Str} (hn : ¬ Overridable n) : E.override n = none := by
  by_contra hc
  exact hn (h n hc)

theorem not_over_un (op : UnOp) : ¬ Overridable (unName op) := by
  rintro (h | ⟨op', h⟩)
  · revert h; cases op <;> decide
  · cases op <;> cases op' <;> revert h <;> decide
theorem not_over_and : ¬ Overridable and_k := by
  rintro (h | ⟨op, h⟩)
  · revert h; decide
  · cases op <;> revert h <;> decide
theorem not_over_or : ¬ Overridable or_k := by
  rintro (h | ⟨op, h⟩)
  · revert h; decide
  · cases op <;> revert h <;> decide
theorem not_over_ifelse : ¬ Overridable ifelse_k := by
  rintro (h | ⟨op, h⟩)
  · revert h; decide
  · cases op <;> revert h <;> decide
theorem not_over_var : ¬ Overridable variable_k := by
  rintro (h | ⟨op, h⟩)
  · revert h; decide
  · cases op <;> revert h <;> decide
theorem not_over_fun : ¬ Overridable function_k := by
  rintro (h | ⟨op, h⟩)
  · revert h; decide
  · cases op <;> revert h <;> decide
theorem not_over_arr : ¬ Overridable array_k := by
  rintro (h | ⟨op, h⟩)
  · revert h; decide
  · cases op <;> revert h <;> decide
theorem not_over_dict : ¬ Overridable dictionary_k := by
  rintro (h | ⟨op, h⟩)
  · revert h; decide
  · cases op <;> revert h <;> decide

theorem Agrees.weaken {α : Type} {r : Spec.Res α S} {m : Vm.R D O S Unit} {st : List (Val D O)} {k k' : α → List (Val D O)}
    (h : Agrees r m st k) (hk : ∀ a, k a = k' a) : Agrees r m st k' := by
  have : k = k' := funext hk
  rwa [← this]

/-- Run the code of something, then more code. -/
theorem Agrees.seq {α β : Type} {r : Spec.Res α S} {E : Env D O S} {ev : List (Val D O) → Vm.M D O S Unit}
    {c1 c2 : List (Val D O)} {st : List (Val D O)} {s : S} (pre : List (Val D O))
    {k : α → List (Val D O)} {f : α → S → Spec.Res β S} {k' : β → List (Val D O)}
    (h : Agrees r (loop E ev c1 (pre ++ st) s) (pre ++ st) k)
    (h' : ∀ a s', r = .ok a s' → Agrees (f a s') (loop E ev c2 (k a ++ (pre ++ st)) s') st k') :
    Agrees (r.bind f) (loop E ev (c1 ++ c2) (pre ++ st) s) st k' := by
  rw [loop_append]
  exact Agrees.bind h h'

theorem noDot_num (d : D) : NoDotV (Val.num d : Val D O) := trivial
theorem noDot_arr (vs : List (Val D O)) : NoDotV (Val.arr vs : Val D O) := trivial

theorem opName_dot (op : BinOp) : (opName op).head? = some '.' := by cases op <;> decide
theorem unName_dot (op : UnOp) : (unName op).head? = some '.' := by cases op <;> decide

section
variable {E : Env D O S} {ev : List (Val D O) → Vm.M D O S Unit}

theorem loop_op_none {n : Str} (hn : n.head? = some '.') (ho : E.override n = none) (code st : List (Val D O)) (s : S)
    {st' : List (Val D O)} {s' : S} (h : findOperator E ev n st s = .ok () st' s') :
    loop E ev (.name n :: code) st s = loop E ev code st' s' := by
  rw [loop_op _ _ hn, ho]
  simp only [M.bind_def, h]

theorem logical_agrees {doAnd : Bool} {n : Str} (hn : findOperator E ev n = logicalOperator ev doAnd)
    (hd : n.head? = some '.') (ho : E.override n = none) {code : List (Val D O)} {f : S → Spec.Res (Val D O) S}
    (hc : ∀ st s, Agrees (f s) (ev code st s) st fun v => [v]) (v : Val D O) (st : List (Val D O)) (s : S) :
    Agrees ((boolean v s).bind fun p s => if p = doAnd then (f s).bind fun y s => (boolean y s).bind fun q s => .ok (.bool q) s
        else .ok (.bool p) s)
      (loop E ev [.arr code, .name n] (v :: st) s) st fun v => [v] := by
  rw [loop_push _ _ (noDot_arr _)]
  refine Agrees.op hd ho ?_
  rw [hn]
  cases v with
  | bool p =>
    simp only [boolean, Res.bind, logicalOperator, popAs, back, castArr, castBool, M.bind_def, M.pure_def, M.pure_def', popBack]
    by_cases hp : p = doAnd
    · simp only [hp, if_true, M.bind_def, popBack]
      have h := hc st s
      cases hf : f s with
      | ok y s' =>
        rw [hf] at h
        simp only [Agrees] at h
        simp only [h, List.singleton_append, Res.bind]
        cases y with
        | bool q => exact rfl
        | _ => exact ⟨[_], rfl⟩
      | throw e s' =>
        rw [hf] at h
        obtain ⟨ex, h⟩ := h
        simp only [h]
        exact ⟨ex, rfl⟩
      | undef =>
        rw [hf] at h
        simp only [Agrees] at h
        simp only [h, Res.bind, Agrees]
    · simp only [hp, if_false, M.pure_def]
      exact rfl
  | _ =>
    simp only [boolean, Res.bind, logicalOperator, popAs, back, castArr, castBool, M.bind_def, M.pure_def, M.pure_def', popBack,
      Vm.throw]
    exact ⟨[_], rfl⟩

theorem cond_agrees {n : Str} (hn : findOperator E ev n = ifelseOperator ev)
    (hd : n.head? = some '.') (ho : E.override n = none) {c1 c2 : List (Val D O)} {f1 f2 : S → Spec.Res (Val D O) S}
    (hc1 : ∀ st s, Agrees (f1 s) (ev c1 st s) st fun v => [v]) (hc2 : ∀ st s, Agrees (f2 s) (ev c2 st s) st fun v => [v])
    (v : Val D O) (st : List (Val D O)) (s : S) :
    Agrees ((boolean v s).bind fun p s => if p then f1 s else f2 s)
      (loop E ev [.arr c1, .arr c2, .name n] (v :: st) s) st fun v => [v] := by
  rw [loop_push _ _ (noDot_arr _), loop_push _ _ (noDot_arr _)]
  refine Agrees.op hd ho ?_
  rw [hn]
  cases v with
  | bool p =>
    simp only [boolean, Res.bind, ifelseOperator, popAs, back, castArr, castBool, M.bind_def, M.pure_def, M.pure_def', popBack]
    cases p
    · exact hc2 st s
    · exact hc1 st s
  | _ =>
    simp only [boolean, Res.bind, ifelseOperator, popAs, back, castArr, castBool, M.bind_def, M.pure_def, M.pure_def', popBack,
      Vm.throw]
    exact ⟨[_], rfl⟩
end

theorem res_bind_assoc {α β γ : Type} (r : Spec.Res α S) (f : α → S → Spec.Res β S) (g : β → S → Spec.Res γ S) :
    (r.bind f).bind g = r.bind fun a s => (f a s).bind g := by
  cases r <;> rfl

section
variable {E : Env D O S}

mutual
theorem vm_correct (hN : E.num.Ok) (hO : OverridesOk E) (e : Expr D O) (he : Plain e) (n : Nat) (hn : need e ≤ n)
    (st : List (Val D O)) (s : S) :
    Agrees (eval E e s) (loop E (evaluate E n) (compile E.num.ofU32 e) st s) st fun v => [v] := by
  match e with
  | .const v =>
    simp only [compile, eval]
    rw [loop_push _ _ (by simpa only [Plain] using he)]
    exact rfl
  | .var x =>
    simp only [compile]
    simp only [Plain] at he
    rw [loop_push _ _ (v := .name x) he]
    exact Agrees.op (by decide) (hO.none not_over_var) (Agrees.var x st s)
  | .call f [] =>
    simp only [compile, eval, evalList, Res.bind]
    simp only [Plain] at he
    rw [loop_push _ _ (noDot_arr _), loop_push _ _ (v := .name f) he.1]
    exact Agrees.op (by decide) (hO.none not_over_fun) (Agrees.call f [] st s)
  | .call f (e :: es) =>
    simp only [Plain] at he
    simp only [need] at hn
    have h := vm_list hN hO (e :: es) he.2.2 n hn st s
    have hc : compile E.num.ofU32 (Expr.call f (e :: es)) = compileList E.num.ofU32 (e :: es) ++
        [.num (E.num.ofU32 (e :: es).length), .name array_k, .name f, .name function_k] := by
      simp [compile, compileList]
    rw [hc]
    simp only [eval]
    refine Agrees.seq [] h ?_
    intro vs s' hv
    have hlen := evalList_length E _ s hv
    rw [loop_push _ _ (noDot_num _), ← hlen, List.nil_append,
      loop_op_none (by decide) (hO.none not_over_arr) _ _ _ (Agrees.array hN vs (by omega) st s'),
      loop_push _ _ (v := .name f) he.1]
    exact Agrees.op (by decide) (hO.none not_over_fun) (Agrees.call f vs st s')
  | .callNamed f ms =>
    simp only [Plain] at he
    simp only [need] at hn
    have h := vm_members hN hO ms he.2.2 n hn st s
    simp only [compile, eval]
    refine Agrees.seq [] h ?_
    intro vs s' hv
    have hlen := evalMembers_length E _ s hv
    rw [loop_push _ _ (noDot_num _), ← hlen, List.nil_append,
      loop_op_none (by decide) (hO.none not_over_dict) _ _ _ (Agrees.dict hN vs (by omega) st s'),
      loop_push _ _ (v := .name f) he.1]
    exact Agrees.op (by decide) (hO.none not_over_fun) (Agrees.callNamed f _ st s')
  | .array es =>
    simp only [Plain] at he
    simp only [need] at hn
    have h := vm_list hN hO es he.2 n hn st s
    simp only [compile, eval]
    refine Agrees.seq [] h ?_
    intro vs s' hv
    have hlen := evalList_length E _ s hv
    rw [loop_push _ _ (noDot_num _), ← hlen, List.nil_append,
      loop_op_none (by decide) (hO.none not_over_arr) _ _ _ (Agrees.array hN vs (by omega) st s')]
    exact rfl
  | .dict ms =>
    simp only [Plain] at he
    simp only [need] at hn
    have h := vm_members hN hO ms he.2 n hn st s
    simp only [compile, eval]
    refine Agrees.seq [] h ?_
    intro vs s' hv
    have hlen := evalMembers_length E _ s hv
    rw [loop_push _ _ (noDot_num _), ← hlen, List.nil_append,
      loop_op_none (by decide) (hO.none not_over_dict) _ _ _ (Agrees.dict hN vs (by omega) st s')]
    exact rfl
  | .un op e =>
    simp only [Plain] at he
    simp only [need] at hn
    simp only [compile, eval]
    refine Agrees.seq [] (vm_correct hN hO e he n hn st s) ?_
    intro v s' _
    exact Agrees.op (unName_dot op) (hO.none (not_over_un op)) (Agrees.unary hN op v st s')
  | .bin op a b =>
    simp only [Plain] at he
    simp only [need] at hn
    simp only [compile, eval]
    refine Agrees.seq [] (vm_correct hN hO a he.1 n (by omega) st s) ?_
    intro x s1 _
    refine Agrees.seq [x] (vm_correct hN hO b he.2 n (by omega) (x :: st) s1) ?_
    intro y s2 _
    exact Agrees.op2 (opName_dot op) (Agrees.binary op x y st s2)
  | .index a i =>
    simp only [Plain] at he
    simp only [need] at hn
    simp only [compile, eval]
    refine Agrees.seq [] (vm_correct hN hO a he.1 n (by omega) st s) ?_
    intro x s1 _
    refine Agrees.seq [x] (vm_correct hN hO i he.2 n (by omega) (x :: st) s1) ?_
    intro y s2 _
    exact Agrees.op2 (by decide) (Agrees.index x y st s2)
  | .and a b =>
    simp only [Plain] at he
    simp only [need] at hn
    simp only [compile, eval]
    refine Agrees.seq [] (vm_correct hN hO a he.1 n (by omega) st s) ?_
    intro x s1 _
    obtain ⟨m, rfl⟩ : ∃ m, n = m + 1 := ⟨n - 1, by omega⟩
    have hb := fun st s => vm_correct hN hO b he.2 m (by omega) st s
    have := logical_agrees (E := E) (ev := evaluate E (m + 1)) (doAnd := true) (n := and_k) rfl (by decide) (hO.none not_over_and)
      (code := compile E.num.ofU32 b) (f := eval E b) hb x st s1
    refine cast ?_ this
    congr 1
    congr 1
    funext p s
    cases p <;> rfl
  | .or a b =>
    simp only [Plain] at he
    simp only [need] at hn
    simp only [compile, eval]
    refine Agrees.seq [] (vm_correct hN hO a he.1 n (by omega) st s) ?_
    intro x s1 _
    obtain ⟨m, rfl⟩ : ∃ m, n = m + 1 := ⟨n - 1, by omega⟩
    have hb := fun st s => vm_correct hN hO b he.2 m (by omega) st s
    have := logical_agrees (E := E) (ev := evaluate E (m + 1)) (doAnd := false) (n := or_k) rfl (by decide) (hO.none not_over_or)
      (code := compile E.num.ofU32 b) (f := eval E b) hb x st s1
    refine cast ?_ this
    congr 1
    congr 1
    funext p s
    cases p <;> rfl
  | .cond c a b =>
    simp only [Plain] at he
    simp only [need] at hn
    simp only [compile, eval]
    refine Agrees.seq [] (vm_correct hN hO c he.1 n (by omega) st s) ?_
    intro x s1 _
    obtain ⟨m, rfl⟩ : ∃ m, n = m + 1 := ⟨n - 1, by omega⟩
    have ha := fun st s => vm_correct hN hO a he.2.1 m (by omega) st s
    have hb := fun st s => vm_correct hN hO b he.2.2 m (by omega) st s
    exact cond_agrees (E := E) (ev := evaluate E (m + 1)) (n := ifelse_k) rfl (by decide) (hO.none not_over_ifelse)
      (c1 := compile E.num.ofU32 a) (c2 := compile E.num.ofU32 b) (f1 := eval E a) (f2 := eval E b) ha hb x st s1
theorem vm_list (hN : E.num.Ok) (hO : OverridesOk E) (es : List (Expr D O)) (he : PlainList es) (n : Nat) (hn : needList es ≤ n)
    (st : List (Val D O)) (s : S) :
    Agrees (evalList E es s) (loop E (evaluate E n) (compileList E.num.ofU32 es) st s) st fun vs => vs.reverse := by
  match es with
  | [] => exact rfl
  | e :: es =>
    simp only [PlainList] at he
    simp only [needList] at hn
    simp only [compileList, evalList]
    refine Agrees.seq [] (vm_correct hN hO e he.1 n (by omega) st s) ?_
    intro x s1 _
    have h := vm_list hN hO es he.2 n (by omega) (x :: st) s1
    have h' := h
    cases hr : evalList E es s1 with
    | ok vs s2 =>
      rw [hr] at h
      simp only [Agrees] at h
      simp only [List.nil_append, List.singleton_append, Res.bind, Agrees, h]
      simp
    | throw e s2 =>
      rw [hr] at h
      obtain ⟨ex, h⟩ := h
      simp only [List.nil_append, List.singleton_append, Res.bind, Agrees, h]
      exact ⟨ex ++ [x], by simp⟩
    | undef =>
      rw [hr] at h
      simp only [Agrees] at h
      simp only [List.nil_append, List.singleton_append, Res.bind, Agrees, h]
theorem vm_members (hN : E.num.Ok) (hO : OverridesOk E) (ms : List (Str × Expr D O)) (he : PlainMembers ms) (n : Nat)
    (hn : needMembers ms ≤ n) (st : List (Val D O)) (s : S) :
    Agrees (evalMembers E ms s) (loop E (evaluate E n) (compileMembers E.num.ofU32 ms) st s) st fun vs => (flat vs).reverse := by
  match ms with
  | [] => exact rfl
  | (k, e) :: ms =>
    simp only [PlainMembers] at he
    simp only [needMembers] at hn
    simp only [compileMembers, evalMembers]
    rw [loop_push _ _ (v := .name k) he.1]
    refine Agrees.seq [.name k] (vm_correct hN hO e he.2.1 n (by omega) (.name k :: st) s) ?_
    intro x s1 _
    have h := vm_members hN hO ms he.2.2 n (by omega) (x :: .name k :: st) s1
    cases hr : evalMembers E ms s1 with
    | ok vs s2 =>
      rw [hr] at h
      simp only [Agrees] at h
      simp only [List.singleton_append, Res.bind, Agrees, h]
      simp [flat]
    | throw e s2 =>
      rw [hr] at h
      obtain ⟨ex, h⟩ := h
      simp only [List.singleton_append, Res.bind, Agrees, h]
      exact ⟨ex ++ [x, .name k], by simp⟩
    | undef =>
      rw [hr] at h
      simp only [Agrees] at h
      simp only [List.singleton_append, Res.bind, Agrees, h]
end
end

end Verif.Expr
