import Verif.Expr.Spec
import Verif.Expr.Vm
/-
Postfix code of an expression, and the proof that the machine computes its meaning.
-/
namespace Verif.Expr
open Spec Vm

variable {D O S : Type}

def unName : UnOp → Str
  | .not => not_k
  | .neg => unary_negate_k
  | .bitNot => bitwise_negate_k

mutual
def compile (ofCount : Nat → D) : Expr D O → List (Val D O)
  | .const v => [v]
  | .var n => [.name n, .name variable_k]
  | .call f [] => [.arr [], .name f, .name function_k]
  | .call f (e :: es) => compile ofCount e ++ (compileList ofCount es ++
      [.num (ofCount (es.length + 1)), .name array_k, .name f, .name function_k])
  | .callNamed f ms => compileMembers ofCount ms ++ [.num (ofCount ms.length), .name dictionary_k, .name f, .name function_k]
  | .array es => compileList ofCount es ++ [.num (ofCount es.length), .name array_k]
  | .dict ms => compileMembers ofCount ms ++ [.num (ofCount ms.length), .name dictionary_k]
  | .un op e => compile ofCount e ++ [.name (unName op)]
  | .bin op a b => compile ofCount a ++ (compile ofCount b ++ [.name (opName op)])
  | .and a b => compile ofCount a ++ [.arr (compile ofCount b), .name and_k]
  | .or a b => compile ofCount a ++ [.arr (compile ofCount b), .name or_k]
  | .cond c a b => compile ofCount c ++ [.arr (compile ofCount a), .arr (compile ofCount b), .name ifelse_k]
  | .index a i => compile ofCount a ++ (compile ofCount i ++ [.name index_k])
def compileList (ofCount : Nat → D) : List (Expr D O) → List (Val D O)
  | [] => []
  | e :: es => compile ofCount e ++ compileList ofCount es
def compileMembers (ofCount : Nat → D) : List (Str × Expr D O) → List (Val D O)
  | [] => []
  | (n, e) :: ms => .name n :: (compile ofCount e ++ compileMembers ofCount ms)
end

mutual
/-- How deep `evaluate` calls itself. -/
def need : Expr D O → Nat
  | .const _ => 0
  | .var _ => 0
  | .call _ es => needList es
  | .callNamed _ ms => needMembers ms
  | .array es => needList es
  | .dict ms => needMembers ms
  | .un _ e => need e
  | .bin _ a b => max (need a) (need b)
  | .and a b => max (need a) (need b + 1)
  | .or a b => max (need a) (need b + 1)
  | .cond c a b => max (need c) (max (need a) (need b) + 1)
  | .index a i => max (need a) (need i)
def needList : List (Expr D O) → Nat
  | [] => 0
  | e :: es => max (need e) (needList es)
def needMembers : List (Str × Expr D O) → Nat
  | [] => 0
  | (_, e) :: ms => max (need e) (needMembers ms)
end

/-- Not the name of an operator. -/
def NoDot (n : Str) : Prop := n.head? ≠ some '.'

def NoDotV : Val D O → Prop
  | .name n => NoDot n
  | _ => True

mutual
/-- Expressions as they can be written: no operator names among the identifiers, no list with 2³¹ elements. -/
def Plain : Expr D O → Prop
  | .const v => NoDotV v
  | .var n => NoDot n
  | .call f es => NoDot f ∧ es.length < 2 ^ 31 ∧ PlainList es
  | .callNamed f ms => NoDot f ∧ ms.length < 2 ^ 31 ∧ PlainMembers ms
  | .array es => es.length < 2 ^ 31 ∧ PlainList es
  | .dict ms => ms.length < 2 ^ 31 ∧ PlainMembers ms
  | .un _ e => Plain e
  | .bin _ a b => Plain a ∧ Plain b
  | .and a b => Plain a ∧ Plain b
  | .or a b => Plain a ∧ Plain b
  | .cond c a b => Plain c ∧ Plain a ∧ Plain b
  | .index a i => Plain a ∧ Plain i
def PlainList : List (Expr D O) → Prop
  | [] => True
  | e :: es => Plain e ∧ PlainList es
def PlainMembers : List (Str × Expr D O) → Prop
  | [] => True
  | (n, e) :: ms => NoDot n ∧ Plain e ∧ PlainMembers ms
end

/-- The machine `m`, started on the stack `st`, does what the meaning `r` says: on a value it leaves `k` of it on top of
`st`, an exception passes on the error and leaves `st` at the bottom. -/
def Agrees {α : Type} (r : Spec.Res α S) (m : Vm.R D O S Unit) (st : List (Val D O)) (k : α → List (Val D O)) : Prop :=
  match r with
  | .ok a s => m = .ok () (k a ++ st) s
  | .throw e s => ∃ extra, m = .throw e (extra ++ st) s
  | .undef => m = .ub

theorem M.bind_def {α β : Type} (x : Vm.M D O S α) (f : α → Vm.M D O S β) (st : List (Val D O)) (s : S) :
    (x >>= f) st s = match x st s with
      | .ok a st s => f a st s
      | .throw e st s => .throw e st s
      | .ub => .ub
      | .fuel => .fuel := rfl

theorem M.pure_def {α : Type} (a : α) (st : List (Val D O)) (s : S) : (pure a : Vm.M D O S α) st s = .ok a st s := rfl

theorem M.pure_def' {α : Type} (a : α) (st : List (Val D O)) (s : S) : (Vm.M.pure a : Vm.M D O S α) st s = .ok a st s := rfl

theorem Agrees.bind {α β : Type} {r : Spec.Res α S} {x : Vm.M D O S Unit} {pre st : List (Val D O)} {s : S}
    {k : α → List (Val D O)} {f : α → S → Spec.Res β S} {y : Unit → Vm.M D O S Unit} {k' : β → List (Val D O)}
    (h : Agrees r (x (pre ++ st) s) (pre ++ st) k)
    (h' : ∀ a s', r = .ok a s' → Agrees (f a s') (y () (k a ++ (pre ++ st)) s') st k') :
    Agrees (r.bind f) ((x >>= y) (pre ++ st) s) st k' := by
  rw [M.bind_def]
  cases r with
  | ok a s' =>
    simp only [Agrees] at h
    rw [h]
    exact h' a s' rfl
  | throw e s' =>
    obtain ⟨ex, hx⟩ := h
    rw [hx]
    exact ⟨ex ++ pre, by simp⟩
  | undef =>
    simp only [Agrees] at h
    rw [h]
    rfl

theorem loop_append (E : Env D O S) (ev : List (Val D O) → Vm.M D O S Unit) (a b : List (Val D O)) (st : List (Val D O)) (s : S) :
    loop E ev (a ++ b) st s = (loop E ev a >>= fun _ => loop E ev b) st s := by
  induction a generalizing st s with
  | nil => rfl
  | cons e es ih =>
    rw [List.cons_append, loop, M.bind_def, M.bind_def, loop, M.bind_def]
    cases h : step E ev e st s <;> simp only [ih, M.bind_def]

/-- One value that is not an operator. -/
theorem loop_push (E : Env D O S) (ev : List (Val D O) → Vm.M D O S Unit) {v : Val D O} (hv : NoDotV v)
    (code : List (Val D O)) (st : List (Val D O)) (s : S) :
    loop E ev (v :: code) st s = loop E ev code (v :: st) s := by
  rw [loop, M.bind_def]
  cases v <;> first | rfl | skip
  rename_i n
  have : ¬ n.head? = some '.' := hv
  simp only [step, this, if_false]
  rfl

theorem loop_op (E : Env D O S) (ev : List (Val D O) → Vm.M D O S Unit) {n : Str} (hn : n.head? = some '.')
    (code : List (Val D O)) (st : List (Val D O)) (s : S) :
    loop E ev (.name n :: code) st s = (match E.override n with
      | none => (findOperator E ev n >>= fun _ => loop E ev code) st s
      | some f => (do
          let (a, b) ← top2
          set2 (← call (f a b))
          loop E ev code) st s) := by
  rw [loop, M.bind_def]
  simp only [step, hn, if_true, operatorOverride]
  cases E.override n with
  | none => rfl
  | some f =>
    simp only [M.bind_def]
    rcases st with _ | ⟨b, _ | ⟨a, st⟩⟩
    · rfl
    · rfl
    · simp only [top2, call]
      cases f a b s <;> rfl

theorem Agrees.one {α : Type} {r : Spec.Res α S} {m : Vm.R D O S Unit} {st : List (Val D O)} {k : α → List (Val D O)}
    (f : Vm.M D O S Unit) (hf : ∀ st s, f st s = .ok () st s) {x : Vm.M D O S Unit} {st0 s0}
    (hm : m = (x >>= fun _ => f) st0 s0) (h : Agrees r (x st0 s0) st k) : Agrees r m st k := by
  subst hm
  rw [M.bind_def]
  cases r with
  | ok a s => simp only [Agrees] at h ⊢; rw [h]; simp [hf]
  | throw e s => obtain ⟨ex, h⟩ := h; rw [h]; exact ⟨ex, rfl⟩
  | undef => simp only [Agrees] at h ⊢; rw [h]

/-- An operator at the end of the code that is not overridden. -/
theorem Agrees.op {α : Type} {r : Spec.Res α S} {st : List (Val D O)} {k : α → List (Val D O)} {E : Env D O S}
    {ev : List (Val D O) → Vm.M D O S Unit} {n : Str} {st0 s0} (hn : n.head? = some '.') (ho : E.override n = none)
    (h : Agrees r (findOperator E ev n st0 s0) st k) : Agrees r (loop E ev [.name n] st0 s0) st k := by
  refine Agrees.one (loop E ev []) (fun _ _ => rfl) ?_ h
  rw [loop_op _ _ hn, ho]

/-- A binary operator at the end of the code, overridden or not. -/
theorem Agrees.op2 {st : List (Val D O)} {E : Env D O S} {a b : Val D O}
    {ev : List (Val D O) → Vm.M D O S Unit} {n : Str} {s : S} {f : Val D O → Val D O → S → Spec.Res (Val D O) S}
    (hn : n.head? = some '.')
    (h : Agrees (f a b s) (findOperator E ev n (b :: a :: st) s) st fun v => [v]) :
    Agrees (overridden E n f a b s) (loop E ev [.name n] (b :: a :: st) s) st fun v => [v] := by
  unfold overridden
  cases ho : E.override n with
  | none => exact Agrees.op hn ho h
  | some g =>
    simp only
    rw [loop_op _ _ hn, ho]
    simp only [M.bind_def, top2, call]
    cases g a b s with
    | ok v s => rfl
    | throw e s => exact ⟨[b, a], rfl⟩

theorem Agrees.binary {E : Env D O S} {ev : List (Val D O) → Vm.M D O S Unit} (op : BinOp) (a b : Val D O)
    (st : List (Val D O)) (s : S) :
    Agrees (binary E.num E.eqO op a b s) (findOperator E ev (opName op) (b :: a :: st) s) st fun v => [v] := by
  have hA : ∀ f : D → D → D, Agrees (Spec.arith f a b s) (Vm.arith f (b :: a :: st) s) st fun v => [v] := by
    intro f
    cases a <;> cases b <;> first | exact rfl | exact ⟨[_, _], rfl⟩
  have hR : ∀ f : D → D → Bool, Agrees (Spec.compare f a b s) (Vm.relation f (b :: a :: st) s) st fun v => [v] := by
    intro f
    cases a <;> cases b <;> first | exact rfl | exact ⟨[_, _], rfl⟩
  have hB : ∀ f : Nat → Nat → Option Nat,
      Agrees (Spec.bits E.num f a b s) (bitwiseBinary E f (b :: a :: st) s) st fun v => [v] := by
    intro f
    cases b with
    | num d =>
      cases hd : E.num.toU32 d with
      | none => simp [Spec.bits, Spec.u32, hd, Res.bind, Agrees, bitwiseBinary, popAs, back, castVia, M.bind_def, ub]
      | some y =>
        cases a with
        | num d' =>
          cases hd' : E.num.toU32 d' with
          | none =>
            simp [Spec.bits, Spec.u32, hd, hd', Res.bind, Agrees, bitwiseBinary, popAs, back, castVia, M.bind_def, ub, popBack,
              M.pure_def, M.pure_def']
          | some x =>
            cases hf : f x y <;>
            simp [Spec.bits, Spec.u32, hd, hd', hf, Res.bind, Agrees, bitwiseBinary, popAs, back, castVia, M.bind_def, ub, popBack,
              M.pure_def, M.pure_def', push]
        | _ =>
          simp [Spec.bits, Spec.u32, hd, Res.bind, Agrees, bitwiseBinary, popAs, back, castVia, M.bind_def, popBack,
            M.pure_def, M.pure_def', Vm.throw]
          try exact ⟨[_], rfl⟩
    | _ => exact ⟨[_, _], rfl⟩
  cases op with
  | add => exact hA _
  | sub => exact hA _
  | mul => exact hA _
  | div => exact hA _
  | mod =>
    show Agrees _ (binaryOperator _ _ _ _) _ _
    cases a with
    | num d =>
      cases hd : E.num.toI32 d with
      | none =>
        simp [Spec.binary, Spec.i32, hd, Res.bind, Agrees, binaryOperator, top2, castVia, M.bind_def, ub]
      | some x =>
        cases b with
        | num d' =>
          cases hd' : E.num.toI32 d' with
          | none =>
            simp [Spec.binary, Spec.i32, hd, hd', Res.bind, Agrees, binaryOperator, top2, castVia, M.bind_def, ub, M.pure_def']
          | some y =>
            by_cases hc : y = 0 ∨ x = -2147483648 ∧ y = -1 <;>
            simp [Spec.binary, Spec.i32, hd, hd', Res.bind, Agrees, binaryOperator, top2, castVia, M.bind_def, ub, M.pure_def',
              set2, hc]
        | _ =>
          simp [Spec.binary, Spec.i32, hd, Res.bind, Agrees, binaryOperator, top2, castVia, M.bind_def, M.pure_def',
            Vm.throw]
          exact ⟨[_, _], rfl⟩
    | _ => exact ⟨[_, _], rfl⟩
  | lt => exact hR _
  | gt => exact hR _
  | le => exact hR _
  | ge => exact hR _
  | eq => exact rfl
  | ne => exact rfl
  | bitAnd => exact hB fun x y => some (x &&& y)
  | bitOr => exact hB fun x y => some (x ||| y)
  | bitXor => exact hB fun x y => some (x ^^^ y)
  | shl =>
    have : (fun x y => if y < 32 then some ((x <<< y) % 2 ^ 32) else none : Nat → Nat → Option Nat) =
        fun x y => if y < 32 then some (x * 2 ^ y % 2 ^ 32) else none := by
      funext x y
      rw [Nat.shiftLeft_eq]
    show Agrees _ (bitwiseBinary _ (fun x y => if y < 32 then some ((x <<< y) % 2 ^ 32) else none) _ _) _ _
    rw [this]
    exact hB _
  | shr =>
    have : (fun x y => if y < 32 then some (x >>> y) else none : Nat → Nat → Option Nat) =
        fun x y => if y < 32 then some (x / 2 ^ y) else none := by
      funext x y
      rw [Nat.shiftRight_eq_div_pow]
    show Agrees _ (bitwiseBinary _ (fun x y => if y < 32 then some (x >>> y) else none) _ _) _ _
    rw [this]
    exact hB _

theorem xor_all (n : Nat) (h : n < 2 ^ 32) : n ^^^ 0xFFFFFFFF = 2 ^ 32 - 1 - n := by
  have h1 : (BitVec.ofNat 32 n ^^^ BitVec.allOnes 32).toNat = n ^^^ 0xFFFFFFFF := by
    rw [BitVec.toNat_xor, BitVec.toNat_ofNat, Nat.mod_eq_of_lt h, BitVec.toNat_allOnes]
  rw [← h1, BitVec.xor_allOnes, BitVec.toNat_not, BitVec.toNat_ofNat, Nat.mod_eq_of_lt h]

theorem Agrees.unary {E : Env D O S} {ev : List (Val D O) → Vm.M D O S Unit} (hN : E.num.Ok) (op : UnOp) (a : Val D O)
    (st : List (Val D O)) (s : S) :
    Agrees (unary E.num op a s) (findOperator E ev (unName op) (a :: st) s) st fun v => [v] := by
  cases op with
  | not =>
    show Agrees _ (unaryOperator _ _ _ _) _ _
    cases a <;> first | exact rfl | exact ⟨[_], rfl⟩
  | neg =>
    show Agrees _ (unaryOperator _ _ _ _) _ _
    cases a <;> first | exact rfl | exact ⟨[_], rfl⟩
  | bitNot =>
    show Agrees _ (bitwiseNegate _ _ _) _ _
    cases a with
    | num d =>
      cases hd : E.num.toU32 d with
      | none => simp [Spec.unary, Spec.u32, hd, Res.bind, Agrees, bitwiseNegate, popAs, back, castVia, M.bind_def, ub]
      | some n =>
        have := xor_all n (hN.u32_lt d n hd)
        simp [Spec.unary, Spec.u32, hd, Res.bind, Agrees, bitwiseNegate, popAs, back, castVia, M.bind_def, popBack, M.pure_def,
          M.pure_def', push]
        exact congrArg _ (by simpa using this)
    | _ => exact ⟨[_], rfl⟩

theorem Agrees.index {E : Env D O S} {ev : List (Val D O) → Vm.M D O S Unit} (a b : Val D O)
    (st : List (Val D O)) (s : S) :
    Agrees (indexValue E a b s) (findOperator E ev index_k (b :: a :: st) s) st fun v => [v] := by
  show Agrees _ (indexOperator _ _ _) _ _
  cases b with
  | name n =>
    cases hx : E.namedIndex with
    | some g =>
      cases hg : g a n s with
      | ok v s' => simp [indexValue, hx, hg, ofCall, Agrees, indexOperator, top2, M.bind_def, call, set2]
      | throw e s' =>
        simp [indexValue, hx, hg, ofCall, Agrees, indexOperator, top2, M.bind_def, call]
        exact ⟨[_, _], rfl⟩
    | none =>
      cases a with
      | dict ms =>
        cases hl : ms.lookup n with
        | some v => simp [indexValue, hx, hl, Agrees, indexOperator, top2, M.bind_def, castDict, M.pure_def', set2]
        | none =>
          simp [indexValue, hx, hl, Agrees, indexOperator, top2, M.bind_def, castDict, M.pure_def', Vm.throw]
          exact ⟨[_, _], rfl⟩
      | _ =>
        simp [indexValue, hx, Agrees, indexOperator, top2, M.bind_def, castDict, Vm.throw]
        exact ⟨[_, _], rfl⟩
  | num d =>
    cases hd : E.num.toSize d with
    | none => simp [indexValue, hd, Agrees, indexOperator, top2, M.bind_def, castVia, ub]
    | some k =>
      cases hx : E.numIndex with
      | some g =>
        cases hg : g a k s with
        | ok v s' =>
          simp [indexValue, hx, hg, hd, ofCall, Agrees, indexOperator, top2, M.bind_def, call, set2, castVia, M.pure_def']
        | throw e s' =>
          simp [indexValue, hx, hg, hd, ofCall, Agrees, indexOperator, top2, M.bind_def, call, castVia, M.pure_def']
          exact ⟨[_, _], rfl⟩
      | none =>
        cases a with
        | arr vs =>
          by_cases hk : k < vs.length
          · simp [indexValue, hx, hd, hk, Agrees, indexOperator, top2, M.bind_def, castVia, castArr, M.pure_def', set2]
          · simp [indexValue, hx, hd, hk, Agrees, indexOperator, top2, M.bind_def, castVia, castArr, M.pure_def', Vm.throw]
            exact ⟨[_, _], rfl⟩
        | _ =>
          simp [indexValue, hx, hd, Agrees, indexOperator, top2, M.bind_def, castVia, castArr, Vm.throw, M.pure_def']
          exact ⟨[_, _], rfl⟩
  | _ => exact ⟨[_, _], rfl⟩

theorem Agrees.var {E : Env D O S} {ev : List (Val D O) → Vm.M D O S Unit} (n : Str) (st : List (Val D O)) (s : S) :
    Agrees (eval E (.var n) s) (findOperator E ev variable_k (.name n :: st) s) st fun v => [v] := by
  show Agrees _ (variableOperator _ _ _) _ _
  unfold eval
  cases hx : E.var with
  | some g =>
    cases hg : g n s with
    | ok v s' => simp [hg, ofCall, Agrees, variableOperator, back, castName, hx, M.bind_def, popBack, M.pure_def', call, push]
    | throw e s' =>
      simp [hg, ofCall, Agrees, variableOperator, back, castName, hx, M.bind_def, popBack, M.pure_def', call]
  | none => simp [Agrees, variableOperator, back, castName, hx, M.bind_def, popBack, M.pure_def', Vm.throw]

theorem elementLoop_best (E : Env D O S) (isMin : Bool) (better : D → D → Bool)
    (hb : ∀ x y, better x y = if isMin then E.num.lt x y else E.num.lt y x) (vs : List (Val D O)) (cur : Val D O)
    (st : List (Val D O)) (s : S) :
    elementLoop isMin E cur vs st s = match best better cur vs s with
      | .ok v s => .ok v st s
      | .throw e s => .throw e st s
      | .undef => .ub := by
  induction vs generalizing cur with
  | nil => rfl
  | cons v vs ih =>
    cases v with
    | num x =>
      cases cur with
      | num y =>
        simp only [elementLoop, best, M.bind_def, castNum, M.pure_def', number, Res.bind, hb]
        rw [ih]
      | _ => simp [elementLoop, best, M.bind_def, castNum, M.pure_def', number, Res.bind, Vm.throw]
    | _ => simp [elementLoop, best, M.bind_def, castNum, number, Res.bind, Vm.throw]

/-- The function of the table does what the specification says. -/
theorem arrayFunction_builtin (E : Env D O S) (f : Str) (args : List (Val D O)) (st : List (Val D O)) (s : S) :
    (arrayFunction E f args).map (fun g => g st s) = (builtin E f args s).map fun r => match r with
      | .ok v s => .ok v st s
      | .throw e s => .throw e st s
      | .undef => .ub := by
  unfold arrayFunction builtin
  split
  · rcases args with _ | ⟨v, vs⟩
    · rfl
    · cases v <;> rfl
  split
  · rcases args with _ | ⟨v, vs⟩
    · rfl
    · simp only [Option.map_some, elementLoop_best E true E.num.lt (fun _ _ => rfl)]
  split
  · rcases args with _ | ⟨v, vs⟩
    · rfl
    · simp only [Option.map_some, elementLoop_best E false (fun x y => E.num.lt y x) (fun _ _ => rfl)]
  split
  · rcases args with _ | ⟨v, vs⟩
    · rfl
    · cases v <;> rfl
  split
  · rcases args with _ | ⟨v, _ | ⟨w, vs⟩⟩
    · rfl
    · cases v <;> rfl
    · cases v <;> rfl
  split
  · rcases args with _ | ⟨v, _ | ⟨w, vs⟩⟩
    · rfl
    · cases v <;> rfl
    · cases v <;> rfl
  split
  · rcases args with _ | ⟨v, _ | ⟨w, vs⟩⟩
    · rfl
    · cases v <;> try rfl
      rename_i x
      cases hx : E.unescape x <;> simp [hx, M.pure_def', Vm.throw]
    · cases v <;> rfl
  · rfl

theorem Agrees.call {E : Env D O S} {ev : List (Val D O) → Vm.M D O S Unit} (f : Str) (args : List (Val D O))
    (st : List (Val D O)) (s : S) :
    Agrees (callValue E f args s) (findOperator E ev function_k (.name f :: .arr args :: st) s) st fun v => [v] := by
  show Agrees _ (functionOperator _ _ _) _ _
  have h := arrayFunction_builtin E f args (.arr args :: st) s
  simp only [functionOperator, back, M.bind_def, castName, M.pure_def', popBack, callValue]
  cases hb : builtin E f args s with
  | some r =>
    cases ha : arrayFunction E f args with
    | none => simp [ha, hb] at h
    | some g =>
      simp only [ha, hb, Option.map_some, Option.some.injEq] at h
      cases r with
      | ok v s' => simp [M.bind_def, h, setBack, Agrees]
      | throw e s' => simp only [M.bind_def, h, Agrees]; exact ⟨[_], rfl⟩
      | undef => simp [M.bind_def, h, Agrees]
  | none =>
    cases ha : arrayFunction E f args with
    | some g => simp [ha, hb] at h
    | none =>
      cases hx : E.arrFn with
      | some g =>
        cases hg : g f args s with
        | ok v s' => simp [M.bind_def, Vm.call, hg, ofCall, setBack, Agrees]
        | throw e s' => simp only [M.bind_def, Vm.call, hg, ofCall, Agrees]; exact ⟨[_], rfl⟩
      | none => simp only [Vm.throw, Agrees]; exact ⟨[_], rfl⟩

theorem getNum_member (ms : List (Str × Val D O)) (n : Str) (d : D) : getNum ms n d = member ms n d := by
  unfold getNum member
  cases h : ms.lookup n with
  | none => simp [h]
  | some v => cases v <;> simp [h]

theorem Agrees.callNamed {E : Env D O S} {ev : List (Val D O) → Vm.M D O S Unit} (f : Str) (args : List (Str × Val D O))
    (st : List (Val D O)) (s : S) :
    Agrees (callNamedValue E f args s) (findOperator E ev function_k (.name f :: .dict args :: st) s) st fun v => [v] := by
  show Agrees _ (functionOperator _ _ _) _ _
  simp only [functionOperator, back, M.bind_def, castName, M.pure_def', popBack, callNamedValue, castDict]
  by_cases hf : f = "scale".toList
  · simp only [builtinNamed, dictionaryFunction, if_pos hf, getNum_member]
    exact rfl
  · simp only [builtinNamed, dictionaryFunction, if_neg hf]
    cases hx : E.dictFn with
    | some g =>
      cases hg : g f args s with
      | ok v s' => simp [M.bind_def, Vm.call, hg, ofCall, setBack, Agrees]
      | throw e s' => simp only [M.bind_def, Vm.call, hg, ofCall, Agrees]; exact ⟨[_], rfl⟩
    | none => simp only [Vm.throw, Agrees]; exact ⟨[_], rfl⟩

end Verif.Expr
