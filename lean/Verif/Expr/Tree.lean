import Verif.Expr.Vm
/-!
The virtual machine asks for variables one after the other: what it does between two questions depends on the code and the answers only.
A computation of the machine, for every state of the world and every lookup of variables, is a tree of questions.
-/
namespace Verif.Expr.Vm
open Verif.Expr

variable {D O α β : Type}

/-- The questions, and how it ends.  A question carries the stack, which an exception of the lookup leaves. -/
inductive Tree (D O α : Type) where
  | ok (a : α) (st : List (Val D O))
  | throw (e : Err) (st : List (Val D O))
  | ub
  | fuel
  | ask (n : Str) (st : List (Val D O)) (k : Val D O → Tree D O α)

def Tree.run {S : Type} (g : Str → S → Call D O S) : Tree D O α → S → R D O S α
  | .ok a st, s => .ok a st s
  | .throw e st, s => .throw e st s
  | .ub, _ => .ub
  | .fuel, _ => .fuel
  | .ask n st k, s => match g n s with
    | .ok v s' => (k v).run g s'
    | .throw e s' => .throw e st s'

def Tree.bind (f : α → List (Val D O) → Tree D O β) : Tree D O α → Tree D O β
  | .ok a st => f a st
  | .throw e st => .throw e st
  | .ub => .ub
  | .fuel => .fuel
  | .ask n st k => .ask n st fun v => (k v).bind f

/-- The clients of a machine whose functions, other than the lookup of variables, do not look at the world. -/
structure PureEnv (D O : Type) where
  num : Num D
  eqO : O → O → Bool
  typeO : O → Str
  arrFn : Option (Str → List (Val D O) → Except Err (Val D O))
  dictFn : Option (Str → List (Str × Val D O) → Except Err (Val D O))
  namedIndex : Option (Val D O → Str → Except Err (Val D O))
  numIndex : Option (Val D O → Nat → Except Err (Val D O))
  override : Str → Option (Val D O → Val D O → Except Err (Val D O))
  localize : Str → Str
  escape : Str → Str
  unescape : Str → Option Str

/-- The exceptions of the machine itself and of the functions which are not the lookup. -/
def Own (e : Err) : Prop := ∀ c, e ≠ .client c

/-- What is asked of the other clients: their exceptions can be told from those of the lookup. -/
structure PureEnv.Own (P : PureEnv D O) : Prop where
  arrFn : ∀ f, P.arrFn = some f → ∀ n a e, f n a = .error e → Vm.Own e
  dictFn : ∀ f, P.dictFn = some f → ∀ n a e, f n a = .error e → Vm.Own e
  namedIndex : ∀ f, P.namedIndex = some f → ∀ n a e, f n a = .error e → Vm.Own e
  numIndex : ∀ f, P.numIndex = some f → ∀ n a e, f n a = .error e → Vm.Own e
  override : ∀ n f, P.override n = some f → ∀ a b e, f a b = .error e → Vm.Own e

/-- The exceptions at the leaves are those of the machine. -/
def Tree.Own : Tree D O α → Prop
  | .throw e _ => Vm.Own e
  | .ask _ _ k => ∀ v, (k v).Own
  | _ => True

def liftCall {S : Type} (r : Except Err (Val D O)) (s : S) : Call D O S :=
  match r with
  | .ok v => .ok v s
  | .error e => .throw e s

def PureEnv.env (P : PureEnv D O) (S : Type) (g : Str → S → Call D O S) : Env D O S where
  num := P.num
  eqO := P.eqO
  typeO := P.typeO
  var := some g
  arrFn := P.arrFn.map fun f n a s => liftCall (f n a) s
  dictFn := P.dictFn.map fun f n a s => liftCall (f n a) s
  namedIndex := P.namedIndex.map fun f n a s => liftCall (f n a) s
  numIndex := P.numIndex.map fun f n a s => liftCall (f n a) s
  override n := (P.override n).map fun f a b s => liftCall (f a b) s
  localize := P.localize
  escape := P.escape
  unescape := P.unescape

/-- A computation, given for every world and every lookup. -/
abbrev Poly (D O α : Type) := (S : Type) → (Str → S → Call D O S) → M D O S α

/-- It is a tree. -/
def Rep (x : Poly D O α) : Prop := ∃ t : List (Val D O) → Tree D O α, (∀ st, (t st).Own) ∧ ∀ S g st s, x S g st s = (t st).run g s

theorem Tree.own_bind (t : Tree D O α) (f : α → List (Val D O) → Tree D O β) (ht : t.Own) (hf : ∀ a st, (f a st).Own) : (t.bind f).Own := by
  induction t with
  | ok a st => exact hf a st
  | throw => exact ht
  | ub => trivial
  | fuel => trivial
  | ask n st k ih => exact fun v => ih v (ht v)

theorem Tree.run_bind {S : Type} (g : Str → S → Call D O S) (t : Tree D O α) (f : α → List (Val D O) → Tree D O β) (s : S) :
    (t.bind f).run g s = match t.run g s with
      | .ok a st s => (f a st).run g s
      | .throw e st s => .throw e st s
      | .ub => .ub
      | .fuel => .fuel := by
  induction t generalizing s with
  | ok => rfl
  | throw => rfl
  | ub => rfl
  | fuel => rfl
  | ask n st k ih =>
    simp only [Tree.bind, Tree.run]
    cases g n s with
    | ok v s' => exact ih v s'
    | throw e s' => rfl

theorem rep_bind {x : Poly D O α} {f : α → Poly D O β} (hx : Rep x) (hf : ∀ a, Rep (f a)) : Rep fun S g => x S g >>= fun a => f a S g := by
  obtain ⟨t, hto, ht⟩ := hx
  have hf' : ∃ u : α → List (Val D O) → Tree D O β, (∀ a st, (u a st).Own) ∧
      ∀ a S g st s, f a S g st s = (u a st).run g s :=
    ⟨fun a => (hf a).choose, fun a => (hf a).choose_spec.1, fun a => (hf a).choose_spec.2⟩
  obtain ⟨u, huo, hu⟩ := hf'
  refine ⟨fun st => (t st).bind u, fun st => (t st).own_bind u (hto st) huo, ?_⟩
  intro S g st s
  rw [Tree.run_bind, ← ht]
  show M.bind (x S g) (fun a => f a S g) st s = _
  unfold M.bind
  cases x S g st s with
  | ok a st s => exact hu a S g st s
  | throw => rfl
  | ub => rfl
  | fuel => rfl

theorem rep_ite {c : Prop} [Decidable c] {x y : Poly D O α} (hx : Rep x) (hy : Rep y) : Rep fun S g => if c then x S g else y S g := by
  by_cases h : c
  · simp only [if_pos h]; exact hx
  · simp only [if_neg h]; exact hy

theorem rep_pure (a : α) : Rep fun S g => (M.pure a : M D O S α) := ⟨fun st => .ok a st, fun _ => trivial, fun _ _ _ _ => rfl⟩
theorem rep_pure' (a : α) : Rep fun S g => (pure a : M D O S α) := rep_pure a
theorem rep_throw (e : Err) (h : Own e := by intro c h; cases h) : Rep fun S g => (throw e : M D O S α) :=
  ⟨fun st => .throw e st, fun _ => h, fun _ _ _ _ => rfl⟩
theorem rep_ub : Rep fun S g => (ub : M D O S α) := ⟨fun _ => .ub, fun _ => trivial, fun _ _ _ _ => rfl⟩
theorem rep_fuel : Rep fun S g => (noFuel : M D O S α) := ⟨fun _ => .fuel, fun _ => trivial, fun _ _ _ _ => rfl⟩
theorem rep_back : Rep fun S g => (back : M D O S (Val D O)) :=
  ⟨fun st => match st with | [] => .ub | v :: r => .ok v (v :: r), fun st => by cases st <;> trivial, fun _ _ st _ => by cases st <;> rfl⟩
theorem rep_popBack : Rep fun S g => (popBack : M D O S Unit) :=
  ⟨fun st => match st with | [] => .ub | _ :: r => .ok () r, fun st => by cases st <;> trivial, fun _ _ st _ => by cases st <;> rfl⟩
theorem rep_push (v : Val D O) : Rep fun S g => (push v : M D O S Unit) := ⟨fun st => .ok () (v :: st), fun _ => trivial, fun _ _ _ _ => rfl⟩
theorem rep_top2 : Rep fun S g => (top2 : M D O S (Val D O × Val D O)) :=
  ⟨fun st => match st with | b :: a :: r => .ok (a, b) (b :: a :: r) | _ => .ub, fun st => by
    match st with
    | [] => trivial
    | [_] => trivial
    | _ :: _ :: _ => trivial, fun _ _ st _ => by
    match st with
    | [] => rfl
    | [_] => rfl
    | _ :: _ :: _ => rfl⟩
theorem rep_set2 (v : Val D O) : Rep fun S g => (set2 v : M D O S Unit) :=
  ⟨fun st => match st with | _ :: _ :: r => .ok () (v :: r) | _ => .ub, fun st => by
    match st with
    | [] => trivial
    | [_] => trivial
    | _ :: _ :: _ => trivial, fun _ _ st _ => by
    match st with
    | [] => rfl
    | [_] => rfl
    | _ :: _ :: _ => rfl⟩
theorem rep_setBack (v : Val D O) : Rep fun S g => (setBack v : M D O S Unit) :=
  ⟨fun st => match st with | [] => .ub | _ :: r => .ok () (v :: r), fun st => by cases st <;> trivial, fun _ _ st _ => by cases st <;> rfl⟩
theorem rep_takeTop (n : Nat) : Rep fun S g => (takeTop n : M D O S (List (Val D O))) :=
  ⟨fun st => if n ≤ st.length then .ok (st.take n).reverse st else .ub, fun st => by
    show Tree.Own (if n ≤ st.length then _ else _)
    split <;> trivial, fun _ _ st _ => by
    show (if n ≤ st.length then R.ok _ _ _ else R.ub) = Tree.run _ (if n ≤ st.length then _ else _) _
    split <;> rfl⟩
theorem rep_dropTop (n : Nat) : Rep fun S g => (dropTop n : M D O S Unit) := ⟨fun st => .ok () (st.drop n), fun _ => trivial, fun _ _ _ _ => rfl⟩

theorem rep_call (r : Except Err (Val D O)) (hr : ∀ e, r = .error e → Own e) : Rep fun S g => (call (fun s => liftCall r s) : M D O S (Val D O)) := by
  cases r with
  | ok v => exact ⟨fun st => .ok v st, fun _ => trivial, fun _ _ _ _ => rfl⟩
  | error e => exact ⟨fun st => .throw e st, fun _ => hr e rfl, fun _ _ _ _ => rfl⟩

theorem rep_var (n : Str) : Rep fun S g => (call (g n) : M D O S (Val D O)) :=
  ⟨fun st => .ask n st fun v => .ok v st, fun _ _ => trivial, fun S g st s => by
    simp only [call, Tree.run]; cases g n s <;> rfl⟩

theorem rep_castNum (v : Val D O) : Rep fun S g => (castNum v : M D O S D) := by cases v <;> first | exact rep_pure _ | exact rep_throw _
theorem rep_castBool (v : Val D O) : Rep fun S g => (castBool v : M D O S Bool) := by cases v <;> first | exact rep_pure _ | exact rep_throw _
theorem rep_castName (v : Val D O) : Rep fun S g => (castName v : M D O S Str) := by cases v <;> first | exact rep_pure _ | exact rep_throw _
theorem rep_castStr (v : Val D O) : Rep fun S g => (castStr v : M D O S Str) := by cases v <;> first | exact rep_pure _ | exact rep_throw _
theorem rep_castArr (v : Val D O) : Rep fun S g => (castArr v : M D O S (List (Val D O))) := by
  cases v <;> first | exact rep_pure _ | exact rep_throw _
theorem rep_castDict (v : Val D O) : Rep fun S g => (castDict v : M D O S (List (Str × Val D O))) := by
  cases v <;> first | exact rep_pure _ | exact rep_throw _
theorem rep_castVia {β : Type} (conv : D → Option β) (v : Val D O) : Rep fun S g => (castVia conv v : M D O S β) := by
  cases v <;> try exact rep_throw _
  rename_i d
  simp only [castVia]
  cases conv d with
  | none => exact rep_ub
  | some n => exact rep_pure _

theorem rep_popAs {β : Type} {cast : (S : Type) → Val D O → M D O S β} (h : ∀ v, Rep fun S g => cast S v) : Rep fun S g => popAs (cast S) :=
  rep_bind rep_back fun v => rep_bind (h v) fun r => rep_bind rep_popBack fun _ => rep_pure' r

theorem rep_binary {β : Type} {cast : (S : Type) → Val D O → M D O S β} {f : (S : Type) → β → β → M D O S (Val D O)}
    (h : ∀ v, Rep fun S g => cast S v) (hf : ∀ x y, Rep fun S g => f S x y) : Rep fun S g => binaryOperator (cast S) (f S) :=
  rep_bind rep_top2 fun p => rep_bind (h p.1) fun x => rep_bind (h p.2) fun y => rep_bind (hf x y) fun v => rep_set2 v

theorem rep_unary {β : Type} {cast : (S : Type) → Val D O → M D O S β} (f : β → Val D O)
    (h : ∀ v, Rep fun S g => cast S v) : Rep fun S g => unaryOperator (cast S) f :=
  rep_bind rep_back fun v => rep_bind (h v) fun x => rep_bind rep_popBack fun _ => rep_push (f x)

theorem rep_popVia {β : Type} (conv : D → Option β) : Rep fun S g => (popAs (castVia conv) : M D O S β) :=
  rep_popAs (cast := fun S => castVia conv) (rep_castVia conv)

section
variable (P : PureEnv D O) (hP : P.Own)
include hP

omit hP in
theorem env_num (S : Type) (g : Str → S → Call D O S) : (P.env S g).num = P.num := rfl
omit hP in
theorem env_eqO (S : Type) (g : Str → S → Call D O S) : (P.env S g).eqO = P.eqO := rfl

omit hP in
theorem rep_bitwise (f : Nat → Nat → Option Nat) : Rep fun S g => bitwiseBinary (P.env S g) f := by
  unfold bitwiseBinary
  simp only [env_num]
  refine rep_bind (rep_popVia _) fun y => rep_bind (rep_popVia _) fun x => ?_
  cases f x y with
  | none => exact rep_ub
  | some r => exact rep_push _

omit hP in
theorem rep_negate : Rep fun S g => bitwiseNegate (P.env S g) := by
  unfold bitwiseNegate
  simp only [env_num]
  exact rep_bind (rep_popVia _) fun _ => rep_push _

theorem rep_override (name : Str) : Rep fun S g => operatorOverride (P.env S g) name := by
  unfold operatorOverride
  simp only [PureEnv.env]
  cases hf : P.override name with
  | none => exact rep_pure' _
  | some f => exact rep_bind rep_top2 fun p => rep_bind (rep_call (f p.1 p.2) (hP.override _ _ hf _ _)) fun v => rep_bind (rep_set2 v) fun _ => rep_pure' _

omit hP in
theorem rep_logical {ev : (S : Type) → (Str → S → Call D O S) → List (Val D O) → M D O S Unit} (hev : ∀ c, Rep fun S g => ev S g c) (b : Bool) :
    Rep fun S g => logicalOperator (ev S g) b := by
  refine rep_bind (rep_popAs rep_castArr) fun ex => rep_bind rep_back fun v => rep_bind (rep_castBool v) fun o => rep_ite ?_ (rep_pure' _)
  exact rep_bind rep_popBack fun _ => rep_bind (hev ex) fun _ => rep_bind rep_back fun v => rep_bind (rep_castBool v) fun _ => rep_pure' _

theorem rep_index : Rep fun S g => indexOperator (P.env S g) := by
  refine rep_bind rep_top2 fun p => ?_
  obtain ⟨a, b⟩ := p
  have hnum : ∀ b : Val D O, Rep fun S g => (do
      let index ← castVia (P.env S g).num.toSize b
      match (P.env S g).numIndex with
      | some f => set2 (← call (f a index))
      | none => do
          let vs ← castArr a
          if index < vs.length then set2 (vs.getD index .empty) else throw .range : M D O S Unit) := by
    intro b
    simp only [PureEnv.env]
    refine rep_bind (rep_castVia _ b) fun i => ?_
    cases hf : P.numIndex with
    | some f => exact rep_bind (rep_call (f a i) (hP.numIndex _ hf _ _)) fun v => rep_set2 v
    | none => exact rep_bind (rep_castArr a) fun vs => rep_ite (rep_set2 _) (rep_throw _)
  cases b with
  | name n =>
    simp only [PureEnv.env]
    cases hf : P.namedIndex with
    | some f => exact rep_bind (rep_call (f a n) (hP.namedIndex _ hf _ _)) fun v => rep_set2 v
    | none =>
      refine rep_bind (rep_castDict a) fun ms => ?_
      cases ms.lookup n with
      | some v => exact rep_set2 v
      | none => exact rep_throw _
  | empty => exact hnum _
  | bool b => exact hnum _
  | num d => exact hnum _
  | str s => exact hnum _
  | arr vs => exact hnum _
  | dict ms => exact hnum _
  | other o => exact hnum _

omit hP in
theorem rep_ifelse {ev : (S : Type) → (Str → S → Call D O S) → List (Val D O) → M D O S Unit} (hev : ∀ c, Rep fun S g => ev S g c) :
    Rep fun S g => ifelseOperator (ev S g) :=
  rep_bind (rep_popAs rep_castArr) fun _ => rep_bind (rep_popAs rep_castArr) fun _ => rep_bind (rep_popAs rep_castBool) fun _ => hev _

omit hP in
theorem rep_variable : Rep fun S g => variableOperator (P.env S g) := by
  refine rep_bind rep_back fun v => rep_bind (rep_castName v) fun n => rep_bind rep_popBack fun _ => ?_
  exact rep_bind (rep_var n) fun v => rep_push v

omit hP in
theorem rep_array : Rep fun S g => arrayOperator (P.env S g) := by
  unfold arrayOperator
  simp only [env_num]
  exact rep_bind (rep_popVia _) fun n => rep_bind (rep_takeTop n) fun _ => rep_bind (rep_dropTop n) fun _ => rep_push _

omit hP in
theorem rep_dictLoop : ∀ (vs : List (Val D O)) ms, Rep fun S g => (dictLoop vs ms : M D O S _)
  | [], ms => rep_pure _
  | [x], ms => rep_pure _
  | k :: v :: r, ms => rep_bind (rep_castName k) fun _ => rep_dictLoop r _

omit hP in
theorem rep_dict : Rep fun S g => dictionaryOperator (P.env S g) := by
  unfold dictionaryOperator
  simp only [env_num]
  exact rep_bind (rep_popVia _) fun n => rep_bind (rep_takeTop _) fun vs => rep_bind (rep_dictLoop vs []) fun _ =>
    rep_bind (rep_dropTop _) fun _ => rep_push _

omit hP in
theorem rep_elementLoop (isMin : Bool) (vs : List (Val D O)) : ∀ cur, Rep fun S g => elementLoop isMin (P.env S g) cur vs := by
  induction vs with
  | nil => intro cur; exact rep_pure _
  | cons v vs ih =>
    intro cur
    show Rep fun S g => castNum v >>= fun x => castNum cur >>= fun y =>
      elementLoop isMin (P.env S g) (if (if isMin then P.num.lt x y else P.num.lt y x) then v else cur) vs
    exact rep_bind (rep_castNum v) fun x => rep_bind (rep_castNum cur) fun y => ih _

omit hP in
theorem rep_typeName (v : Val D O) : Rep fun S g => (M.pure (.name (typeName (P.env S g) v)) : M D O S (Val D O)) := by
  cases v with
  | other o => exact rep_pure (Val.name (P.typeO o))
  | empty => exact rep_pure (Val.name "empty".toList)
  | bool => exact rep_pure (Val.name "boolean".toList)
  | num => exact rep_pure (Val.name "number".toList)
  | str => exact rep_pure (Val.name "string".toList)
  | name => exact rep_pure (Val.name "name".toList)
  | arr => exact rep_pure (Val.name "array".toList)
  | dict => exact rep_pure (Val.name "dictionary".toList)

/-- An optional computation: there for all lookups or for none. -/
def OptRep (x : (S : Type) → (Str → S → Call D O S) → Option (M D O S α)) : Prop :=
  (∀ S g, x S g = none) ∨ ∃ y : Poly D O α, Rep y ∧ ∀ S g, x S g = some (y S g)

omit hP in
theorem opt_ite {c : Prop} [Decidable c] {x y : (S : Type) → (Str → S → Call D O S) → Option (M D O S α)} (hx : OptRep x) (hy : OptRep y) :
    OptRep fun S g => if c then x S g else y S g := by
  by_cases h : c
  · simp only [if_pos h]; exact hx
  · simp only [if_neg h]; exact hy

omit hP in
theorem opt_some {y : Poly D O α} (h : Rep y) : OptRep fun S g => some (y S g) := Or.inr ⟨y, h, fun _ _ => rfl⟩

omit hP in
theorem rep_arrayFunction (name : Str) (args : List (Val D O)) : OptRep fun S g => arrayFunction (P.env S g) name args := by
  unfold arrayFunction
  refine opt_ite (opt_some ?_) (opt_ite (opt_some ?_) (opt_ite (opt_some ?_) (opt_ite (opt_some ?_) (opt_ite (opt_some ?_)
    (opt_ite (opt_some ?_) (opt_ite (opt_some ?_) (Or.inl fun _ _ => rfl)))))))
  · match args with
    | [] => exact rep_throw _
    | v :: _ => exact rep_typeName P v
  · match args with
    | [] => exact rep_throw _
    | v :: vs => exact rep_elementLoop P true vs v
  · match args with
    | [] => exact rep_throw _
    | v :: vs => exact rep_elementLoop P false vs v
  · match args with
    | [] => exact rep_throw _
    | v :: vs => exact rep_bind (rep_castNum v) fun x => rep_pure (Val.num (P.num.round x))
  · match args with
    | [] => exact rep_throw _
    | [v] => exact rep_bind (rep_castStr v) fun x => rep_pure (Val.str (P.localize x))
    | _ :: _ :: _ => exact rep_throw _
  · match args with
    | [] => exact rep_throw _
    | [.str x] => exact rep_pure (Val.str (P.escape x))
    | [.empty] => exact rep_throw _
    | [.bool _] => exact rep_throw _
    | [.num _] => exact rep_throw _
    | [.name _] => exact rep_throw _
    | [.arr _] => exact rep_throw _
    | [.dict _] => exact rep_throw _
    | [.other _] => exact rep_throw _
    | a :: b :: c => cases a <;> exact rep_throw Err.args
  · match args with
    | [] => exact rep_throw _
    | [.str x] =>
      simp only [PureEnv.env]
      cases P.unescape x with
      | none => exact rep_throw _
      | some y => exact rep_pure _
    | [.empty] => exact rep_throw _
    | [.bool _] => exact rep_throw _
    | [.num _] => exact rep_throw _
    | [.name _] => exact rep_throw _
    | [.arr _] => exact rep_throw _
    | [.dict _] => exact rep_throw _
    | [.other _] => exact rep_throw _
    | a :: b :: c => cases a <;> exact rep_throw Err.args

omit hP in
theorem rep_dictionaryFunction (name : Str) (ms : List (Str × Val D O)) : OptRep fun S g => dictionaryFunction (P.env S g) name ms := by
  unfold dictionaryFunction
  simp only [env_num]
  exact opt_ite (opt_some (rep_pure _)) (Or.inl fun _ _ => rfl)

theorem rep_function : Rep fun S g => functionOperator (P.env S g) := by
  refine rep_bind rep_back fun v => rep_bind (rep_castName v) fun name => rep_bind rep_popBack fun _ => rep_bind rep_back fun w => ?_
  have hdict : ∀ v : Val D O, Rep fun S g => (do
      let args ← castDict v
      match dictionaryFunction (P.env S g) name args with
      | some f => setBack (← f)
      | none =>
        match (P.env S g).dictFn with
        | some f => setBack (← call (f name args))
        | none => throw .undefined : M D O S Unit) := by
    intro v
    refine rep_bind (rep_castDict v) fun args => ?_
    rcases rep_dictionaryFunction P name args with h | ⟨y, hy, h⟩
    · simp only [h]
      simp only [PureEnv.env]
      cases hf : P.dictFn with
      | some f => exact rep_bind (rep_call (f name args) (hP.dictFn _ hf _ _)) fun v => rep_setBack v
      | none => exact rep_throw _
    · simp only [h]
      exact rep_bind hy fun v => rep_setBack v
  cases w with
  | arr args =>
    rcases rep_arrayFunction P name args with h | ⟨y, hy, h⟩
    · simp only [h]
      simp only [PureEnv.env]
      cases hf : P.arrFn with
      | some f => exact rep_bind (rep_call (f name args) (hP.arrFn _ hf _ _)) fun v => rep_setBack v
      | none => exact rep_throw _
    · simp only [h]
      exact rep_bind hy fun v => rep_setBack v
  | empty => exact hdict _
  | bool b => exact hdict _
  | num d => exact hdict _
  | str s => exact hdict _
  | name n => exact hdict _
  | dict ms => exact hdict _
  | other o => exact hdict _

omit hP in
theorem rep_arith (f : D → D → D) : Rep fun S g => (arith f : M D O S Unit) := rep_binary rep_castNum fun _ _ => rep_pure _
omit hP in
theorem rep_relation (f : D → D → Bool) : Rep fun S g => (relation f : M D O S Unit) := rep_binary rep_castNum fun _ _ => rep_pure _

theorem rep_findOperator {ev : (S : Type) → (Str → S → Call D O S) → List (Val D O) → M D O S Unit} (hev : ∀ c, Rep fun S g => ev S g c)
    (name : Str) : Rep fun S g => findOperator (P.env S g) (ev S g) name := by
  unfold findOperator
  refine rep_ite ?_ ?_
  · exact rep_unary (fun b => Val.bool (!b)) rep_castBool
  refine rep_ite ?_ ?_
  · exact rep_unary (fun d => Val.num (P.num.neg d)) rep_castNum
  refine rep_ite ?_ ?_
  · exact rep_arith P.num.add
  refine rep_ite ?_ ?_
  · exact rep_arith P.num.sub
  refine rep_ite ?_ ?_
  · exact rep_arith P.num.mul
  refine rep_ite ?_ ?_
  · exact rep_binary (cast := fun S => castVia P.num.toI32) (rep_castVia _) fun x y =>
      rep_ite (c := y = 0 ∨ x = -2 ^ 31 ∧ y = -1) rep_ub (rep_pure (Val.num (P.num.ofInt (x.tmod y))))
  refine rep_ite ?_ ?_
  · exact rep_arith P.num.div
  refine rep_ite ?_ ?_
  · exact rep_relation P.num.lt
  refine rep_ite ?_ ?_
  · exact rep_relation (fun x y => P.num.lt y x)
  refine rep_ite ?_ ?_
  · exact rep_relation P.num.le
  refine rep_ite ?_ ?_
  · exact rep_relation (fun x y => P.num.le y x)
  refine rep_ite ?_ ?_
  · exact rep_binary (cast := fun S => M.pure) (fun v => rep_pure v) fun x y => rep_pure (Val.bool (Val.beq P.num P.eqO x y))
  refine rep_ite ?_ ?_
  · exact rep_binary (cast := fun S => M.pure) (fun v => rep_pure v) fun x y => rep_pure (Val.bool (!Val.beq P.num P.eqO x y))
  refine rep_ite ?_ ?_
  · exact rep_ifelse hev
  refine rep_ite ?_ ?_
  · exact rep_index P hP
  refine rep_ite ?_ ?_
  · exact rep_function P hP
  refine rep_ite ?_ ?_
  · exact rep_array P
  refine rep_ite ?_ ?_
  · exact rep_dict P
  refine rep_ite ?_ ?_
  · exact rep_variable P
  refine rep_ite ?_ ?_
  · exact rep_logical hev _
  refine rep_ite ?_ ?_
  · exact rep_logical hev _
  refine rep_ite ?_ ?_
  · exact rep_bitwise P _
  refine rep_ite ?_ ?_
  · exact rep_bitwise P _
  refine rep_ite ?_ ?_
  · exact rep_bitwise P _
  refine rep_ite ?_ ?_
  · exact rep_bitwise P _
  refine rep_ite ?_ ?_
  · exact rep_bitwise P _
  refine rep_ite ?_ ?_
  · exact rep_negate P
  exact rep_throw _

theorem rep_step {ev : (S : Type) → (Str → S → Call D O S) → List (Val D O) → M D O S Unit} (hev : ∀ c, Rep fun S g => ev S g c)
    (v : Val D O) : Rep fun S g => step (P.env S g) (ev S g) v := by
  cases v with
  | name n =>
    simp only [step]
    exact rep_ite (rep_bind (rep_override P hP n) fun b => rep_ite (rep_findOperator P hP hev n) (rep_pure' _)) (rep_push _)
  | empty => exact rep_push _
  | bool b => exact rep_push _
  | num d => exact rep_push _
  | str s => exact rep_push _
  | arr vs => exact rep_push _
  | dict ms => exact rep_push _
  | other o => exact rep_push _

theorem rep_loop {ev : (S : Type) → (Str → S → Call D O S) → List (Val D O) → M D O S Unit} (hev : ∀ c, Rep fun S g => ev S g c)
    (code : List (Val D O)) : Rep fun S g => loop (P.env S g) (ev S g) code := by
  induction code with
  | nil => exact rep_pure _
  | cons v code ih => exact rep_bind (rep_step P hP hev v) fun _ => ih

/-- `evaluate` is a tree of questions. -/
theorem rep_evaluate (n : Nat) : ∀ code : List (Val D O), Rep fun S g => evaluate (P.env S g) n code := by
  induction n with
  | zero => intro code; exact rep_fuel
  | succ n ih => intro code; exact rep_loop P hP ih code

end

end Verif.Expr.Vm
