import Verif.Adam.Model
/-!
What a sheet means, independently of the order in which the engine evaluates it.

A sheet whose relations have been directed (each derived interface cell carries the term which derives it) is a system of equations,
one for each named cell.  `Defines s env n` is the right hand side of the equation of `n` when the other cells have the values `env`.
`den s k n` is the value of `n` obtained by unfolding the equations at most `k` levels deep: `Defined s n` says that the equations of
`n`, of the cells it reads, of the cells they read, … have a value without going round in circles.
-/
namespace Verif.Adam
variable {N V : Type} [DecidableEq N] [DecidableEq V] [Values V]

/-- Values with the set of the interface cells that were read to get them. -/
abbrev Env (N V : Type) := N → Option (V × Bits)

/-- The value of an expression when its variables have the values `env`, with the cells read.  If the expression belongs to an
interface cell `x` (first argument), references to `x` itself do not go through `env`: the first one is `first`, the others are `later`. -/
def Prog.eval (x : Option N) (env : Env N V) (first later : Option (V × Bits)) : Prog N V → Option (V × Bits)
  | .ret v => some (v, 0)
  | .fail => none
  | .ask n k =>
      if some n = x then
        first.bind fun w => (Prog.eval x env later later (k w.1)).map fun u => (u.1, w.2 ||| u.2)
      else
        (env n).bind fun w => (Prog.eval x env first later (k w.1)).map fun u => (u.1, w.2 ||| u.2)

/-- An element of an array, for terms which define several cells. -/
def pick (index : Option Nat) (w : V × Bits) : Option (V × Bits) := match index with
  | none => some w
  | some k => ((Values.asArray w.1).bind (·[k]?)).map (·, w.2)

/-- The value of the term deriving cell `x`, whose input value is `inp`. -/
def Term.eval (x : N) (env : Env N V) (inp : V × Bits) (t : Term N V) : Option (V × Bits) :=
  (t.prog.eval (some x) env (some inp) (some inp)).bind (pick t.index)

/-- What the first reference to itself in the expression of interface cell `x` denotes: the value of the term deriving it if there is
one, its input value otherwise. -/
def firstRef (x : N) (env : Env N V) (inp : V × Bits) (t : Option (Term N V)) : Option (V × Bits) := match t with
  | none => some inp
  | some t => t.eval x env inp

/-- The right hand side of the equation of cell `n`. -/
def rhs (s : Sheet N V) (env : Env N V) (n : N) : Option (V × Bits) := match s.nameIndex.find n with
  | none => none
  | some i =>
      let c := s.cell i
      if c.spec = .input ∨ c.spec = .constant then some (c.state, c.contributing)
      else if c.count ≠ 0 then none
      else match c.input with
        | some j =>
            let inp := ((s.cell j).state, (s.cell j).contributing)
            match c.calculator with
            | .none => none
            | .self => firstRef n env inp c.term
            | .expr p => p.eval (some n) env (firstRef n env inp c.term) (some inp)
        | none => match c.calculator with
            | .none => none
            | .self => none
            | .expr p => p.eval none env none none

/-- The equations unfolded `k` levels deep. -/
def den (s : Sheet N V) : Nat → Env N V
  | 0 => fun _ => none
  | k + 1 => rhs s (den s k)

/-- The cell has a value without circular definition. -/
def Defined (s : Sheet N V) (n : N) : Prop := ∃ k w, den s k n = some w

/-- `std::sort`: some sorting function. -/
def SortOk (srt : Sorter) : Prop :=
  ∀ key l, (srt key l).Perm l ∧ (srt key l).Pairwise fun a b => key a ≤ key b

/-- The structure the `add_…` functions build. -/
structure WF (s : Sheet N V) : Prop where
  initMode : s.initMode = false
  name : ∀ n i, s.nameIndex.find n = some i → i < s.size ∧ (s.cell i).name = n
  spec : ∀ n i, s.nameIndex.find n = some i → (s.cell i).spec ≠ .interfaceInput
  iface : ∀ n i, s.nameIndex.find n = some i → (s.cell i).spec = .interfaceOutput →
    ∃ j, (s.cell i).input = some j ∧ j < s.size ∧ (s.cell j).spec = .interfaceInput ∧ s.inputIndex.find n = some j ∧
      (s.cell j).name = n
  noInput : ∀ i, (s.cell i).spec ≠ .interfaceOutput → (s.cell i).input = none
  ifaceInj : ∀ n n' i i' j, s.nameIndex.find n = some i → s.nameIndex.find n' = some i' →
    (s.cell i).input = some j → (s.cell i').input = some j → i = i'
  calcExpr : ∀ n i, s.nameIndex.find n = some i →
    ((s.cell i).spec = .output ∨ (s.cell i).spec = .logic ∨ (s.cell i).spec = .invariant) → ∃ p, (s.cell i).calculator = .expr p
  weights : (s.nameIndex.map fun e => if (s.cell e.2).spec = .interfaceOutput then 2 else 1).sum ≤ s.size
  output : ∀ n i, s.outputIndex.find n = some i ↔ s.nameIndex.find n = some i ∧
    ((s.cell i).spec = .output ∨ (s.cell i).spec = .interfaceOutput ∨ (s.cell i).spec = .invariant)
  nodup : (s.nameIndex.map (·.1)).Nodup
  outNodup : (s.outputIndex.map (·.1)).Nodup
  invs : ∀ i, i ∈ s.invariants ↔ ∃ n, s.nameIndex.find n = some i ∧ (s.cell i).spec = .invariant
  base : ∀ i, ((s.cell i).spec = .input ∨ (s.cell i).spec = .constant) → (s.cell i).evaluated = true

end Verif.Adam
