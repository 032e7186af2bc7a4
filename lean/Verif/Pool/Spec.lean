import Verif.Pool.Model
/-!
Specification of the string pool: histories of calls and of other writes to memory.
-/
namespace Verif.Pool.Spec
open Verif.Pool

/-- At `p` there is the string `s`, with a NUL after it. -/
def CStr (m : Mem) (p : Nat) (s : List Nat) : Prop := (∀ b ∈ s, b ≠ 0) ∧ ∀ i ≤ s.length, m (p + i) = (s ++ [0]).getD i 0

/-- The string that the argument of a call is: a null pointer counts as the empty string. -/
def Arg (m : Mem) (p : Nat) (s : List Nat) : Prop := (p = 0 ∧ s = []) ∨ (p ≠ 0 ∧ CStr m p s)

def inBlock (a : Nat) (b : Nat × Nat) : Prop := b.1 ≤ a ∧ a < b.1 + b.2

/-- The address is in a block of the pool. -/
def Owned (s : St) (a : Nat) : Prop := ∃ b ∈ s.blocks, inBlock a b

/-- The address is in the part of the last block which is not used yet. -/
def Unused (s : St) (a : Nat) : Prop := s.next ≤ a ∧ a < s.end_

/-- What `operator new(size)` may give: memory that nothing else is in. -/
def Fresh (empty : Nat) (s : St) (str n base size : Nat) : Prop :=
  base ≠ 0 ∧ (∀ a, base ≤ a → a < base + size → ¬ Owned s a ∧ a ≠ empty ∧ ¬ (str ≤ a ∧ a ≤ str + n))

/-- A call that keeps to the rules: the argument is a null pointer or a string that is not in the part of the pool which is not used
yet. -/
structure Call (poolSize empty : Nat) (s : St) (str : Nat) (x : List Nat) (e : Env) : Prop where
  arg : Arg s.mem str x
  used : ∀ i ≤ x.length, ¬ Unused s (str + i)
  fresh : ∀ b, e.base = some b → Fresh empty s str x.length b (max poolSize (x.length + 1))

/-- `Hist poolSize empty pt s log`: the pool can be in the state `s` after the calls of `add` with the strings and results in `log`, the
last one first.  In between anything may be written outside of the pool, and calls may throw; `pt`: `push_back` of the list may
throw. -/
inductive Hist (poolSize empty : Nat) (pt : Prop) : St → List (List Nat × Nat) → Prop where
  | new {m} : empty ≠ 0 → m empty = 0 → Hist poolSize empty pt (.new m) []
  | other {s log} (a b) : Hist poolSize empty pt s log → ¬ Owned s a → a ≠ empty →
      Hist poolSize empty pt { s with mem := s.mem.set a b } log
  | add {s log str x e q s'} : Hist poolSize empty pt s log → Call poolSize empty s str x e → (e.pushThrows = true → pt) →
      add poolSize empty s str x.length e = .ok q s' → Hist poolSize empty pt s' ((x, q) :: log)
  | throw {s log str x e s'} : Hist poolSize empty pt s log → Call poolSize empty s str x e → (e.pushThrows = true → pt) →
      add poolSize empty s str x.length e = .throw s' → Hist poolSize empty pt s' log

end Verif.Pool.Spec
