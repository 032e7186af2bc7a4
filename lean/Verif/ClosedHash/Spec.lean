import Verif.ClosedHash.Model
/-
Specification of an associative container with unique keys: a list of values with pairwise inequivalent keys, order
irrelevant (everything is compared up to permutation).  Independent of the hash table model.
-/
namespace Verif.ClosedHash

variable {α K : Type}

/-- Requirements on the client's key_equal and hash: `keq` is an equivalence and `hash` respects it. -/
structure KeyOk (hash : K → Nat) (keq : K → K → Bool) : Prop where
  refl : ∀ k, keq k k = true
  symm : ∀ k l, keq k l = true → keq l k = true
  trans : ∀ k l m, keq k l = true → keq l m = true → keq k m = true
  hash : ∀ k l, keq k l = true → hash k = hash l

/-- the value stored under a key equivalent to `k`, if any -/
def specFind (keq : K → K → Bool) (key : α → K) (m : List α) (k : K) : Option α := m.find? (fun v => keq k (key v))

/-- drop everything stored under `k` -/
def specErase (keq : K → K → Bool) (key : α → K) (m : List α) (k : K) : List α := m.filter (fun v => !keq k (key v))

/-- store `x` under its key, replacing what was there -/
def specInsert (keq : K → K → Bool) (key : α → K) (m : List α) (x : α) : List α := x :: specErase keq key m (key x)

/-- The client operations and their results are shared vocabulary with the model (`Op`, `Out`).
    `SpecStep m o r m'`: a unique-key container holding `m` may answer `r` to `o` and then hold `m'`. -/
def SpecStep (keq : K → K → Bool) (key : α → K) (m : List α) : Op α K → Out α → List α → Prop
  | .insert x, r, m' => r = .inserted x (specFind keq key m (key x)).isNone ∧ m'.Perm (specInsert keq key m x)
  | .find k, r, m' => r = .found (specFind keq key m k) ∧ m'.Perm m
  | .eraseKey k, r, m' => r = .erased (if (specFind keq key m k).isSome then 1 else 0) ∧ m'.Perm (specErase keq key m k)
  | .eraseNth i, r, m' =>
    (i < m.length ∧ ∃ v, r = .removed (some v) ∧ m.Perm (v :: m')) ∨ (m.length ≤ i ∧ r = .removed none ∧ m'.Perm m)
  | .index d, r, m' =>
    (∃ v, specFind keq key m (key d) = some v ∧ r = .ref v ∧ m'.Perm m) ∨
    (specFind keq key m (key d) = none ∧ r = .ref d ∧ m'.Perm (d :: m))
  | .clear, r, m' => r = .unit ∧ m' = []
  | .reserve _, r, m' => r = .unit ∧ m'.Perm m
  | .copy, r, m' => r = .unit ∧ m'.Perm m
  | .size, r, m' => r = .size m.length ∧ m'.Perm m
  | .iterate, r, m' => ∃ vs, r = .list vs ∧ vs.Perm m ∧ m'.Perm m

/-- a whole history of the container -/
inductive SpecRun (keq : K → K → Bool) (key : α → K) : List α → List (Op α K) → List (Out α) → List α → Prop where
  | nil (m) : SpecRun keq key m [] [] m
  | cons {m m1 m2 o r os rs} : SpecStep keq key m o r m1 → SpecRun keq key m1 os rs m2 → SpecRun keq key m (o :: os) (r :: rs) m2

/-- What the history so far says about key `k`, read off the operations alone (plus, for `erase(iterator)`, the element
    that was at the iterator): the last value stored under `k` and not erased since. -/
def track (keq : K → K → Bool) (key : α → K) (k : K) (cur : Option α) : Op α K → Out α → Option α
  | .insert x, _ => if keq k (key x) then some x else cur
  | .index d, _ => if keq k (key d) then some (cur.getD d) else cur
  | .eraseKey k', _ => if keq k k' then none else cur
  | .eraseNth _, .removed (some v) => if keq k (key v) then none else cur
  | .clear, _ => none
  | _, _ => cur

/-- `track` over a history -/
def lastVal (keq : K → K → Bool) (key : α → K) (k : K) (cur : Option α) : List (Op α K) → List (Out α) → Option α
  | o :: os, r :: rs => lastVal keq key k (track keq key k cur o r) os rs
  | _, _ => cur

end Verif.ClosedHash
