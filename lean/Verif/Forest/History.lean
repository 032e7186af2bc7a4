import Verif.Forest.Model
import Verif.Forest.Spec
/-
Specification of client programs: which tree edit every operation performs.
`Op` and `Out` are just the syntax of calls and results; nothing here refers to links.
-/
namespace Verif.Forest
open Verif.Ring Forest

variable {α : Type}

/-- Abstract state: the existing forests (named by their tails), their shapes, and the values at the nodes. -/
structure AS (α : Type) where
  tails : List Nat
  F : Nat → Forest Nat
  V : Nat → Option α

/-- no forests yet -/
def AS.empty : AS α := ⟨[], fun _ => .nil, fun _ => none⟩

/-- an address that is not in use -/
def Fresh (A : AS α) (n : Nat) : Prop := A.V n = none ∧ n ∉ A.tails

/-- the nodes `ns` are available for allocation -/
def Avail (A : AS α) (ns : List Nat) : Prop := ns.Nodup ∧ ∀ n ∈ ns, Fresh A n

/-- The iterator that denotes a hole: the leading edge of the first tree in it, or the trailing edge of the parent if there is
    none (`end()` at top level). -/
def place (t : Nat) (c : Ctx Nat) : Forest Nat → Pos
  | .cons n _ _ => (n, true)
  | .nil => (c.parent t, false)

/-- The effect of a call made under its precondition. -/
inductive AStep (A : AS α) : Op α → Out → AS α → Prop
  /-- a new, empty forest -/
  | create {t} : Fresh A t → AStep A (.create t) .none { A with tails := t :: A.tails, F := upd A.F t .nil }
  /-- a new leaf at a place -/
  | insert {t c R x n} : t ∈ A.tails → A.F t = plug c R → Fresh A n →
      AStep A (.insert t (place t c R) x n) (.pos (n, true))
        { A with F := upd A.F t (plug c (.cons n .nil R)), V := upd A.V n (some x) }
  /-- a node goes and its children take its place; the result is the next edge -/
  | erase {t c n k R} (e : Bool) : t ∈ A.tails → A.F t = plug c (.cons n k R) →
      AStep A (.erase t (n, e)) (.pos (if e then place t c (append k R) else place t c R))
        { A with F := upd A.F t (plug c (append k R)), V := upd A.V n none }
  /-- the nodes both of whose edges lie in the range go, the others stay -/
  | eraseRange {t X M Y first last G} : t ∈ A.tails → (A.F t).word ++ [(t, false)] = X ++ (M ++ last :: Y) →
      (M ++ [last]).head? = some first → G.word = (A.F t).word.filter (fun p => !both M p.1) →
      AStep A (.eraseRange t first last) (.pos last)
        { A with F := upd A.F t G, V := fun n => if both M n then none else A.V n }
  | clear {t} : t ∈ A.tails →
      AStep A (.clear t) .none { A with F := upd A.F t .nil, V := fun n => if n ∈ (A.F t).pre then none else A.V n }
  /-- all the trees of another forest move to a place -/
  | splice {t u c R} : t ∈ A.tails → u ∈ A.tails → u ≠ t → A.F t = plug c R →
      AStep A (.splice t (place t c R) u) (.pos (place t c (append (A.F u) R)))
        { A with F := upd (upd A.F u .nil) t (plug c (append (A.F u) R)) }
  /-- a tree of another forest moves to a place -/
  | spliceOne {t u c d n k R Q} (e : Bool) : t ∈ A.tails → u ∈ A.tails → u ≠ t → A.F t = plug c R → A.F u = plug d (.cons n k Q) →
      AStep A (.spliceOne t (place t c R) u (n, e)) (.pos (n, true))
        { A with F := upd (upd A.F u (plug d Q)) t (plug c (.cons n k R)) }
  /-- a tree moves to a place of the same forest outside itself -/
  | spliceOneSame {t c d n k R Q} (e : Bool) : t ∈ A.tails → A.F t = plug d (.cons n k Q) → plug d Q = plug c R →
      AStep A (.spliceOne t (place t c R) t (n, e)) (.pos (n, true)) { A with F := upd A.F t (plug c (.cons n k R)) }
  /-- a tree moved in front of itself -/
  | spliceOneId {t d n k Q} (e : Bool) : t ∈ A.tails → A.F t = plug d (.cons n k Q) →
      AStep A (.spliceOne t (n, true) t (n, e)) (.pos (n, true)) A
  /-- trees `S` of another forest move to a place -/
  | spliceRange {t u c d S R Q} : t ∈ A.tails → u ∈ A.tails → u ≠ t → A.F t = plug c R → A.F u = plug d (append S Q) →
      AStep A (.spliceRange t (place t c R) u (place u d (append S Q)) (place u d Q)) (.pos (place t c (append S R)))
        { A with F := upd (upd A.F u (plug d Q)) t (plug c (append S R)) }
  /-- trees `S` move to a place of the same forest outside themselves -/
  | spliceRangeSame {t c d S R Q} : t ∈ A.tails → A.F t = plug d (append S Q) → plug d Q = plug c R →
      AStep A (.spliceRange t (place t c R) t (place t d (append S Q)) (place t d Q)) (.pos (place t c (append S R)))
        { A with F := upd A.F t (plug c (append S R)) }
  /-- trees moved in front of themselves -/
  | spliceRangeId {t d S Q} : t ∈ A.tails → A.F t = plug d (append S Q) →
      AStep A (.spliceRange t (place t d (append S Q)) t (place t d (append S Q)) (place t d Q)) (.pos (place t d (append S Q))) A
  /-- trees `S` become the children of a new node -/
  | insertParent {t c S R x n} : t ∈ A.tails → A.F t = plug c (append S R) → Fresh A n →
      AStep A (.insertParent t (place t c (append S R)) (place t c R) x n) (.pos (n, true))
        { A with F := upd A.F t (plug c (.cons n S R)), V := upd A.V n (some x) }
  /-- copies of trees `S` of another forest are inserted -/
  | insertCopy {t u c d S S' R Q ns V} : t ∈ A.tails → u ∈ A.tails → u ≠ t → A.F t = plug c R → A.F u = plug d (append S Q) →
      ns.length = S.card → Avail A ns → S'.pre = ns → S'.map V = S.map A.V → (∀ n, n ∉ ns → V n = A.V n) →
      AStep A (.insertCopy t (place t c R) (place u d (append S Q)) (place u d Q) ns) (.pos (place t c R))
        { A with F := upd A.F t (plug c (append S' R)), V := V }
  /-- a new forest with the same shape and values -/
  | copy {t u S' ns V} : Fresh A t → u ∈ A.tails → ns.length = (A.F u).card → Avail A ns → t ∉ ns →
      S'.pre = ns → S'.map V = (A.F u).map A.V → (∀ n, n ∉ ns → V n = A.V n) →
      AStep A (.copy t u ns) .none { tails := t :: A.tails, F := upd A.F t S', V := V }
  | moveCtor {t u} : Fresh A t → u ∈ A.tails →
      AStep A (.moveCtor t u) .none { A with tails := t :: A.tails, F := upd (upd A.F u .nil) t (A.F u) }
  | moveAssign {t u} : t ∈ A.tails → u ∈ A.tails → u ≠ t →
      AStep A (.moveAssign t u) .none
        { A with F := upd (upd A.F u .nil) t (A.F u), V := fun n => if n ∈ (A.F t).pre then none else A.V n }
  | copyAssign {t u tmp S' ns V} : t ∈ A.tails → u ∈ A.tails → Fresh A tmp → ns.length = (A.F u).card → Avail A ns → tmp ∉ ns →
      S'.pre = ns → S'.map V = (A.F u).map A.V → (∀ n, n ∉ ns → V n = A.V n) →
      AStep A (.copyAssign t u tmp ns) .none
        { A with F := upd A.F t S', V := fun n => if n ∈ (A.F t).pre then none else V n }
  | swap {t u tmp} : t ∈ A.tails → u ∈ A.tails → u ≠ t → Fresh A tmp →
      AStep A (.swap t u tmp) .none { A with F := upd (upd A.F u (A.F t)) t (A.F u) }
  | destroy {t} : t ∈ A.tails →
      AStep A (.destroy t) .none
        { tails := A.tails.filter (fun u => decide (u ≠ t)), F := upd A.F t .nil, V := fun n => if n ∈ (A.F t).pre then none else A.V n }
  /-- all the siblings from some place on are reversed (a range that ends earlier is not: see `C41_reverse_violated`) -/
  | reverseEnd {t c S} : t ∈ A.tails → A.F t = plug c S →
      AStep A (.reverse (place t c S) (place t c .nil)) .none { A with F := upd A.F t (plug c S.rev) }
  /-- reversing at most one tree -/
  | reverseShort {t c S R} : t ∈ A.tails → A.F t = plug c (append S R) → S.roots.length ≤ 1 →
      AStep A (.reverse (place t c (append S R)) (place t c R)) .none A
  | size {t} : t ∈ A.tails → AStep A (.size t) (.num (A.F t).card) A

/-- `s` is reached by a client program whose calls all meet their preconditions, and `A` is what the program means. -/
inductive Reach : St α → AS α → Prop
  | init {s} : (∀ n, s.heap.val n = none) → Reach s AS.empty
  | step {junk s op s' out out' A A'} : Reach s A → AStep A op out A' → s.Call junk op s' out' → Reach s' A'

end Verif.Forest
