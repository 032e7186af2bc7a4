import Verif.Dlx.Spec
import Verif.Common.Ring
/-
Model of adobe/implementation/toroid.hpp and adobe/dancing_links.hpp.

Pointers are names of nodes.  The links are functions from nodes to nodes, as the memory has them; null pointers are not modelled (nodes that are not set
point to themselves).  `size_m` is a natural number; it never falls below 0 (part of the invariant).  Loops take fuel (the number of cells + 1,
as a column or row without repetition has no more); `none` means that fuel ran out or that `output_m` was indexed beyond its end.  It is proved not to happen.
-/
namespace Verif.Dlx
open Verif.Ring

inductive Node where
  | head
  | col (c : Nat)
  | row (r : Nat)
  | cell (k : Nat)
  deriving DecidableEq

/-- models: adobe/implementation/toroid.hpp:32-50 (`toroid_node_t`, `toroid_header_t`) and the members of `byte_toroid_t`, 351-357. -/
structure Toroid where
  left : Node → Node
  right : Node → Node
  up : Node → Node
  down : Node → Node
  column : Node → Nat
  rowOf : Node → Nat
  color : Node → Int
  covered : Node → Bool
  size : Nat → Nat
  rows : Nat
  cols : Nat
  cells : Nat

/-- models: adobe/implementation/toroid.hpp:64-104, the constructor. -/
def Toroid.init (rows cols : Nat) : Toroid where
  left := fun n => match n with
    | .head => .col (cols - 1)
    | .col c => if c = 0 then .head else .col (c - 1)
    | n => n
  right := fun n => match n with
    | .head => .col 0
    | .col c => if c = cols - 1 then .head else .col (c + 1)
    | n => n
  up := fun n => match n with
    | .head => .row (rows - 1)
    | n => n
  down := fun n => match n with
    | .head => .row 0
    | n => n
  column := fun _ => 0
  rowOf := fun _ => 0
  color := fun _ => 0
  covered := fun _ => false
  size := fun _ => 0
  rows := rows
  cols := cols
  cells := 0

/-- models: adobe/implementation/toroid.hpp:106-147 `set`; the blocks of nodes are not modelled: each call uses a new cell. -/
def Toroid.set (t : Toroid) (r c : Nat) (color : Int) : Toroid :=
  let node := Node.cell t.cells
  let left := upd t.left node (t.left (.row r))
  let right := upd t.right node (.row r)
  let right := upd right (left (.row r)) node
  let left := upd left (.row r) node
  let up := upd t.up node (t.up (.col c))
  let down := upd t.down node (.col c)
  let down := upd down (up (.col c)) node
  let up := upd up (.col c) node
  { t with
    left := left, right := right, up := up, down := down
    column := upd t.column node c
    rowOf := upd t.rowOf node r
    color := upd t.color node color
    covered := upd t.covered node false
    size := upd t.size c (t.size c + 1)
    cells := t.cells + 1 }

/-- models: adobe/implementation/toroid.hpp:149-168 `set_secondary_column`. -/
def Toroid.setSecondary (t : Toroid) (c : Nat) : Toroid :=
  let column := Node.col c
  let right := upd t.right (t.left column) (t.right column)
  let left := upd t.left (right column) (t.left column)
  let right := upd right column column
  let left := upd left column column
  { t with left := left, right := right }

/-- models: adobe/implementation/toroid.hpp:176-181: one row of `finalize`. -/
def Toroid.finalizeRow (t : Toroid) (r : Nat) : Toroid :=
  let right := upd t.right (t.left (.row r)) (t.right (.row r))
  let left := upd t.left (right (.row r)) (t.left (.row r))
  { t with left := left, right := right }

/-- models: adobe/implementation/toroid.hpp:170-184 `finalize`. -/
def Toroid.finalize (t : Toroid) : Toroid := (List.range t.rows).foldl Toroid.finalizeRow t

/-- `for (i = first; i != stop; i = next(i)) body(i)` -/
def loop {S : Type} (next : S → Node → Node) (body : Node → S → Option S) (stop : Node) : Nat → Node → S → Option S
  | 0, _, _ => none
  | n + 1, i, t => if i = stop then some t else do
    let t ← body i t
    loop next body stop n (next t i) t

/-- models: adobe/implementation/toroid.hpp:194-200: a node leaves its column. -/
def Toroid.unlink (t : Toroid) (j : Node) : Toroid :=
  let up := upd t.up (t.down j) (t.up j)
  let down := upd t.down (up j) (t.down j)
  { t with up := up, down := down, size := upd t.size (t.column j) (t.size (t.column j) - 1), covered := upd t.covered j true }

/-- models: adobe/implementation/toroid.hpp:214-220: a node returns to its column. -/
def Toroid.relink (t : Toroid) (j : Node) : Toroid :=
  let up := upd t.up (t.down j) j
  let down := upd t.down (up j) j
  { t with up := up, down := down, size := upd t.size (t.column j) (t.size (t.column j) + 1), covered := upd t.covered j false }

/-- models: adobe/implementation/toroid.hpp:186-206 `cover_column`. -/
def Toroid.cover (t : Toroid) (c : Nat) : Option Toroid := do
  let left := upd t.left (t.right (.col c)) (t.left (.col c))
  let right := upd t.right (left (.col c)) (t.right (.col c))
  let t := { t with left := left, right := right }
  let t ← loop Toroid.down (fun i t =>
    loop Toroid.right (fun j t => some (t.unlink j)) i (t.cells + 1) (t.right i) t) (.col c) (t.cells + 1) (t.down (.col c)) t
  return { t with covered := upd t.covered (.col c) true }

/-- models: adobe/implementation/toroid.hpp:208-227 `uncover_column`. -/
def Toroid.uncover (t : Toroid) (c : Nat) : Option Toroid := do
  let t := { t with covered := upd t.covered (.col c) false }
  let t ← loop Toroid.up (fun i t =>
    loop Toroid.left (fun j t => some (t.relink j)) i (t.cells + 1) (t.left i) t) (.col c) (t.cells + 1) (t.up (.col c)) t
  let left := upd t.left (t.right (.col c)) (.col c)
  let right := upd t.right (left (.col c)) (.col c)
  return { t with left := left, right := right }

/-- models: adobe/implementation/toroid.hpp:238-242: a node leaves its column, in the order of `purify`. -/
def Toroid.unlinkP (t : Toroid) (j : Node) : Toroid :=
  let down := upd t.down (t.up j) (t.down j)
  let up := upd t.up (down j) (t.up j)
  { t with up := up, down := down, size := upd t.size (t.column j) (t.size (t.column j) - 1), covered := upd t.covered j true }

/-- models: adobe/implementation/toroid.hpp:259-263: a node returns to its column, in the order of `unpurify`. -/
def Toroid.relinkP (t : Toroid) (j : Node) : Toroid :=
  let down := upd t.down (t.up j) j
  let up := upd t.up (down j) j
  { t with up := up, down := down, size := upd t.size (t.column j) (t.size (t.column j) + 1), covered := upd t.covered j false }

/-- models: adobe/implementation/toroid.hpp:229-249 `purify`. -/
def Toroid.purify (t : Toroid) (p : Node) : Option Toroid := do
  let c := Node.col (t.column p)
  let x := t.color p
  let t := { t with color := upd t.color c x }
  loop Toroid.down (fun rr t =>
    if t.color rr ≠ x then loop Toroid.right (fun nn t => some (t.unlinkP nn)) rr (t.cells + 1) (t.right rr) t
    else if rr ≠ p then some { t with color := upd t.color rr (-1) }
    else some t) c (t.cells + 1) (t.down c) t

/-- models: adobe/implementation/toroid.hpp:251-270 `unpurify`. -/
def Toroid.unpurify (t : Toroid) (p : Node) : Option Toroid := do
  let c := Node.col (t.column p)
  let x := t.color p
  let t ← loop Toroid.up (fun rr t =>
    if t.color rr < 0 then some { t with color := upd t.color rr x }
    else if rr ≠ p then loop Toroid.left (fun nn t => some (t.relinkP nn)) rr (t.cells + 1) (t.left rr) t
    else some t) c (t.cells + 1) (t.up c) t
  return { t with color := upd t.color c 0 }

/-! ### the search -/

/-- models: adobe/dancing_links.hpp:225-228 the members, and what the callback was called with. -/
structure Search where
  toroid : Toroid
  output : List Node
  solutions : Nat
  calls : List (Nat × Bool)

/-- models: adobe/dancing_links.hpp:52-56 `select_right_heuristic_t`. -/
def selectRight (t : Toroid) : Node := t.right .head

/-- the column of a header -/
def Node.index : Node → Nat
  | .col c => c
  | _ => 0

/-- models: adobe/dancing_links.hpp:65-74: the loop of the heuristic. -/
def constrainedLoop (t : Toroid) : Nat → Node → Node → Nat → Option Node
  | 0, _, _, _ => none
  | n + 1, p, c, sz =>
    if p = .head then some c
    else
      let (c, sz) := if t.size p.index < sz then (p, t.size p.index) else (c, sz)
      if sz = 1 then some c else constrainedLoop t n (t.right p) c sz

/-- models: adobe/dancing_links.hpp:60-77 `select_most_constrained_heuristic_t`; it would not end on a broken list (then: the first column). -/
def selectMostConstrained (t : Toroid) : Node :=
  let c := t.right .head
  (constrainedLoop t (t.cols + 1) (t.right c) c (t.size c.index)).getD c

/-- models: adobe/dancing_links.hpp:168-184: a column of the row is covered or purified. -/
def tryNode (j : Node) (t : Toroid) : Option Toroid :=
  if t.color j = 0 then t.cover (t.column j)
  else if 0 < t.color j then t.purify j
  else some t

/-- models: adobe/dancing_links.hpp:199-215: and this is undone. -/
def untryNode (j : Node) (t : Toroid) : Option Toroid :=
  if t.color j = 0 then t.uncover (t.column j)
  else if 0 < t.color j then t.unpurify j
  else some t

/-- the row is tried, 167-184 -/
def tryRow (r : Node) (t : Toroid) : Option Toroid := loop Toroid.right tryNode r (t.cells + 1) (t.right r) t

/-- 198-215 -/
def untryRow (r : Node) (t : Toroid) : Option Toroid := loop Toroid.left untryNode r (t.cells + 1) (t.left r) t

/-- models: adobe/dancing_links.hpp:127-139: the report of a solution; it reads `output_m[0]` to `output_m[k - 1]`. -/
def found (s : Search) (k : Nat) : Option Search :=
  if k ≤ s.output.length then
    some { s with
      solutions := s.solutions + 1
      calls := s.calls ++ (s.output.take k).mapIdx fun i n => (s.toroid.rowOf n, decide (i + 1 = k)) }
  else none

/-- models: adobe/dancing_links.hpp:156-216 the loop over the rows of the column, and 218 after it; `deeper` is the recursive call. -/
def branches (max : Nat) (deeper : Search → Option Search) (k : Nat) : Nat → Node → Node → Search → Option Search
  | 0, _, _, _ => none
  | m + 1, r, c, s =>
    if r = c then
      match s.toroid.uncover c.index with
      | none => none
      | some t => some { s with toroid := t }
    else if s.output.length ≤ k then none
    else
      let s := { s with output := s.output.set k r }
      match tryRow r s.toroid with
      | none => none
      | some t =>
        match deeper { s with toroid := t } with
        | none => none
        | some s =>
          if max ≤ s.solutions then some s
          else
            let r := s.output.getD k .head
            let c := Node.col (s.toroid.column r)
            match untryRow r s.toroid with
            | none => none
            | some t => branches max deeper k m (t.down r) c { s with toroid := t }

/-- models: adobe/dancing_links.hpp:125-223 `do_search`. -/
def doSearch (max : Nat) (heuristic : Toroid → Node) : Nat → Nat → Search → Option Search
  | 0, _, _ => none
  | n + 1, k, s =>
    if s.toroid.right .head = .head then found s k
    else
      let c := heuristic s.toroid
      match s.toroid.cover c.index with
      | none => none
      | some t => branches max (doSearch max heuristic n (k + 1)) k (t.cells + 1) (t.down c) c { s with toroid := t }

/-- the calls of `set` and `set_secondary_column` before the search -/
inductive Command where
  | set (r c : Nat) (color : Int)
  | secondary (c : Nat)

def Command.run (t : Toroid) : Command → Toroid
  | .set r c color => t.set r c color
  | .secondary c => t.setSecondary c

/-- the problem that the calls describe -/
def problemOf (rows cols : Nat) (cmds : List Command) : Problem where
  rows := rows
  cols := cols
  entries := cmds.filterMap fun c => match c with | .set r c x => some ⟨r, c, x⟩ | .secondary _ => none
  secondary := cmds.filterMap fun c => match c with | .set _ _ _ => none | .secondary c => some c

/-- models: adobe/dancing_links.hpp:94-105 the constructor and the calls that set up the problem. -/
def setup (rows cols : Nat) (cmds : List Command) : Search where
  toroid := cmds.foldl Command.run (Toroid.init rows cols)
  output := List.replicate cols .head
  solutions := 0
  calls := []

/-- models: adobe/dancing_links.hpp:113-123 `search`: the number of solutions and what the callback saw. -/
def search (s : Search) (max : Nat) (heuristic : Toroid → Node) : Option (Nat × List (Nat × Bool)) :=
  let t := s.toroid.finalize
  match doSearch max heuristic (t.cols + 1) 0 { s with toroid := t } with
  | none => none
  | some s => some (s.solutions, s.calls)

end Verif.Dlx
