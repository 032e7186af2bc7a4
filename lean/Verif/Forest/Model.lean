import Verif.Common.Ring
/-
Model of adobe/forest.hpp at the level of nodes and links.

A node is an address; a position (iterator) is a node and an edge (`true` = leading, `false` = trailing).  Every node has four
links, `nxt`/`prv` for each edge; a link holds a node, the edge has to be inferred.  A forest is identified with the address
of its `tail_m` node, which has links but no value.  Several forests live in one heap.

Deleting a node removes its value and overwrites its links with arbitrary `junk`: nothing may depend on them.
Simplifications: the address of a new node is a parameter of the operation (the allocator's choice); copying values does not
throw; loops take a bound on the number of rounds and have no result (`none`) if it does not suffice.
-/
namespace Verif.Forest
open Verif.Ring

/-- models: adobe/forest.hpp:398-459 `forest_iterator`: node and edge. -/
abbrev Pos := Nat × Bool

/-- models: adobe/forest.hpp:356-390 `node_base`/`node` for all nodes. -/
structure Heap (α : Type) where
  nxt : Pos → Nat
  prv : Pos → Nat
  val : Nat → Option α

/-- models: adobe/forest.hpp:693-694: the data members of all forests; `size t` is `size_m` of the forest with tail `t`. -/
structure St (α : Type) where
  heap : Heap α
  size : Nat → Nat

variable {α : Type}

/-- models: adobe/forest.hpp:429-438 `increment`. -/
def Heap.inc (h : Heap α) (p : Pos) : Pos :=
  let n := h.nxt p
  if p.2 then (n, decide (n ≠ p.1)) else (n, decide (h.prv (n, true) = p.1))

/-- models: adobe/forest.hpp:440-449 `decrement`. -/
def Heap.dec (h : Heap α) (p : Pos) : Pos :=
  let n := h.prv p
  if p.2 then (n, decide (h.nxt (n, false) ≠ p.1)) else (n, decide (n = p.1))

/-- models: adobe/forest.hpp:539-548 `set_next_fn<forest_iterator>`. -/
def Heap.setNext (h : Heap α) (x y : Pos) : Heap α :=
  { h with nxt := upd h.nxt x y.1, prv := upd h.prv y x.1 }

/-- models: adobe/forest.hpp:43-52 `pivot_of`. -/
def pivot (p : Pos) : Pos := (p.1, !p.2)
/-- models: adobe/forest.hpp:56-60 `leading_of`. -/
def leadingOf (p : Pos) : Pos := (p.1, true)
/-- models: adobe/forest.hpp:62-66 `trailing_of`. -/
def trailingOf (p : Pos) : Pos := (p.1, false)

/-- models: adobe/forest.hpp:81-84 `has_children`. -/
def Heap.hasChildren (h : Heap α) (p : Pos) : Bool := decide ((h.inc (leadingOf p)).1 ≠ p.1)

/-- `new node_t(x)` at address `n`; models: adobe/forest.hpp:373-390 (all four links point to the node itself). -/
def Heap.new (h : Heap α) (n : Nat) (x : α) : Heap α :=
  { nxt := upd (upd h.nxt (n, true) n) (n, false) n, prv := upd (upd h.prv (n, true) n) (n, false) n,
    val := upd h.val n (some x) }

/-- `delete node` -/
def Heap.delete (junk : Pos → Nat) (h : Heap α) (n : Nat) : Option (Heap α) :=
  match h.val n with
  | none => none
  | some _ => some { nxt := fun p => if p.1 = n then junk p else h.nxt p, prv := fun p => if p.1 = n then junk p else h.prv p,
                     val := upd h.val n none }

/-- models: adobe/forest.hpp:613 `root`. -/
def root (t : Nat) : Pos := (t, true)
/-- models: adobe/forest.hpp:617 `end`. -/
def end_ (t : Nat) : Pos := (t, false)
/-- models: adobe/forest.hpp:616 `begin`. -/
def Heap.begin (h : Heap α) (t : Nat) : Pos := h.inc (root t)

/-- models: adobe/forest.hpp:610 `empty`. -/
def Heap.empty (h : Heap α) (t : Nat) : Bool := decide (h.begin t = end_ t)
/-- models: adobe/forest.hpp:609 `size_valid`. -/
def St.sizeValid (s : St α) (t : Nat) : Bool := decide (s.size t ≠ 0) || s.heap.empty t

/-- models: adobe/forest.hpp:588 `forest() = default` for a forest whose tail is at `t`. -/
def St.create (s : St α) (t : Nat) : St α :=
  { heap := { nxt := upd (upd s.heap.nxt (t, true) t) (t, false) t, prv := upd (upd s.heap.prv (t, true) t) (t, false) t,
              val := s.heap.val }
    size := upd s.size t 0 }

/-- models: adobe/forest.hpp:652-662 `insert(position, x)`; the new node is at `n`. -/
def St.insert (s : St α) (t : Nat) (pos : Pos) (x : α) (n : Nat) : St α × Pos :=
  let h := s.heap.new n x
  let result : Pos := (n, true)
  let size := if s.sizeValid t then upd s.size t (s.size t + 1) else s.size
  let h := h.setNext (h.dec pos) result
  let h := h.setNext (h.inc result) pos
  (⟨h, size⟩, result)

/-- models: adobe/forest.hpp:804-830 `erase(position)`. -/
def St.erase (junk : Pos → Nat) (s : St α) (t : Nat) (pos : Pos) : Option (St α × Pos) :=
  let size := if s.sizeValid t then upd s.size t (s.size t - 1) else s.size
  let h := s.heap
  let lp := h.dec (leadingOf pos)
  let ln := h.inc (leadingOf pos)
  let tp := h.dec (trailingOf pos)
  let tn := h.inc (trailingOf pos)
  let h := if h.hasChildren pos then (h.setNext lp ln).setNext tp tn else h.setNext lp tn
  match h.delete junk pos.1 with
  | none => none
  | some h => some (⟨h, size⟩, if pos.2 then h.inc lp else tn)

/-- models: adobe/forest.hpp:782-800 `erase(first, last)`. -/
def St.eraseLoop (junk : Pos → Nat) (t : Nat) (last : Pos) : Nat → St α → Pos → Nat → Option (St α)
  | 0, s, pos, _ => if pos = last then some s else none
  | fuel + 1, s, pos, depth =>
    if pos = last then some s
    else if pos.2 then St.eraseLoop junk t last fuel s (s.heap.inc pos) (depth + 1)
    else if 0 < depth then
      match s.erase junk t pos with
      | none => none
      | some (s', pos') => St.eraseLoop junk t last fuel s' pos' (depth - 1)
    else St.eraseLoop junk t last fuel s (s.heap.inc pos) 0

def St.eraseRange (junk : Pos → Nat) (fuel : Nat) (s : St α) (t : Nat) (first last : Pos) : Option (St α × Pos) :=
  (St.eraseLoop junk t last fuel s first 0).map (fun s => (s, last))

/-- models: adobe/forest.hpp:644-647 `clear`. -/
def St.clear (junk : Pos → Nat) (fuel : Nat) (s : St α) (t : Nat) : Option (St α) :=
  (s.eraseRange junk fuel t (s.heap.begin t) (end_ t)).map Prod.fst

/-- models: adobe/forest.hpp:99-102 `child_iterator::increment`. -/
def Heap.childInc (h : Heap α) (p : Pos) : Pos := h.inc (pivot p)
/-- models: adobe/forest.hpp:103-106 `child_iterator::decrement`. -/
def Heap.childDec (h : Heap α) (p : Pos) : Pos := pivot (h.dec p)
/-- models: adobe/forest.hpp:730-735 `set_next_fn<child_iterator>`. -/
def Heap.childSetNext (h : Heap α) (x y : Pos) : Heap α := h.setNext (pivot x) y

/-- models: adobe/forest.hpp:863-889 `splice(pos, x, first, last, count)`: moves the trees `first … last` of the forest with
    tail `u` before `pos` in the forest with tail `t`. -/
def St.spliceN (s : St α) (t : Nat) (pos : Pos) (u : Nat) (first last : Pos) (count : Nat) : St α × Pos :=
  if first = last ∨ first = pos then (s, pos)
  else
    let size :=
      if u ≠ t then
        if count ≠ 0 then
          let z := if s.sizeValid t then upd s.size t (s.size t + count) else s.size
          if s.sizeValid u then upd z u (z u - count) else z
        else upd (upd s.size t 0) u 0
      else s.size
    let h := s.heap
    let back := h.dec last
    let h := h.childSetNext (h.childDec first) last
    let h := h.setNext (h.dec pos) first
    let h := h.setNext back pos
    (⟨h, size⟩, first)

/-- models: adobe/forest.hpp:893-897 `splice(pos, x, first, last)`. -/
def St.spliceRange (s : St α) (t : Nat) (pos : Pos) (u : Nat) (first last : Pos) : St α × Pos :=
  s.spliceN t pos u first last 0

/-- models: adobe/forest.hpp:842-846 `splice(position, x, i)`. -/
def St.spliceOne (s : St α) (t : Nat) (pos : Pos) (u : Nat) (i : Pos) : St α × Pos :=
  let i := leadingOf i
  s.spliceN t pos u i (s.heap.childInc i) (if s.heap.hasChildren i then 0 else 1)

/-- models: adobe/forest.hpp:111-116 and 131 `edge_iterator` construction / `find_edge`. -/
def Heap.findEdge (h : Heap α) (e : Bool) : Nat → Pos → Option Pos
  | 0, p => if p.2 = e then some p else none
  | fuel + 1, p => if p.2 = e then some p else h.findEdge e fuel (h.inc p)

/-- models: adobe/forest.hpp:138 `edge_iterator::increment`. -/
def Heap.edgeInc (h : Heap α) (e : Bool) (fuel : Nat) (p : Pos) : Option Pos := h.findEdge e fuel (h.inc p)

/-- The positions visited by `for (i = p; i != l; ++i)` with an edge iterator. -/
def Heap.edgeWalk (h : Heap α) (e : Bool) (fuel : Nat) (l : Pos) : Nat → Pos → Option (List Pos)
  | 0, p => if p = l then some [] else none
  | m + 1, p =>
    if p = l then some []
    else match h.edgeInc e fuel p with
      | none => none
      | some p' => (h.edgeWalk e fuel l m p').map (p :: ·)

/-- preorder (`e = true`) or postorder range: `edge_iterator(begin())` … `edge_iterator(end())`. -/
def Heap.edgeRange (h : Heap α) (e : Bool) (fuel : Nat) (t : Nat) : Option (List Pos) :=
  match h.findEdge e fuel (h.begin t), h.findEdge e fuel (end_ t) with
  | some f, some l => h.edgeWalk e fuel l fuel f
  | _, _ => none

/-- models: adobe/forest.hpp:768-778 `size()`, which also updates the cached value. -/
def St.getSize (fuel : Nat) (s : St α) (t : Nat) : Option (St α × Nat) :=
  if s.sizeValid t then some (s, s.size t)
  else match s.heap.edgeRange true fuel t with
    | none => none
    | some ps => some (⟨s.heap, upd s.size t ps.length⟩, ps.length)

/-- models: adobe/forest.hpp:834-838 `splice(position, x)`. -/
def St.splice (s : St α) (t : Nat) (pos : Pos) (u : Nat) : St α × Pos :=
  s.spliceN t pos u (s.heap.begin u) (end_ u) (if s.sizeValid u then s.size u else 0)

/-- models: adobe/forest.hpp:901-909 `insert_parent`. -/
def St.insertParent (s : St α) (t : Nat) (first last : Pos) (x : α) (n : Nat) : St α × Pos :=
  let r := s.insert t last x n
  let s := r.1
  let result := r.2
  if first = last then (s, result)
  else ((s.spliceRange t (trailingOf result) t first result).1, result)

/-- models: adobe/algorithm/reverse.hpp:45-53 `reverse_append` on child iterators. -/
def Heap.reverseAppend (last : Pos) : Nat → Heap α → Pos → Pos → Option (Heap α × Pos)
  | 0, h, first, result => if first = last then some (h, result) else none
  | fuel + 1, h, first, result =>
    if first = last then some (h, result)
    else Heap.reverseAppend last fuel (h.childSetNext first result) (h.childInc first) first

/-- models: adobe/forest.hpp:913-919 `reverse`. -/
def St.reverse (fuel : Nat) (s : St α) (first last : Pos) : Option (St α) :=
  let prior := s.heap.dec first
  match s.heap.reverseAppend last fuel first last with
  | none => none
  | some (h, first) => some ⟨h.setNext prior first, s.size⟩

/-- models: adobe/forest.hpp:850-859 `insert(pos, f, l)`: copies the trees `f … l`; `alloc` lists the addresses of the new
    nodes. -/
def St.insertCopy (t : Nat) (last : Pos) : Nat → St α → Pos → Pos → List Nat → Option (St α × Pos)
  | 0, s, pos, first, _ => if first = last then some (s, pos) else none
  | fuel + 1, s, pos, first, alloc =>
    if first = last then some (s, pos)
    else if first.2 then
      match s.heap.val first.1, alloc with
      | some x, n :: alloc =>
        let r := s.insert t pos x n
        St.insertCopy t last fuel r.1 (r.1.heap.inc r.2) (r.1.heap.inc first) alloc
      | _, _ => none
    else St.insertCopy t last fuel s (s.heap.inc pos) (s.heap.inc first) alloc

/-- models: adobe/forest.hpp:745-748 copy constructor: new forest at `t` from the forest at `u`. -/
def St.copy (fuel : Nat) (s : St α) (t u : Nat) (alloc : List Nat) : Option (St α) :=
  let s := s.create t
  (St.insertCopy t (end_ u) fuel s (end_ t) (s.heap.begin u) alloc).map Prod.fst

/-- models: adobe/forest.hpp:589 `~forest`: the nodes are erased and the tail disappears. -/
def St.destroy (junk : Pos → Nat) (fuel : Nat) (s : St α) (t : Nat) : Option (St α) :=
  (s.clear junk fuel t).map fun s =>
    ⟨{ s.heap with nxt := fun p => if p.1 = t then junk p else s.heap.nxt p, prv := fun p => if p.1 = t then junk p else s.heap.prv p },
      upd s.size t 0⟩

/-- models: adobe/forest.hpp:753-755 move constructor: new forest at `t` takes over the nodes of the forest at `u`. -/
def St.moveCtor (s : St α) (t u : Nat) : St α := ((s.create t).splice t (end_ t) u).1

/-- models: adobe/forest.hpp:598-602 move assignment. -/
def St.moveAssign (junk : Pos → Nat) (fuel : Nat) (s : St α) (t u : Nat) : Option (St α) :=
  (s.clear junk fuel t).map fun s => (s.splice t (end_ t) u).1

/-- models: adobe/forest.hpp:593-597 copy assignment; the temporary's tail is at `tmp`. -/
def St.copyAssign (junk : Pos → Nat) (fuel : Nat) (s : St α) (t u tmp : Nat) (alloc : List Nat) : Option (St α) :=
  match s.copy fuel tmp u alloc with
  | none => none
  | some s =>
    match s.moveAssign junk fuel t tmp with
    | none => none
    | some s => s.destroy junk fuel tmp

/-- models: adobe/forest.hpp:760-762 `swap`, i.e. `std::swap`; the temporary's tail is at `tmp`. -/
def St.swap (junk : Pos → Nat) (fuel : Nat) (s : St α) (t u tmp : Nat) : Option (St α) :=
  let s := s.moveCtor tmp t
  match s.moveAssign junk fuel t u with
  | none => none
  | some s =>
    match s.moveAssign junk fuel u tmp with
    | none => none
    | some s => s.destroy junk fuel tmp

/-- models: adobe/forest.hpp:708-714 the loop of `operator==`; `veq` is `==` of the values. -/
def Heap.eqLoop (veq : α → α → Bool) (h : Heap α) (last : Pos) : Nat → Pos → Pos → Option Bool
  | 0, first, _ => if first = last then some true else none
  | fuel + 1, first, pos =>
    if first = last then some true
    else if first.2 ≠ pos.2 then some false
    else if first.2 then
      match h.val first.1, h.val pos.1 with
      | some a, some b => if veq a b then h.eqLoop veq last fuel (h.inc first) (h.inc pos) else some false
      | _, _ => none
    else h.eqLoop veq last fuel (h.inc first) (h.inc pos)

/-- models: adobe/forest.hpp:703-717 `operator==`. -/
def St.eq (veq : α → α → Bool) (fuel : Nat) (s : St α) (t u : Nat) : Option (St α × Bool) :=
  match s.getSize fuel t with
  | none => none
  | some (s, n) =>
    match s.getSize fuel u with
    | none => none
    | some (s, m) =>
      if n ≠ m then some (s, false)
      else (s.heap.eqLoop veq (end_ t) fuel (s.heap.begin t) (s.heap.begin u)).map (fun b => (s, b))

/-- The positions visited by `for (i = p; i != l; ++i)`. -/
def Heap.walk (h : Heap α) (l : Pos) : Nat → Pos → Option (List Pos)
  | 0, p => if p = l then some [] else none
  | m + 1, p => if p = l then some [] else (h.walk l m (h.inc p)).map (p :: ·)

/-- The positions visited by `for (i = p; i != l; --i)`, excluding `l`. -/
def Heap.walkBack (h : Heap α) (l : Pos) : Nat → Pos → Option (List Pos)
  | 0, p => if p = l then some [] else none
  | m + 1, p => if p = l then some [] else (h.walkBack l m (h.dec p)).map (p :: ·)

/-- The positions visited by a child iterator from `p` to `l`. -/
def Heap.childWalk (h : Heap α) (l : Pos) : Nat → Pos → Option (List Pos)
  | 0, p => if p = l then some [] else none
  | m + 1, p => if p = l then some [] else (h.childWalk l m (h.childInc p)).map (p :: ·)

/-- models: adobe/forest.hpp:923-933 and 968-971 `child_range(x)`, enumerated. -/
def Heap.childRange (h : Heap α) (fuel : Nat) (x : Pos) : Option (List Pos) :=
  h.childWalk (trailingOf x) fuel (h.inc (leadingOf x))

/-- models: adobe/forest.hpp:70-77 `find_parent`. -/
def Heap.findParent (h : Heap α) : Nat → Pos → Option Pos
  | 0, _ => none
  | fuel + 1, i =>
    let i := h.inc (trailingOf i)
    if i.2 ≠ false then h.findParent fuel i else some i

/-- models: adobe/forest.hpp:328-333 `depth_fullorder_iterator::increment`. -/
def Heap.depthInc (h : Heap α) (i : Pos × Int) : Pos × Int :=
  let p := h.inc i.1
  (p, if i.1.2 = p.2 then i.2 + ((if i.1.2 then 2 else 0) - 1) else i.2)

/-- enumeration of `depth_range` -/
def Heap.depthWalk (h : Heap α) (l : Pos) : Nat → Pos × Int → Option (List (Pos × Int))
  | 0, i => if i.1 = l then some [] else none
  | m + 1, i => if i.1 = l then some [] else (h.depthWalk l m (h.depthInc i)).map (i :: ·)

/-- models: adobe/forest.hpp:251-302 `reverse_fullorder_iterator`: base and edge. -/
structure RevIt where
  base : Pos
  edge : Bool
  deriving DecidableEq

/-- constructor, lines 265-266 -/
def Heap.revMk (h : Heap α) (x : Pos) : RevIt := let b := h.dec x; ⟨b, !b.2⟩
/-- `increment`, lines 283-287 -/
def Heap.revInc (h : Heap α) (i : RevIt) : RevIt := let b := h.dec (i.base.1, !i.edge); ⟨b, !b.2⟩

/-- enumeration of `reverse_fullorder_range`: node and edge as reported -/
def Heap.revWalk (h : Heap α) (l : RevIt) : Nat → RevIt → Option (List Pos)
  | 0, i => if i = l then some [] else none
  | m + 1, i => if i = l then some [] else (h.revWalk l m (h.revInc i)).map ((i.base.1, i.edge) :: ·)

/-- models: adobe/forest.hpp:197-205 `skip_forward`; `none` if `p` is applied to a node without a value. -/
def Heap.skipForward (h : Heap α) (p : α → Bool) (l : Pos) : Nat → Pos → Option Pos
  | 0, _ => none
  | fuel + 1, f =>
    if f.2 ∧ f ≠ l then
      match h.val f.1 with
      | none => none
      | some v => if p v then some f else h.skipForward p l fuel (h.inc (trailingOf f))
    else some f

/-- models: adobe/forest.hpp:184-195 `filter_fullorder_iterator::increment` (iterator and `inside_m`). -/
def Heap.filterInc (h : Heap α) (p : α → Bool) (first last : Pos) (fuel : Nat) (i : Pos × Bool) : Option (Pos × Bool) :=
  let inside := if i.1 = last then false else i.2
  let j := h.inc i.1
  let inside := if j = first then true else inside
  if inside then (h.skipForward p last fuel j).map (fun j => (j, inside)) else some (j, inside)

/-- enumeration of `filter_fullorder_range(forest, p)`: base positions until the end iterator's base. -/
def Heap.filterWalk (h : Heap α) (p : α → Bool) (first last : Pos) (fuel : Nat) : Nat → Pos × Bool → Option (List Pos)
  | 0, i => if i.1 = last then some [] else none
  | m + 1, i =>
    if i.1 = last then some []
    else match h.filterInc p first last fuel i with
      | none => none
      | some j => (h.filterWalk p first last fuel m j).map (i.1 :: ·)

def Heap.filterRange (h : Heap α) (p : α → Bool) (fuel : Nat) (t : Nat) : Option (List Pos) :=
  match h.skipForward p (end_ t) fuel (h.begin t) with
  | none => none
  | some f => h.filterWalk p (h.begin t) (end_ t) fuel fuel (f, true)

/-! ### one operation of a client program -/

/-- the operations on forests; forests are named by the address of their tail -/
inductive Op (α : Type) where
  | create (t : Nat)
  | insert (t : Nat) (pos : Pos) (x : α) (n : Nat)
  | erase (t : Nat) (pos : Pos)
  | eraseRange (t : Nat) (first last : Pos)
  | clear (t : Nat)
  | splice (t : Nat) (pos : Pos) (u : Nat)
  | spliceOne (t : Nat) (pos : Pos) (u : Nat) (i : Pos)
  | spliceRange (t : Nat) (pos : Pos) (u : Nat) (first last : Pos)
  | insertParent (t : Nat) (first last : Pos) (x : α) (n : Nat)
  | insertCopy (t : Nat) (pos : Pos) (first last : Pos) (alloc : List Nat)
  | copy (t u : Nat) (alloc : List Nat)
  | moveCtor (t u : Nat)
  | moveAssign (t u : Nat)
  | copyAssign (t u tmp : Nat) (alloc : List Nat)
  | swap (t u tmp : Nat)
  | destroy (t : Nat)
  | size (t : Nat)
  | reverse (first last : Pos)

/-- what an operation returns -/
inductive Out where
  | none
  | pos (p : Pos)
  | num (n : Nat)

def outPos (r : St α × Pos) : St α × Out := (r.1, .pos r.2)
def outNone (s : St α) : St α × Out := (s, .none)

/-- one call; `junk` is what freed memory looks like, `fuel` bounds the loops -/
def St.exec (junk : Pos → Nat) (fuel : Nat) (s : St α) : Op α → Option (St α × Out)
  | .create t => some (outNone (s.create t))
  | .insert t pos x n => some (outPos (s.insert t pos x n))
  | .erase t pos => (s.erase junk t pos).map outPos
  | .eraseRange t f l => (s.eraseRange junk fuel t f l).map outPos
  | .clear t => (s.clear junk fuel t).map outNone
  | .splice t pos u => some (outPos (s.splice t pos u))
  | .spliceOne t pos u i => some (outPos (s.spliceOne t pos u i))
  | .spliceRange t pos u f l => some (outPos (s.spliceRange t pos u f l))
  | .insertParent t f l x n => some (outPos (s.insertParent t f l x n))
  | .insertCopy t pos f l alloc => (St.insertCopy t l fuel s pos f alloc).map outPos
  | .copy t u alloc => (s.copy fuel t u alloc).map outNone
  | .moveCtor t u => some (outNone (s.moveCtor t u))
  | .moveAssign t u => (s.moveAssign junk fuel t u).map outNone
  | .copyAssign t u tmp alloc => (s.copyAssign junk fuel t u tmp alloc).map outNone
  | .swap t u tmp => (s.swap junk fuel t u tmp).map outNone
  | .destroy t => (s.destroy junk fuel t).map outNone
  | .size t => (s.getSize fuel t).map fun r => (r.1, .num r.2)
  | .reverse f l => (s.reverse fuel f l).map outNone

/-- the call terminates, without touching a dead node, with this state and result -/
def St.Call (junk : Pos → Nat) (s : St α) (op : Op α) (s' : St α) (out : Out) : Prop :=
  ∃ fuel, s.exec junk fuel op = some (s', out)

end Verif.Forest
