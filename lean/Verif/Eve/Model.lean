/-
The layout engine of Eve: `source/eve.cpp`, `adobe/eve.hpp`, `adobe/layout_attributes.hpp`,
`adobe/extents.hpp`.

Simplifications, for the whole file:
* C++ `int` is `Int` (signed overflow, which is undefined in C++, does not occur in the model).
* The forest `proxies_m` is a rose tree with one root (documented: "There can only be one topmost
  view").  The filtered iterators (`filter_visible`) visit the visible views below visible views;
  the iterators themselves are the subject of the Forest component.
* The attributes `placement_m`, `indent_m`, `create_m`, `spacing_m` and `space_before_m`, which a
  `view_proxy_t` has once, are stored with each of the two slices.  `space_before_m` is written by
  `adjust_with` only, and read in the same slice only (a container is "with" in at most one slice).
* Reads outside of a guide set or of an empty spacing list, division by zero and the conversion of
  a floating point number that is not finite are the outcome `Err.ub`.
* `ADOBE_ASSERT` is that of a release build, except where a failing assertion is followed by
  undefined behaviour.
-/
namespace Verif.Eve

/-- models: adobe/layout_attributes.hpp:29-48 (`alignment_t`; `align_fill` is another name of
`align_forward_fill`, and left/top, right/bottom are forward, reverse). -/
inductive Align where
  | forward | reverse | center | proportional | forwardFill | reverseFill | default
  deriving DecidableEq, Repr

/-- models: adobe/layout_attributes.hpp:53-55 (`placement_t`). -/
inductive Placement where
  | leaf | column | row | overlay
  deriving DecidableEq, Repr

/-- models: adobe/extents.hpp:63-65 (`slice_select_t`). -/
inductive Slice where
  | horizontal | vertical
  deriving DecidableEq, Repr

/-- models: adobe/eve.hpp:80-86 (`evaluate_options_t`). -/
inductive Options where
  | nested | flat
  deriving DecidableEq, Repr

/-- How a call can end without a result: undefined behaviour, or the `std::logic_error` of
source/eve.cpp:990. -/
inductive Err where
  | ub | logicError
  deriving DecidableEq, Repr

/-- models: adobe/extents.hpp:75-83 (`extents_t::slice_t`; `inset_m` is not used by the engine). -/
structure Ext where
  length : Int := 0
  outset : Int × Int := (0, 0)
  frame : Int × Int := (0, 0)
  guides : List Int := []
  deriving DecidableEq, Repr

/-- models: adobe/layout_attributes.hpp:115-124 (`place_data_t::slice_t`). -/
structure Place where
  length : Int := 0
  position : Int := 0
  outset : Int × Int := (0, 0)
  guides : List Int := []
  deriving DecidableEq, Repr

/-- models: source/eve.cpp:87-126 (`view_proxy_t`) and adobe/layout_attributes.hpp:60-101
(`layout_attributes_t`), one slice of them. -/
structure Item where
  placement : Placement := .leaf
  indent : Int := 0
  create : Bool := true
  spacing : List Int := [0, 10]
  align : Align := .default
  suppress : Bool := false
  balance : Bool := false
  margin : Int × Int := (0, 0)
  childAlign : Align := .forward
  ext : Ext := {}
  place : Place := {}
  /-- `space_before_m` -/
  space : Int := 0
  /-- `container_length_m` -/
  clength : Int := 0
  /-- `measured_length_m` -/
  mlength : Int := 0
  /-- `container_guide_set_m[select][align_forward]` -/
  fwd : List Int := []
  /-- `container_guide_set_m[select][align_reverse]` -/
  rev : List Int := []
  deriving DecidableEq, Repr

def Item.leaf (i : Item) : Bool := i.placement == .leaf

/-- models: source/eve.cpp:204-207 (`is_with`), and the same case distinction of `solve_up`,
`solve_down`, `layout` and `adjust_outsets` (source/eve.cpp:635-645, 658-668, 681-691, 732-742). -/
def isWith (s : Slice) (p : Placement) : Bool :=
  (p == .column && s == .vertical) || (p == .row && s == .horizontal)

/-! ### Views -/

/-- The forest of views, with the flag `visible_m` of each. -/
inductive Tree (α : Type) where
  | node (visible : Bool) (a : α) (kids : List (Tree α))

namespace Tree
variable {α : Type}

def root : Tree α → α
  | .node _ a _ => a

def visible : Tree α → Bool
  | .node v _ _ => v

def kids : Tree α → List (Tree α)
  | .node _ _ ks => ks

def setRoot (t : Tree α) (a : α) : Tree α := .node t.visible a t.kids

/-- models: source/eve.cpp:51-57 (`child_begin`, `child_end`): the visible children. -/
def roots : List (Tree α) → List α
  | [] => []
  | t :: ts => if t.visible then t.root :: roots ts else roots ts

/-- The effect of changing the visible children through `child_iterator`s. -/
def setRoots : List (Tree α) → List α → List (Tree α)
  | [], _ => []
  | t :: ts, as =>
    if t.visible then
      match as with
      | a :: as' => t.setRoot a :: setRoots ts as'
      | [] => t :: setRoots ts []
    else t :: setRoots ts as

/-- models: the loops over `postorder_range()` (source/eve.cpp:262-264, e.g. 329-331): a member function
applied to every visible view and its visible children, children first. -/
def post (f : α → List α → Except Err (α × List α)) : Tree α → Except Err (Tree α)
  | .node false a ks => .ok (.node false a ks)
  | .node true a ks => do
    let ks' ← posts ks
    let (a', as') ← f a (roots ks')
    .ok (.node true a' (setRoots ks' as'))
where
  posts : List (Tree α) → Except Err (List (Tree α))
    | [] => .ok []
    | t :: ts => do
      let t' ← post f t
      let ts' ← posts ts
      .ok (t' :: ts')

mutual
/-- models: the loops over `preorder_range()` (source/eve.cpp:266-268, e.g. 354-360), below a view whose data is now `a`. -/
def preAt (f : α → List α → Except Err (α × List α × Bool)) : Tree α → α → Except Err (Tree α × Bool)
  | .node false a ks, _ => .ok (.node false a ks, false)
  | .node true _ ks, a => do
    let (a', as', b) ← f a (roots ks)
    let (ks', b') ← pre.pres f ks as'
    .ok (.node true a' ks', b || b')
/-- The children, the visible ones with their new data, in order. -/
def pre.pres (f : α → List α → Except Err (α × List α × Bool)) :
    List (Tree α) → List α → Except Err (List (Tree α) × Bool)
  | [], _ => .ok ([], false)
  | t :: ts, as =>
    if t.visible then do
      let (t', b) ← preAt f t (as.headD t.root)
      let (ts', b') ← pre.pres f ts as.tail
      .ok (t' :: ts', b || b')
    else do
      let (ts', b) ← pre.pres f ts as
      .ok (t :: ts', b)
end

/-- models: the loops over `preorder_range()` (source/eve.cpp:266-268, e.g. 354-360); the flag says
whether some call reported progress. -/
def pre (f : α → List α → Except Err (α × List α × Bool)) (t : Tree α) : Except Err (Tree α × Bool) :=
  preAt f t t.root

end Tree

/-! ### adjust -/

/-- models: source/eve.cpp:587-592. -/
def resolve (p c : Item) : Item :=
  if c.align = .default then { c with align := p.childAlign } else c

/-- models: source/eve.cpp:594-617. -/
def leafGuides (c : Item) : Item :=
  if c.leaf then
    match c.align with
    | .forward | .forwardFill => { c with fwd := c.ext.guides }
    | .reverse | .reverseFill =>
      { c with rev := (c.ext.guides.map (fun g => c.ext.length - g)).reverse }
    | _ => c
  else c

/-- The cases `align_forward`, `align_forward_fill`, `align_reverse_fill` (source/eve.cpp:1327-1329,
1443-1445, 1185-1194). -/
def Align.fwdSide : Align → Bool
  | .forward | .forwardFill | .reverseFill => true
  | _ => false

/-- The cases `align_reverse`, `align_reverse_fill`, `align_forward_fill` (source/eve.cpp:1292-1294). -/
def Align.revSide : Align → Bool
  | .reverse | .forwardFill | .reverseFill => true
  | _ => false

def Item.usesFwd (c : Item) : Bool := c.align.fwdSide && !c.suppress
def Item.usesRev (c : Item) : Bool := c.align.revSide && !c.suppress

/-- models: the `default:` case of source/eve.cpp:1196-1198 and 1247-1249. -/
def mark (c : Item) : Item :=
  if c.align.fwdSide || c.align.revSide then c else { c with suppress := true }

/-- models: source/eve.cpp:1139-1151: the spacing is copied, the last one is repeated. -/
def setSpaces : List Int → Int → List Item → List Item
  | _, _, [] => []
  | [], last, c :: cs => { c with space := last } :: setSpaces [] last cs
  | s :: ss, last, c :: cs => { c with space := s } :: setSpaces ss last cs

/-- models: source/eve.cpp:1112-1205 (`adjust_with`). -/
def adjustWith (p : Item) (kids : List Item) : Except Err (Item × List Item) :=
  match p.spacing.getLast? with
  | none => .error .ub
  | some last =>
    let kids := (setSpaces p.spacing last kids).map mark
    .ok ({ p with
            fwd := List.replicate ((kids.map (fun c => if c.usesFwd then c.fwd.length else 0)).sum) 0
            rev := List.replicate ((kids.map (fun c => if c.usesRev then c.rev.length else 0)).sum) 0 },
      kids)

/-- models: source/eve.cpp:1209-1255 (`adjust_cross`). -/
def adjustCross (p : Item) (kids : List Item) : Item × List Item :=
  let kids := kids.map mark
  ({ p with
      fwd := List.replicate
        ((kids.map (fun c => if c.usesFwd then c.fwd.length else 0)).foldl max 0) 0
      rev := List.replicate
        ((kids.map (fun c => if c.usesRev then c.rev.length else 0)).foldl max 0) 0 },
    kids)

/-- models: source/eve.cpp:579-625 (`view_proxy_t::adjust`). -/
def adjustStep (s : Slice) (p : Item) (kids : List Item) : Except Err (Item × List Item) :=
  if p.leaf then .ok (p, kids)
  else
    let kids := kids.map (fun c => leafGuides (resolve p c))
    if isWith s p.placement then adjustWith p kids else .ok (adjustCross p kids)

/-! ### solve_up -/

/-- models: the inner loops of source/eve.cpp:1302-1306 (and 1338-1342, 1449-1455): `*it = max(*it, g + off)` for the
guides `g` of a child.  Result: the changed part of the container guides and the rest. -/
def raise (off : Int) : List Int → List Int → Except Err (List Int × List Int)
  | [], base => .ok ([], base)
  | _ :: _, [] => .error .ub
  | g :: gs, b :: base => do
    let (x, y) ← raise off gs base
    .ok (max b (g + off) :: x, y)

/-- models: the snap of a leaf to its first guide, source/eve.cpp:1344-1348 and 1308-1314. -/
def snap (c : Item) (guides childGuides : List Int) (len : Int) : Int :=
  match guides, childGuides with
  | x :: _, g :: _ => if c.leaf then x - g else len
  | _, _ => len

/-- models: source/eve.cpp:1324-1354, the loop over the children.  Result: length and guides. -/
def upFwd : Int → List Int → List Item → Except Err (Int × List Int)
  | len, rest, [] => .ok (len, rest)
  | len, rest, c :: cs =>
    if c.usesFwd then do
      let (x, rest') ← raise (len + c.space) c.fwd rest
      let (l, gs) ← upFwd (snap c x c.fwd (len + c.space) + c.clength) rest' cs
      .ok (l, x ++ gs)
    else upFwd (len + c.space + c.clength) rest cs

/-- models: source/eve.cpp:1289-1322, the loop over the children from last to first.
Result: the additional length and guides. -/
def upRev : Int → Int → List Int → List Item → Except Err (Int × List Int)
  | _, add, rest, [] => .ok (add, rest)
  | rlen, add, rest, c :: cs =>
    if c.usesRev then do
      let (x, rest') ← raise rlen c.rev rest
      let rlen' := snap c x c.rev rlen
      let (l, gs) ← upRev (rlen' + (c.clength + c.space)) (add + (rlen' - rlen)) rest' cs
      .ok (l, x ++ gs)
    else upRev (rlen + (c.clength + c.space)) add rest cs

/-- models: adobe/numeric.hpp:44-74 (`max_adjacent_difference`): the difference at the iterator returned. -/
def maxAdjacent : Int → Int → List Int → Int
  | _, best, [] => best
  | prev, best, x :: xs => maxAdjacent x (if best < x - prev then x - prev else best) xs

/-- models: `std::generate` with the accumulating lambda, source/eve.cpp:1363-1365. -/
def progression (d : Int) : Int → List Int → List Int
  | _, [] => []
  | acc, _ :: xs => (acc + d) :: progression d (acc + d) xs

/-- models: source/eve.cpp:1358-1366. -/
def balanced (b : Bool) (gs : List Int) : List Int :=
  if b && decide (gs.length > 2) then
    match gs with
    | x :: y :: zs => x :: progression (maxAdjacent y (y - x) zs) x (y :: zs)
    | _ => gs
  else gs

def Item.near (p : Item) : Int := p.ext.frame.1 + p.margin.1
def Item.far (p : Item) : Int := p.ext.frame.2 + p.margin.2

/-- models: source/eve.cpp:1259-1375 (`solve_up_with`). -/
def upWith (p : Item) (kids : List Item) : Except Err Item := do
  let (add, rev) ← upRev p.far p.far p.rev kids.reverse
  let (len, fwd) ← upFwd p.near p.fwd kids
  .ok { p with
          fwd := balanced p.balance fwd
          rev := rev
          mlength := len + add
          clength := max (len + add) p.clength }

/-- models: the indent in source/eve.cpp:1427-1438. -/
def Item.fwdIndent (c : Item) : Int :=
  match c.align with
  | .forward | .forwardFill => c.indent
  | _ => 0

def Item.revIndent (c : Item) : Int :=
  match c.align with
  | .reverse | .reverseFill => c.indent
  | _ => 0

/-- models: source/eve.cpp:1440-1457 and 1459-1476: the guides of the container after one child. -/
def raiseChild (uses : Bool) (off : Int) (childGuides guides : List Int) : Except Err (List Int) :=
  if uses then do
    let (x, y) ← raise off childGuides guides
    .ok (x ++ y)
  else .ok guides

/-- models: source/eve.cpp:1417-1479, the guides of a container across its direction. -/
def crossGuides (near far : Int) : List Item → List Int → List Int → Except Err (List Int × List Int)
  | [], fwd, rev => .ok (fwd, rev)
  | c :: cs, fwd, rev => do
    let fwd' ← raiseChild c.usesFwd (near + c.fwdIndent) c.fwd fwd
    let rev' ← raiseChild c.usesRev (far + c.revIndent) c.rev rev
    crossGuides near far cs fwd' rev'

/-- models: source/eve.cpp:1508-1538: the offset of a leaf with guides is that of its first guide. -/
def leafOffset (c : Item) (uses : Bool) (guides childGuides : List Int) (off : Int) : Except Err Int :=
  if c.leaf && uses then
    match childGuides with
    | [] => .ok off
    | g :: _ =>
      match guides with
      | [] => .error .ub
      | x :: _ => .ok (x - g)
  else .ok off

/-- models: source/eve.cpp:1488-1542, the length of a container across its direction. -/
def crossLength (near far : Int) (fwd rev : List Int) : List Item → Int → Except Err Int
  | [], len => .ok len
  | c :: cs, len => do
    let f ← leafOffset c c.usesFwd fwd c.fwd (near + c.fwdIndent)
    let r ← leafOffset c c.usesRev rev c.rev (far + c.revIndent)
    crossLength near far fwd rev cs (max len (c.clength + f + r))

/-- models: source/eve.cpp:1400-1548 (`solve_up_cross`). -/
def upCross (p : Item) (kids : List Item) : Except Err Item := do
  let (fwd, rev) ← crossGuides p.near p.far kids p.fwd p.rev
  let len ← crossLength p.near p.far fwd rev kids (p.near + p.far)
  .ok { p with fwd := fwd, rev := rev, mlength := len, clength := max len p.clength }

/-- models: source/eve.cpp:635-646. -/
def upBoth (s : Slice) (p : Item) (kids : List Item) : Except Err Item :=
  if isWith s p.placement then upWith p kids else upCross p kids

/-- models: source/eve.cpp:631-647 (`solve_up`). -/
def upStep (s : Slice) (p : Item) (kids : List Item) : Except Err (Item × List Item) :=
  if p.leaf then .ok (p, kids)
  else do
    let p' ← upBoth s p kids
    .ok (p', kids)

/-! ### solve_down -/

/-- models: the inner loops of source/eve.cpp:1411-1421 (1463-1473, 1600-1607): the guides of a child become those of the
container, relative to the child.  Result: the guides, the unread guides of the container, and whether
something changed. -/
def impose (off : Int) : List Int → List Int → Except Err (List Int × List Int × Bool)
  | [], base => .ok ([], base, false)
  | _ :: _, [] => .error .ub
  | g :: gs, b :: base => do
    let (x, y, ch) ← impose off gs base
    .ok ((b - off) :: x, y, (b - off != g) || ch)

/-- models: source/eve.cpp:1398-1421: snap a leaf to its first guide, then impose the others.
Result: the new offset, the guides of the child, the unread guides, and whether something changed. -/
def imposeChild (c : Item) (off : Int) (childGuides guides : List Int) :
    Except Err (Int × List Int × List Int × Bool) :=
  match childGuides with
  | [] => .ok (off, [], guides, false)
  | g :: gs =>
    if c.leaf then
      match guides with
      | [] => .error .ub
      | x :: rest => do
        let (a, b, ch) ← impose (x - g) gs rest
        .ok (x - g, g :: a, b, ch)
    else do
      let (a, b, ch) ← impose off (g :: gs) guides
      .ok (off, a, b, ch)

/-- models: source/eve.cpp:1396-1428, children from last to first, until a change. -/
def downRev : Int → List Int → List Item → Except Err (List Item × Bool)
  | _, _, [] => .ok ([], false)
  | rlen, rest, c :: cs =>
    if c.usesRev then do
      let (rlen', gs, rest', ch) ← imposeChild c rlen c.rev rest
      let c' := { c with rev := gs }
      if ch then .ok (c' :: cs, true)
      else do
        let (cs', ch') ← downRev (rlen' + (c.clength + c.space)) rest' cs
        .ok (c' :: cs', ch')
    else do
      let (cs', ch') ← downRev (rlen + (c.clength + c.space)) rest cs
      .ok (c :: cs', ch')

/-- models: source/eve.cpp:1433-1478, children from first to last, until a change. -/
def downFwd : Int → List Int → List Item → Except Err (List Item × Bool)
  | _, _, [] => .ok ([], false)
  | len, rest, c :: cs =>
    if c.usesFwd then do
      let (len', gs, rest', ch) ← imposeChild c (len + c.space) c.fwd rest
      let c' := { c with fwd := gs }
      if ch then .ok (c' :: cs, true)
      else do
        let (cs', ch') ← downFwd (len' + c.clength) rest' cs
        .ok (c' :: cs', ch')
    else do
      let (cs', ch') ← downFwd (len + c.space + c.clength) rest cs
      .ok (c :: cs', ch')

/-- models: source/eve.cpp:1379-1396 ff. (`solve_down_with`). -/
def downWith (p : Item) (kids : List Item) : Except Err (List Item × Bool) := do
  let (ks, ch) ← downRev p.far p.rev kids.reverse
  if ch then .ok (ks.reverse, true) else downFwd p.near p.fwd kids

/-- models: source/eve.cpp:1593-1615 and 1619-1641: the guides of one child become those of the container. -/
def imposeUse (c : Item) (uses : Bool) (off : Int) (childGuides guides : List Int) :
    Except Err (List Int × Bool) :=
  if uses then do
    let (_, gs, _, ch) ← imposeChild c off childGuides guides
    .ok (gs, ch)
  else .ok (childGuides, false)

/-- models: source/eve.cpp:1552-1650 (`solve_down_cross`), one child. -/
def downCrossOne (p c : Item) : Except Err (Item × Bool) := do
  let (f, chf) ← imposeUse c c.usesFwd (p.near + c.fwdIndent) c.fwd p.fwd
  let (r, chr) ← imposeUse c c.usesRev (p.far + c.revIndent) c.rev p.rev
  .ok ({ c with fwd := f, rev := r }, chf || chr)

/-- models: source/eve.cpp:1563-1649, the loop. -/
def downCross (p : Item) : List Item → Except Err (List Item × Bool)
  | [] => .ok ([], false)
  | c :: cs => do
    let (c', ch) ← downCrossOne p c
    let (cs', ch') ← downCross p cs
    .ok (c' :: cs', ch || ch')

/-- models: source/eve.cpp:658-668. -/
def downBoth (s : Slice) (p : Item) (kids : List Item) : Except Err (List Item × Bool) :=
  if isWith s p.placement then downWith p kids else downCross p kids

/-- models: source/eve.cpp:651-671 (`solve_down`). -/
def downStep (s : Slice) (p : Item) (kids : List Item) : Except Err (Item × List Item × Bool) :=
  if p.leaf then .ok (p, kids, false)
  else do
    let (ks, ch) ← downBoth s p kids
    .ok (p, ks, ch)

/-! ### solve -/

namespace Tree
/-- models: `proxies_m.size()`, which counts invisible views as well. -/
def count {α : Type} : Tree α → Nat
  | .node _ _ ks => counts ks + 1
where
  counts : List (Tree α) → Nat
    | [] => 0
    | t :: ts => count t + counts ts
end Tree

/-- models: source/eve.cpp:350-367, the loop; the number is `limiter`, the flag of the result says that
the last pass made no progress. -/
def solveLoop (s : Slice) : Nat → Tree Item → Except Err (Tree Item × Bool)
  | 0, t => .ok (t, false)
  | n + 1, t => do
    let (t1, progress) ← t.pre (downStep s)
    let t2 ← t1.post (upStep s)
    if progress then solveLoop s n t2 else .ok (t2, true)

/-- models: source/eve.cpp:327-370 (`solve`). -/
def solve (s : Slice) (t : Tree Item) : Except Err (Tree Item × Bool) := do
  let t1 ← t.post (upStep s)
  solveLoop s (t.count + 1) t1

/-! ### layout -/

/-- The alignments that take a share of the additional space, source/eve.cpp:860-870. -/
def Align.padded : Align → Bool
  | .center | .proportional | .forwardFill | .reverseFill => true
  | _ => false

def Align.isReverse : Align → Bool
  | .reverse | .reverseFill => true
  | _ => false

/-- models: source/eve.cpp:915-921, 959-969: a share of the additional space, `remaining_additional_length / padded_count`;
result: the share and the number of children that still get one. -/
def takeShare (takes : Bool) (remaining : Int) (count : Nat) : Except Err (Int × Nat) :=
  if takes then
    if count = 0 then .error .ub else .ok (remaining.tdiv count, count - 1)
  else .ok (0, count)

/-- models: `std::advance` of a guide iterator. -/
def advance (n : Nat) (guides : List Int) : Except Err (List Int) :=
  if n ≤ guides.length then .ok (guides.drop n) else .error .ub

/-- models: source/eve.cpp:900-907: the guides of an item aligned in reverse. -/
def guideRev (c : Item) (rlen : Int) (guides : List Int) : Except Err (Int × List Int) :=
  if !c.suppress && c.rev.length != 0 then do
    let guides' ← advance c.rev.length guides
    if c.leaf then
      match guides, c.rev with
      | x :: _, g :: _ => .ok (rlen - (x - g), guides')
      | _, _ => .error .ub
    else .ok (rlen, guides')
  else .ok (rlen, guides)

/-- models: source/eve.cpp:975-984: the guides of an item aligned forward. -/
def guideFwd (c : Item) (len : Int) (guides : List Int) : Except Err (Int × List Int) :=
  if !c.suppress && c.fwd.length != 0 then do
    let guides' ← advance c.fwd.length guides
    if c.leaf then
      match guides, c.fwd with
      | x :: _, g :: _ => .ok (x - g, guides')
      | _, _ => .error .ub
    else .ok (len, guides')
  else .ok (len, guides)

/-- The assignment to `length_m` and `position_m` of the place data. -/
def Item.putAt (c : Item) (length position : Int) : Item :=
  { c with place := { c.place with length := length, position := position } }

/-- models: source/eve.cpp:880-931: the items aligned in reverse, from last to first.  Result: the items placed, the others,
and what is left to distribute. -/
def layRev : Int → List Int → Int → Nat → List Item →
    Except Err (List Item × List Item × Int × Nat)
  | _, _, rem, cnt, [] => .ok ([], [], rem, cnt)
  | rlen, guides, rem, cnt, c :: cs =>
    if c.align.isReverse then do
      let (rlen, guides) ← guideRev c rlen guides
      let (a, cnt) ← takeShare (c.align == .reverseFill) rem cnt
      let len := c.clength + a
      let (done, others, rem, cnt) ← layRev (rlen - (len + c.space)) guides (rem - a) cnt cs
      .ok (c.putAt len (rlen - len) :: done, others, rem, cnt)
    else .ok ([], c :: cs, rem, cnt)

/-- models: source/eve.cpp:933-1028: the other items.  `rnd n d a` is
`lround_half_up(double(n) / double(d) * a)`. -/
def layFwd (rnd : Int → Int → Int → Int) (zero available : Int) :
    Int → List Int → Int → Nat → List Item → Except Err (List Item)
  | _, _, _, _, [] => .ok []
  | len, guides, rem, cnt, c :: cs =>
    if c.align.isReverse then .error .logicError
    else do
      let (add, cnt) ← takeShare c.align.padded rem cnt
      let len := len + c.space
      match c.align with
      | .forward | .forwardFill => do
        let (len, guides) ← guideFwd c len guides
        let plen := if c.align = .forwardFill then c.clength + add else c.clength
        let cs' ← layFwd rnd zero available (len + plen) guides (rem - add) cnt cs
        .ok (c.putAt plen len :: cs')
      | .center => do
        let pos := len + (c.clength + add - c.clength).tdiv 2
        let cs' ← layFwd rnd zero available (len + add + c.clength) guides (rem - add) cnt cs
        .ok (c.putAt c.clength pos :: cs')
      | .proportional => do
        if available - (c.clength + add) = 0 then .error .ub
        else do
          let pos := len + rnd (len - zero) (available - (c.clength + add)) add
          let cs' ← layFwd rnd zero available (len + add + c.clength) guides (rem - add) cnt cs
          .ok (c.putAt c.clength pos :: cs')
      | _ => do
        let cs' ← layFwd rnd zero available (len + c.clength) guides (rem - add) cnt cs
        .ok (c.putAt c.clength c.place.position :: cs')

/-- models: source/eve.cpp:837-1029 (`layout_with`). -/
def layoutWith (rnd : Int → Int → Int → Int) (p : Item) (kids : List Item) :
    Except Err (List Item) := do
  let cnt := (kids.filter (fun c => c.align.padded)).length
  let (done, others, rem, cnt) ←
    layRev (p.place.length - p.far) p.rev (p.place.length - p.mlength) cnt kids.reverse
  let placed ← layFwd rnd p.near (p.place.length - p.near - p.far) p.near p.fwd rem cnt others.reverse
  .ok (placed ++ done.reverse)

/-- models: source/eve.cpp:1046-1106, one child of a container across its direction. -/
def layCrossOne (p c : Item) : Except Err Item := do
  let len := p.near + c.fwdIndent
  let rlen := p.place.length - p.far - c.revIndent
  match c.align with
  | .forward | .forwardFill =>
    let len ← leafOffset c (!c.suppress) p.fwd c.fwd len
    .ok (c.putAt (if c.align = .forwardFill then rlen - len else c.clength) len)
  | .reverse | .reverseFill =>
    let off ← leafOffset c (!c.suppress) p.rev c.rev (p.far + c.revIndent)
    let rlen := p.place.length - off
    .ok (c.putAt (if c.align = .reverseFill then rlen - len else c.clength) (rlen - c.clength))
  | .center | .proportional =>
    .ok (c.putAt c.clength ((rlen + len - c.clength).tdiv 2))
  | .default => .ok (c.putAt c.clength c.place.position)

/-- models: source/eve.cpp:1033-1108 (`layout_cross`). -/
def layoutCross (p : Item) : List Item → Except Err (List Item)
  | [] => .ok []
  | c :: cs => do
    let c' ← layCrossOne p c
    let cs' ← layoutCross p cs
    .ok (c' :: cs')

/-- models: source/eve.cpp:679-691. -/
def layoutBoth (rnd : Int → Int → Int → Int) (s : Slice) (p : Item) (kids : List Item) : Except Err (List Item) :=
  if isWith s p.placement then layoutWith rnd p kids else layoutCross p kids

/-- models: source/eve.cpp:675-692 (`view_proxy_t::layout`). -/
def layoutStep (rnd : Int → Int → Int → Int) (s : Slice) (p : Item) (kids : List Item) :
    Except Err (Item × List Item × Bool) :=
  if p.leaf then .ok (p, kids, false)
  else do
    let ks ← layoutBoth rnd s p kids
    .ok (p, ks, false)

/-- models: source/eve.cpp:374-392 (`layout`). -/
def layout (rnd : Int → Int → Int → Int) (s : Slice) (length : Int) (t : Tree Item) :
    Except Err (Tree Item) := do
  let r := t.root
  let r := { r with place := { r.place with length := if length ≠ 0 then length else r.clength } }
  let (t', _) ← (t.setRoot r).pre (layoutStep rnd s)
  .ok t'

/-! ### outsets and coordinates -/

/-- models: source/eve.cpp:746-785 (`adjust_outsets_with`). -/
def outsetsWith (p : Item) (kids : List Item) : Item :=
  match kids.head?, kids.getLast? with
  | some first, some last =>
    let leading := first.place.position - first.place.outset.1
    let trailing := p.place.length - (last.place.position + last.place.length + last.place.outset.2)
    { p with place := { p.place with
        outset := (max p.place.outset.1 (-leading), max p.place.outset.2 (-trailing)) } }
  | _, _ => { p with place := { p.place with outset := p.ext.outset } }

/-- models: source/eve.cpp:789-833 (`adjust_outsets_cross`). -/
def outsetsCross (p : Item) (kids : List Item) : Item :=
  match kids with
  | [] => { p with place := { p.place with outset := p.ext.outset } }
  | _ =>
    let leading := kids.foldl (fun m c => min m (c.place.position - c.place.outset.1)) p.ext.frame.1
    let trailing := kids.foldl (fun m c => min m
      (p.place.length - (c.place.position + c.place.length + c.place.outset.2))) p.ext.frame.2
    { p with place := { p.place with
        outset := (max p.place.outset.1 (-leading), max p.place.outset.2 (-trailing)) } }

/-- models: source/eve.cpp:730-743 (`adjust_outsets`). -/
def outsetsStep (s : Slice) (p : Item) (kids : List Item) : Except Err (Item × List Item) :=
  .ok (if isWith s p.placement then outsetsWith p kids else outsetsCross p kids, kids)

/-- models: source/eve.cpp:700-716, the guides given to the view. -/
def pushGuides (p : Item) : Item :=
  match p.align with
  | .forward | .forwardFill => { p with place := { p.place with guides := p.fwd } }
  | .reverse | .reverseFill =>
    { p with place := { p.place with guides := (p.rev.map (fun g => p.place.length - g)).reverse } }
  | _ => p

/-- models: source/eve.cpp:696-728 (`flatten`). -/
def flattenStep (o : Options) (p : Item) (kids : List Item) : Except Err (Item × List Item × Bool) :=
  let p' := pushGuides p
  if o = .nested ∧ p.create then .ok (p', kids, false)
  else .ok (p', kids.map (fun c => { c with place :=
    { c.place with position := c.place.position + p.place.position } }), false)

/-! ### A slice, and the whole -/

/-- models: source/eve.cpp:412-428 and 435-456: `adjust`, solve, layout, outsets, flatten for one slice. -/
def runSlice (rnd : Int → Int → Int → Int) (s : Slice) (o : Options) (length : Int) (t : Tree Item) :
    Except Err (Tree Item) := do
  let t ← t.post (adjustStep s)
  let (t, _) ← solve s t
  let t ← layout rnd s length t
  let t ← t.post (outsetsStep s)
  let (t, _) ← t.pre (flattenStep o)
  .ok t

/-- A view, with both slices, and its placeable: `measure` gives the extents, and a
`poly_placeable_twopass_t` also computes the vertical extents from what is known after the horizontal
slice has been placed (the horizontal extents, the vertical extents, the horizontal place, the vertical place).
Simplification: a placeable has no state of its own. -/
structure Proxy where
  h : Item
  v : Item
  measure : Ext × Ext
  measureVertical : Option (Ext → Ext → Place → Place → Ext)

def Proxy.get : Slice → Proxy → Item
  | .horizontal, p => p.h
  | .vertical, p => p.v

def Proxy.set : Slice → Proxy → Item → Proxy
  | .horizontal, p, i => { p with h := i }
  | .vertical, p, i => { p with v := i }

/-- models: the copy of the extents to the place data, source/eve.cpp:531-555 and 570-576. -/
def Item.measured (i : Item) (e : Ext) : Item :=
  { i with
    ext := e
    place := { i.place with length := e.length, outset := e.outset, guides := e.guides }
    clength := e.length }

/-- models: source/eve.cpp:514-556 (`calculate`). -/
def calculate (p : Proxy) : Proxy :=
  { p with h := p.h.measured p.measure.1, v := { p.v with ext := p.measure.2 } }

/-- models: source/eve.cpp:560-577 (`calculate_vertical`). -/
def calculateVertical (p : Proxy) : Proxy :=
  match p.measureVertical with
  | some f => { p with v := p.v.measured (f p.h.ext p.v.ext p.h.place p.v.place) }
  | none => { p with v := p.v.measured p.v.ext }

/-- A member function that works on one slice. -/
def liftStep (s : Slice) (f : Item → List Item → Except Err (Item × List Item))
    (p : Proxy) (kids : List Proxy) : Except Err (Proxy × List Proxy) := do
  let (i, is) ← f (p.get s) (kids.map (Proxy.get s))
  .ok (p.set s i, List.zipWith (Proxy.set s) kids is)

def liftStep' (s : Slice) (f : Item → List Item → Except Err (Item × List Item × Bool))
    (p : Proxy) (kids : List Proxy) : Except Err (Proxy × List Proxy × Bool) := do
  let (i, is, b) ← f (p.get s) (kids.map (Proxy.get s))
  .ok (p.set s i, List.zipWith (Proxy.set s) kids is, b)

/-- models: `adobe::for_each(postorder_range(), …)` with a function of the view alone. -/
def onEach (f : Proxy → Proxy) (p : Proxy) (kids : List Proxy) : Except Err (Proxy × List Proxy) :=
  .ok (f p, kids)

/-- models: source/eve.cpp:327-370 (`solve`). -/
def solveLoopP (s : Slice) : Nat → Tree Proxy → Except Err (Tree Proxy)
  | 0, t => .ok t
  | n + 1, t => do
    let (t1, progress) ← t.pre (liftStep' s (downStep s))
    let t2 ← t1.post (liftStep s (upStep s))
    if progress then solveLoopP s n t2 else .ok t2

def solveP (s : Slice) (t : Tree Proxy) : Except Err (Tree Proxy) := do
  let t1 ← t.post (liftStep s (upStep s))
  solveLoopP s (t.count + 1) t1

/-- models: source/eve.cpp:374-392 (`layout`). -/
def layoutP (rnd : Int → Int → Int → Int) (s : Slice) (length : Int) (t : Tree Proxy) :
    Except Err (Tree Proxy) := do
  let r := t.root.get s
  let r := { r with place := { r.place with length := if length ≠ 0 then length else r.clength } }
  let (t', _) ← (t.setRoot (t.root.set s r)).pre (liftStep' s (layoutStep rnd s))
  .ok t'

def runSliceP (rnd : Int → Int → Int → Int) (s : Slice) (o : Options) (length : Int) (t : Tree Proxy) :
    Except Err (Tree Proxy) := do
  let t ← t.post (liftStep s (adjustStep s))
  let t ← solveP s t
  let t ← layoutP rnd s length t
  let t ← t.post (liftStep s (outsetsStep s))
  let (t, _) ← t.pre (liftStep' s (flattenStep o))
  .ok t

/-- models: source/eve.cpp:408-464 (`adjust`).  The place data of the result is what the placeables of the visible views
receive from `place()`; the pair is what the call returns. -/
def adjust (rnd : Int → Int → Int → Int) (o : Options) (width height : Int) (t : Tree Proxy) :
    Except Err (Tree Proxy × Int × Int) := do
  let t ← runSliceP rnd .horizontal o width t
  let t ← t.post (onEach calculateVertical)
  let t ← runSliceP rnd .vertical o height t
  .ok (t, t.root.h.place.length, t.root.v.place.length)

/-- models: source/eve.cpp:396-404 (`evaluate`). -/
def evaluate (rnd : Int → Int → Int → Int) (o : Options) (width height : Int) (t : Tree Proxy) :
    Except Err (Tree Proxy × Int × Int) := do
  let t ← t.post (onEach calculate)
  adjust rnd o width height t

end Verif.Eve
