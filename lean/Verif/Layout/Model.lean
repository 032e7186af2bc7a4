import Verif.Search.Model
import Mathlib.Data.Rat.Defs
/-!
Model of adobe/static_table.hpp and of `apply_layout_parameters` (source/eve_evaluate.cpp), which puts the parameters of a view into its
layout attributes.

Simplifications:
* a dictionary is a function from names to values; names are lists of characters;
* a value is a name, a number (a finite `double`, as a rational), an array or something else;
* `std::sort` gives any list with the same elements in order;
* the extents and `create_m` of the attributes, which are not touched, are
  left out.
-/
namespace Verif.Layout

abbrev Name := List Char

inductive Val where
  | name (n : Name)
  | num (q : Rat)
  | arr (l : List Val)
  | other (k : Nat)

abbrev Params := Name → Option Val

/-! ### `static_table` -/

/-- What a lookup gives. -/
inductive Found (υ : Type) where
  | found (v : υ)
  | missing
  | ub

/-- models: adobe/static_table.hpp:232-250: both `operator()`; `missing`: `logic_error`, or `false`. -/
def lookup {κ υ : Type} [DecidableEq κ] (lt : κ → κ → Bool) (table : List (κ × υ)) (key : κ) : Found υ :=
  match Search.lowerBound table lt Prod.fst key with
  | none => .ub
  | some i => if i = table.length then .missing else
    match table[i]? with
    | none => .ub
    | some e => if e.1 ≠ key then .missing else .found e.2

/-- models: adobe/static_table.hpp:252 `sort`. -/
def Sorted {κ υ : Type} (lt : κ → κ → Bool) (table table' : List (κ × υ)) : Prop :=
  table'.Perm table ∧ table'.Pairwise fun a b => lt b.1 a.1 = false

/-! ### The attributes -/

/-- models: adobe/layout_attributes.hpp:30-48 `alignment_t`. -/
inductive Align where
  | forward | reverse | center | proportional | forwardFill | reverseFill | default
deriving DecidableEq

/-- models: adobe/layout_attributes.hpp:54 `placement_t`. -/
inductive Place where
  | leaf | column | row | overlay
deriving DecidableEq

/-- models: adobe/layout_attributes.hpp:73-85 `slice_t`. -/
structure Slice where
  alignment : Align
  suppress : Bool
  balance : Bool
  margin : Int × Int
  childAlignment : Align
deriving DecidableEq

/-- models: adobe/layout_attributes.hpp:60-94 `layout_attributes_t`. -/
structure Attrs where
  indent : Int
  spacing : List Int
  h : Slice
  v : Slice
  placement : Place
deriving DecidableEq

/-- models: adobe/layout_attributes.hpp:67-69, 74-76: the constructors. -/
def Slice.new : Slice := ⟨.default, false, false, (0, 0), .forward⟩
def Attrs.new : Attrs := ⟨0, [0, 10], .new, .new, .leaf⟩

/-! ### The names: source/eve_evaluate.cpp:45-74 -/

def kSpacing : Name := "spacing".toList
def kIndent : Name := "indent".toList
def kMargin : Name := "margin".toList
def kPlacement : Name := "placement".toList
def kHorizontal : Name := "horizontal".toList
def kVertical : Name := "vertical".toList
def kChildHorizontal : Name := "child_horizontal".toList
def kChildVertical : Name := "child_vertical".toList
def kAlignLeft : Name := "align_left".toList
def kAlignRight : Name := "align_right".toList
def kAlignTop : Name := "align_top".toList
def kAlignBottom : Name := "align_bottom".toList
def kAlignCenter : Name := "align_center".toList
def kAlignProportional : Name := "align_proportional".toList
def kAlignFill : Name := "align_fill".toList
def kPlaceRow : Name := "place_row".toList
def kPlaceColumn : Name := "place_column".toList
def kPlaceOverlay : Name := "place_overlay".toList
def kGuideMask : Name := "guide_mask".toList
def kGuideBalance : Name := "guide_balance".toList
def kGuideBaseline : Name := "guide_baseline".toList
def kGuideLabel : Name := "guide_label".toList

/-- models: source/eve_evaluate.cpp:85-93 `alignment_table_s`. -/
def alignmentTable : List (Name × Align) :=
  [(kAlignLeft, .forward), (kAlignRight, .reverse), (kAlignTop, .forward), (kAlignBottom, .reverse), (kAlignCenter, .center),
   (kAlignProportional, .proportional), (kAlignFill, .forwardFill)]

/-- models: source/eve_evaluate.cpp:95-101 `placement_table_s`. -/
def placementTable : List (Name × Place) := [(kPlaceRow, .row), (kPlaceColumn, .column), (kPlaceOverlay, .overlay)]

/-- models: source/eve_evaluate.cpp:103-107: the tables after `init_once`. -/
structure Tables where
  lt : Name → Name → Bool
  align : List (Name × Align)
  place : List (Name × Place)

/-! ### `apply_layout_parameters` -/

/-- The result: the attributes, an exception (`bad_cast`) with the attributes as they are then, or not defined. -/
inductive Res where
  | ok (d : Attrs)
  | throw (d : Attrs)
  | ub
deriving DecidableEq

def Res.bind (r : Res) (f : Attrs → Res) : Res :=
  match r with
  | .ok d => f d
  | .throw d => .throw d
  | .ub => .ub

/-- `static_cast<int>` of a `double`; `none`: not defined. -/
def toInt (q : Rat) : Option Int :=
  let n := q.num.tdiv q.den
  if -2 ^ 31 ≤ n ∧ n < 2 ^ 31 then some n else none

/-- `cast<int>()` of a value, followed by something. -/
def castInt (v : Val) (d : Attrs) (k : Int → Res) : Res :=
  match v with
  | .num q => match toInt q with
    | none => .ub
    | some n => k n
  | _ => .throw d

/-- models: source/eve_evaluate.cpp:226-227, 231-232, 306-307, 315-316: `cast<name_t>()`, a lookup and storing what is found. -/
def align (T : Tables) (v : Val) (d : Attrs) (k : Align → Attrs) : Res :=
  match v with
  | .name n => match lookup T.lt T.align n with
    | .found a => .ok (k a)
    | .missing => .ok d
    | .ub => .ub
  | _ => .throw d

/-- models: source/eve_evaluate.cpp:223 -/
def stepIndent (p : Params) (d : Attrs) : Res :=
  match p kIndent with
  | some (.num q) => match toInt q with
    | none => .ub
    | some n => .ok { d with indent := n }
  | _ => .ok d

/-- models: source/eve_evaluate.cpp:225-228 -/
def stepHorizontal (T : Tables) (p : Params) (d : Attrs) : Res :=
  match p kHorizontal with
  | none => .ok d
  | some v => align T v d fun a => { d with h.alignment := a }

/-- models: source/eve_evaluate.cpp:230-233 -/
def stepVertical (T : Tables) (p : Params) (d : Attrs) : Res :=
  match p kVertical with
  | none => .ok d
  | some v => align T v d fun a => { d with v.alignment := a }

/-- models: source/eve_evaluate.cpp:245-251: the loop. -/
def maskLoop (d : Attrs) : List Val → Res
  | [] => .ok d
  | .name n :: l =>
    let d := if n = kGuideBaseline then { d with v.suppress := true } else d
    let d := if n = kGuideLabel then { d with h.suppress := true } else d
    maskLoop d l
  | _ :: _ => .throw d

/-- models: source/eve_evaluate.cpp:237-252 -/
def stepMask (p : Params) (d : Attrs) : Res :=
  match p kGuideMask with
  | none => .ok d
  | some v =>
    let d := { d with v.suppress := false, h.suppress := false }
    match v with
    | .arr l => maskLoop d l
    | _ => .throw d

/-- models: source/eve_evaluate.cpp:267-277: the loop. -/
def balanceLoop (d : Attrs) : List Val → Res
  | [] => .ok d
  | .name n :: l =>
    let d := if n = kGuideBaseline then { d with v.balance := true, v.suppress := true } else d
    let d := if n = kGuideLabel then { d with h.balance := true, h.suppress := true } else d
    balanceLoop d l
  | _ :: _ => .throw d

/-- models: source/eve_evaluate.cpp:261-278 -/
def stepBalance (p : Params) (d : Attrs) : Res :=
  match p kGuideBalance with
  | none => .ok d
  | some v =>
    let d := { d with v.balance := false, h.balance := false }
    match v with
    | .arr l => balanceLoop d l
    | _ => .throw d

/-- models: source/eve_evaluate.cpp:283-300 -/
def stepPlacement (T : Tables) (p : Params) (d : Attrs) : Res :=
  match p kPlacement with
  | none => .ok d
  | some v =>
    let r : Res := match v with
      | .name n => match lookup T.lt T.place n with
        | .found a => .ok { d with placement := a }
        | .missing => .ok d
        | .ub => .ub
      | _ => .throw d
    r.bind fun d => if d.placement = .row ∧ (p kGuideMask).isNone then .ok { d with v.suppress := false } else .ok d

/-- models: source/eve_evaluate.cpp:302-309 -/
def stepChildHorizontal (T : Tables) (p : Params) (d : Attrs) : Res :=
  match p kChildHorizontal with
  | none => .ok d
  | some v => align T v d fun a => { d with h.childAlignment := a }

/-- models: source/eve_evaluate.cpp:311-318 -/
def stepChildVertical (T : Tables) (p : Params) (d : Attrs) : Res :=
  match p kChildVertical with
  | none => .ok d
  | some v => align T v d fun a => { d with v.childAlignment := a }

/-- `resize` of a vector. -/
def resize (l : List Int) (n : Nat) : List Int := l.take n ++ List.replicate (n - l.length) 0

/-- models: source/eve_evaluate.cpp:333-334 `transform`, from the position `i` on. -/
def spacingLoop (d : Attrs) (i : Nat) : List Val → Res
  | [] => .ok d
  | v :: l => castInt v d fun n => spacingLoop { d with spacing := d.spacing.set i n } (i + 1) l

/-- models: source/eve_evaluate.cpp:320-341 -/
def stepSpacing (p : Params) (d : Attrs) : Res :=
  match p kSpacing with
  | none => .ok d
  | some (.arr l) => spacingLoop { d with spacing := resize d.spacing (l.length + 1) } 1 l
  | some v =>
    match d.spacing[1]? with
    | none => .ub
    | some old =>
      match v with
      | .num q => match toInt q with
        | none => .ub
        | some n => .ok { d with spacing := d.spacing.set 1 n }
      | _ => .ok { d with spacing := d.spacing.set 1 old }

/-- An element of an array, without a check, and `cast<int>()`. -/
def elemInt (l : List Val) (i : Nat) (d : Attrs) (k : Int → Res) : Res :=
  match l[i]? with
  | none => .ub
  | some v => castInt v d k

/-- models: source/eve_evaluate.cpp:343-363 -/
def stepMargin (p : Params) (d : Attrs) : Res :=
  match p kMargin with
  | none => .ok d
  | some (.arr l) =>
    elemInt l 0 d fun n =>
    let d := { d with v.margin := (n, d.v.margin.2) }
    elemInt l 1 d fun n =>
    let d := { d with h.margin := (n, d.h.margin.2) }
    elemInt l 2 d fun n =>
    let d := { d with v.margin := (d.v.margin.1, n) }
    elemInt l 3 d fun n => .ok { d with h.margin := (d.h.margin.1, n) }
  | some v => castInt v d fun n => .ok { d with v.margin := (n, n), h.margin := (n, n) }

/-- models: source/eve_evaluate.cpp:220-364 `apply_layout_parameters`. -/
def apply (T : Tables) (p : Params) (d : Attrs) : Res :=
  (((((((((stepIndent p d).bind (stepHorizontal T p)).bind (stepVertical T p)).bind (stepMask p)).bind (stepBalance p)).bind
    (stepPlacement T p)).bind (stepChildHorizontal T p)).bind (stepChildVertical T p)).bind (stepSpacing p)).bind (stepMargin p)

/-! ### `layout_variables` -/

/-- models: source/eve_evaluate.cpp:109-112 `reflected`. -/
def reflected : List Name :=
  [kAlignLeft, kAlignRight, kAlignTop, kAlignBottom, kAlignCenter, kAlignProportional, kAlignFill, kPlaceRow, kPlaceColumn, kPlaceOverlay]

/-- models: source/eve_evaluate.cpp:368-376 `layout_variables`; `range`: `reflected_range_g`, which is null before `init_once`;
`get`: `get` of the layout sheet, which may throw (`none`).  The outer `none`: not defined. -/
def layoutVar (lt : Name → Name → Bool) (range : Option (List Name)) (get : Name → Option Val) (n : Name) : Option (Option Val) :=
  match range with
  | none => none
  | some l => match Search.lowerBound l lt id n with
    | none => none
    | some i =>
      if i ≠ l.length ∧ l[i]? = some n then some (some (.name n)) else some (get n)

end Verif.Layout
