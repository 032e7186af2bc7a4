import Verif.Eve.Traverse
/-! What a layout promises, in terms of the place data that the views receive. -/
namespace Verif.Eve

/-- The coordinate of the left (top) edge of a view, in the coordinates of its children's positions. -/
def origin (o : Options) (p : Item) : Int :=
  if o = .nested ∧ p.create then 0 else p.place.position

/-- The spacing before child number `i` of a container: entry `i` of `spacing`, the last entry when there are
not that many. -/
def spacingAt (p : Item) (i : Nat) : Int := (p.spacing[i]?).getD (p.spacing.getLastD 0)

/-- Children number `i`, `i+1`, … lie between `lo` and `hi`, in order, at least the spacing apart. -/
def InOrder (p : Item) : Nat → Int → Int → List Item → Prop
  | _, lo, hi, [] => lo ≤ hi
  | i, lo, hi, c :: cs =>
    lo + spacingAt p i ≤ c.place.position ∧
      InOrder p (i + 1) (c.place.position + c.place.length) hi cs

/-- The children of a container are inside of its frame and margin; along the direction of the container
they follow each other with the spacing. -/
def Contained (s : Slice) (o : Options) (p : Item) (kids : List Item) : Prop :=
  if isWith s p.placement then
    InOrder p 0 (origin o p + p.ext.frame.1 + p.margin.1)
      (origin o p + p.place.length - p.ext.frame.2 - p.margin.2) kids
  else
    ∀ c ∈ kids,
      origin o p + p.ext.frame.1 + p.margin.1 + (if c.align = .forward ∨ c.align = .forwardFill then c.indent else 0)
        ≤ c.place.position ∧
      c.place.position + c.place.length ≤ origin o p + p.place.length - p.ext.frame.2 - p.margin.2
        - (if c.align = .reverse ∨ c.align = .reverseFill then c.indent else 0)

/-- A leaf that is positioned by its guides. -/
def Item.guided (c : Item) : Prop :=
  c.leaf = true ∧ c.suppress = false ∧ c.ext.guides ≠ [] ∧
    (c.align = .forward ∨ c.align = .forwardFill ∨ c.align = .reverse ∨ c.align = .reverseFill)

/-- Along the direction of a container: no leaf with guides is aligned in reverse, or follows a child which takes
additional space (`padded`: one has been seen). -/
def RowSane (padded : Bool) : List Item → Prop
  | [] => True
  | c :: cs =>
    (c.guided → c.align.isReverse = false ∧ padded = false) ∧
    RowSane (padded || c.align.padded) cs

/-- The child with the alignment it inherits. -/
def inherit (p c : Item) : Item := { c with align := if c.align = .default then p.childAlign else c.align }

/-- The arrangements for which the code keeps the children apart: every child has an alignment, of its own or from
its container, and a measure that is not negative; along the direction of a container, `RowSane`, no balancing of guides and no
negative spacing; across its direction, no reverse fill. -/
def Sane (s : Slice) (p : Item) (kids : List Item) : Prop :=
  (∀ c ∈ kids, (inherit p c).align ≠ .default ∧ 0 ≤ c.clength) ∧
  if isWith s p.placement then
    p.balance = false ∧ (∀ x ∈ p.spacing, 0 ≤ x) ∧ RowSane false (kids.map (inherit p))
  else ∀ c ∈ kids, (inherit p c).align ≠ .reverseFill

/-- What children number `i`, `i+1`, … need along the direction of a container: spacing, and the natural length of each. -/
def demand (p : Item) : Nat → List Item → Int
  | _, [] => 0
  | i, c :: cs => spacingAt p i + c.clength + demand p (i + 1) cs

/-- The space that a container has in addition to what its children need. -/
def spare (p : Item) (kids : List Item) : Int :=
  p.place.length - (p.ext.frame.1 + p.margin.1) - (p.ext.frame.2 + p.margin.2) - demand p 0 kids

/-- A child that takes a part of the additional space. -/
def Item.takes (c : Item) : Prop :=
  c.align = .center ∨ c.align = .proportional ∨ c.align = .forwardFill ∨ c.align = .reverseFill

instance (c : Item) : Decidable c.takes := by unfold Item.takes; infer_instance

/-- The number of children that take a part of the additional space. -/
def takers (kids : List Item) : Nat := (kids.filter (fun c => c.takes)).length

/-- Children number `i`, `i+1`, … cover what is between `lo` and `hi`, except for the spacing. -/
def Tiles (p : Item) : Nat → Int → Int → List Item → Prop
  | _, lo, hi, [] => lo = hi
  | i, lo, hi, c :: cs =>
    c.place.position = lo + spacingAt p i ∧ Tiles p (i + 1) (c.place.position + c.place.length) hi cs

/-- A view, when it is a leaf, has no guides. -/
def Plain (c : Item) : Prop := c.leaf = true → c.ext.guides = [] ∧ c.fwd = [] ∧ c.rev = []

def PlainKids (_ : Item) (kids : List Item) : Prop := ∀ c ∈ kids, Plain c

/-- A child whose guides take part in the alignment of the leading edge. -/
def Item.leads (c : Item) : Prop := (c.align = .forward ∨ c.align = .forwardFill) ∧ c.suppress = false

/-- A child whose guides take part in the alignment of the trailing edge (a filling child is not placed by them). -/
def Item.trails (c : Item) : Prop := c.align = .reverse ∧ c.suppress = false

/-- Along the direction: the guides of the leading children follow each other in the guides of the container, up to the
first child that takes additional space. -/
def Follow (d : Int) : List Int → List Item → Prop
  | _, [] => True
  | gs, c :: cs =>
    match c.align with
    | .forward =>
      if c.suppress then Follow d gs cs
      else ∃ rest, gs = c.place.guides.map (· + (c.place.position - d)) ++ rest ∧ Follow d rest cs
    | .forwardFill =>
      if c.suppress then True
      else ∃ rest, gs = c.place.guides.map (· + (c.place.position - d)) ++ rest
    | _ => True

/-- The guides with the same number, counted from the leading edge, of any two leading views are at the same place. -/
def LeadingAligned (kids : List Item) : Prop :=
  ∀ c ∈ kids, ∀ d ∈ kids, c.leads → d.leads → ∀ (j : Nat) (x y : Int),
    c.place.guides[j]? = some x → d.place.guides[j]? = some y → c.place.position + x = d.place.position + y

/-- The guides with the same number, counted from the trailing edge, of any two trailing views are at the same place. -/
def TrailingAligned (kids : List Item) : Prop :=
  ∀ c ∈ kids, ∀ d ∈ kids, c.trails → d.trails → ∀ (j : Nat) (x y : Int),
    c.place.guides.reverse[j]? = some x → d.place.guides.reverse[j]? = some y →
      c.place.position + x = d.place.position + y

/-- The guides of the leading children are guides of the container. -/
def LeadingOf (origin : Int) (p : Item) (kids : List Item) : Prop :=
  ∀ c ∈ kids, c.leads → ∀ (j : Nat) (x : Int), c.place.guides[j]? = some x →
    p.place.guides[j]? = some (c.place.position - origin + x)

/-- The solver finishes: within the number of passes it allows itself, one makes no progress. -/
def Settles (s : Slice) (t : Tree Item) : Prop :=
  ∃ ta ts, t.post (adjustStep s) = .ok ta ∧ solve s ta = .ok (ts, true)

end Verif.Eve
