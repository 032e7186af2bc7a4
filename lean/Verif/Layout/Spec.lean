import Verif.Layout.Model
import Verif.Common.Order
/-!
Specification of the parameters of a view, attribute by attribute.
-/
namespace Verif.Layout.Spec
open Verif.Layout

/-- The names of the alignments. -/
def AlignName (n : String) (a : Align) : Prop :=
  (n = "align_left" ∧ a = .forward) ∨ (n = "align_right" ∧ a = .reverse) ∨ (n = "align_top" ∧ a = .forward) ∨
  (n = "align_bottom" ∧ a = .reverse) ∨ (n = "align_center" ∧ a = .center) ∨ (n = "align_proportional" ∧ a = .proportional) ∨
  (n = "align_fill" ∧ a = .forwardFill)

/-- The names of the placements. -/
def PlaceName (n : String) (a : Place) : Prop :=
  (n = "place_row" ∧ a = .row) ∨ (n = "place_column" ∧ a = .column) ∨ (n = "place_overlay" ∧ a = .overlay)

/-- The tables have been sorted by an order of the names. -/
structure Ready (T : Tables) : Prop where
  order : StrictWeak T.lt
  total : ∀ a b, T.lt a b = false → T.lt b a = false → a = b
  align : Sorted T.lt alignmentTable T.align
  place : Sorted T.lt placementTable T.place

/-- The parameter with a name. -/
def par (p : Params) (k : String) : Option Val := p k.toList

def IsInt (v : Val) (n : Int) : Prop := ∃ q : Rat, v = .num q ∧ q.num.tdiv q.den = n ∧ -2 ^ 31 ≤ n ∧ n < 2 ^ 31

/-- An array of names, which has or has not a certain one. -/
def Names (v : Val) : Prop := ∃ l : List Name, v = .arr (l.map .name)
def Lists (v : Val) (n : String) : Prop := ∃ l, v = .arr l ∧ .name n.toList ∈ l

/-- An alignment after the parameter `k`: that of the name, if the parameter is the name of one, the old one otherwise. -/
def AlignIs (p : Params) (k : String) (old new : Align) : Prop :=
  (∃ n, par p k = some (.name n.toList) ∧ AlignName n new) ∨
  ((∀ n a, par p k = some (.name n.toList) → ¬ AlignName n a) ∧ new = old)

/-- The attributes `d'` are what the parameters `p` make of the attributes `d`. -/
structure After (p : Params) (d d' : Attrs) : Prop where
  indent : (∃ v, par p "indent" = some v ∧ IsInt v d'.indent) ∨
    ((∀ q, par p "indent" ≠ some (.num q)) ∧ d'.indent = d.indent)
  horizontal : AlignIs p "horizontal" d.h.alignment d'.h.alignment
  vertical : AlignIs p "vertical" d.v.alignment d'.v.alignment
  childHorizontal : AlignIs p "child_horizontal" d.h.childAlignment d'.h.childAlignment
  childVertical : AlignIs p "child_vertical" d.v.childAlignment d'.v.childAlignment
  placement : (∃ n, par p "placement" = some (.name n.toList) ∧ PlaceName n d'.placement) ∨
    ((∀ n a, par p "placement" = some (.name n.toList) → ¬ PlaceName n a) ∧ d'.placement = d.placement)
  vBalance : match par p "guide_balance" with
    | some v => d'.v.balance = true ↔ Lists v "guide_baseline"
    | none => d'.v.balance = d.v.balance
  hBalance : match par p "guide_balance" with
    | some v => d'.h.balance = true ↔ Lists v "guide_label"
    | none => d'.h.balance = d.h.balance
  /-- Guides of labels: as the mask says, if there is one; suppressed if they are balanced. -/
  hSuppress : d'.h.suppress = true ↔ (∃ v, par p "guide_balance" = some v ∧ Lists v "guide_label") ∨
    (match par p "guide_mask" with
      | some v => Lists v "guide_label"
      | none => d.h.suppress = true)
  /-- Guides of baselines: the same, except that they are not suppressed in a row that is placed by the parameters without a mask. -/
  vSuppress : d'.v.suppress = true ↔ ¬ (par p "placement" ≠ none ∧ d'.placement = .row ∧ par p "guide_mask" = none) ∧
    ((∃ v, par p "guide_balance" = some v ∧ Lists v "guide_baseline") ∨
    (match par p "guide_mask" with
      | some v => Lists v "guide_baseline"
      | none => d.v.suppress = true))
  /-- The first spacing is kept, the others are those of the array; a number is the second spacing. -/
  spacing : match par p "spacing" with
    | none => d'.spacing = d.spacing
    | some (.arr l) => ∃ ns : List Int, List.Forall₂ IsInt l ns ∧ d'.spacing = d.spacing.headD 0 :: ns
    | some (.num q) => ∃ n a b, IsInt (.num q) n ∧ d.spacing = a :: b ∧ d'.spacing = a :: n :: b.tail
    | some _ => d'.spacing = d.spacing
  /-- top, left, bottom, right, or all the same -/
  margin : match par p "margin" with
    | none => d'.v.margin = d.v.margin ∧ d'.h.margin = d.h.margin
    | some (.arr l) => ∃ t le b r rest, l = t :: le :: b :: r :: rest ∧ IsInt t d'.v.margin.1 ∧ IsInt le d'.h.margin.1 ∧
        IsInt b d'.v.margin.2 ∧ IsInt r d'.h.margin.2
    | some v => ∃ n, IsInt v n ∧ d'.v.margin = (n, n) ∧ d'.h.margin = (n, n)

/-- The parameters have the types they should have. -/
structure Typed (p : Params) (d : Attrs) : Prop where
  indent : ∀ q, par p "indent" = some (.num q) → ∃ n, IsInt (.num q) n
  names : ∀ k ∈ ["horizontal", "vertical", "child_horizontal", "child_vertical", "placement"], ∀ v, par p k = some v → ∃ n, v = .name n
  guides : ∀ k ∈ ["guide_mask", "guide_balance"], ∀ v, par p k = some v → Names v
  spacing : ∀ v, par p "spacing" = some v → (∃ l, v = .arr l ∧ ∀ x ∈ l, ∃ n, IsInt x n) ∨
    ((∀ l, v ≠ .arr l) ∧ 2 ≤ d.spacing.length ∧ ∀ q, v = .num q → ∃ n, IsInt v n)
  margin : ∀ v, par p "margin" = some v → (∃ l, v = .arr l ∧ 4 ≤ l.length ∧ ∀ x ∈ l, ∃ n, IsInt x n) ∨ ∃ n, IsInt v n

end Verif.Layout.Spec
