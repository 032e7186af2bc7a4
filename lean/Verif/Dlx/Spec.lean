import Mathlib.Data.List.Perm.Basic
/-
Specification: exact covers with colours.  A problem has rows and columns; an entry says that a row has a node in a column, with a colour (0: none).
Secondary columns may be left uncovered, and rows may share them if they have the same colour there.
-/
namespace Verif.Dlx

structure Entry where
  row : Nat
  col : Nat
  color : Int
  deriving DecidableEq

structure Problem where
  rows : Nat
  cols : Nat
  entries : List Entry
  secondary : List Nat

/-- the documented preconditions: positions inside of the matrix, no position twice, colours are not negative, and only secondary columns are coloured -/
structure Problem.Valid (p : Problem) : Prop where
  rows_pos : 0 < p.rows
  cols_pos : 0 < p.cols
  row_lt : ∀ e ∈ p.entries, e.row < p.rows
  col_lt : ∀ e ∈ p.entries, e.col < p.cols
  sec_lt : ∀ c ∈ p.secondary, c < p.cols
  distinct : (p.entries.map fun e => (e.row, e.col)).Nodup
  color_nonneg : ∀ e ∈ p.entries, 0 ≤ e.color
  primary_plain : ∀ e ∈ p.entries, e.col ∉ p.secondary → e.color = 0

/-- the row has a node in the column -/
def Problem.Hits (p : Problem) (r c : Nat) : Prop := ∃ e ∈ p.entries, e.row = r ∧ e.col = c

/-- two rows agree if they have the same colour wherever both have a node -/
def Problem.Agree (p : Problem) (r r' : Nat) : Prop :=
  ∀ e ∈ p.entries, ∀ e' ∈ p.entries, e.row = r → e'.row = r' → e.col = e'.col → e.color = e'.color ∧ 0 < e.color

/-- A solution: different rows, each of them with a node in a primary column, that agree with each other and cover each primary column (once, as nodes
    in primary columns have no colour). -/
structure Problem.Solution (p : Problem) (X : List Nat) : Prop where
  nodup : X.Nodup
  useful : ∀ r ∈ X, ∃ c, c < p.cols ∧ c ∉ p.secondary ∧ p.Hits r c
  agree : ∀ r ∈ X, ∀ r' ∈ X, r ≠ r' → p.Agree r r'
  cover : ∀ c, c < p.cols → c ∉ p.secondary → ∃ r ∈ X, p.Hits r c

/-- the list contains each solution once, up to the order of rows, and nothing else -/
structure Problem.Enumerates (p : Problem) (L : List (List Nat)) : Prop where
  sound : ∀ X ∈ L, p.Solution X
  complete : ∀ Y, p.Solution Y → ∃ X ∈ L, X.Perm Y
  once : L.Pairwise fun X Y => ¬ X.Perm Y

/-- what the callback sees of a solution: its rows, with a mark at the last one -/
def report (X : List Nat) : List (Nat × Bool) := X.mapIdx fun i r => (r, decide (i + 1 = X.length))

end Verif.Dlx
