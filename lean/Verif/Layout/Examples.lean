import Verif.Layout.Props
/-! The hypotheses of C108-C110 are met. -/
namespace Verif.Layout
open Spec

def ltName (a b : Name) : Bool := decide (a < b)

theorem ltName_weak : StrictWeak ltName := by
  constructor
  · intro a; simp [ltName, List.lt_irrefl]
  · intro a b d h1 h2
    simp only [ltName, decide_eq_true_eq] at *
    exact List.lt_trans h1 h2
  · intro a b d h1 h2
    simp only [ltName, decide_eq_false_iff_not, List.not_lt] at *
    exact List.le_trans h2 h1

theorem ltName_total (a b : Name) (h1 : ltName a b = false) (h2 : ltName b a = false) : a = b := by
  simp only [ltName, decide_eq_false_iff_not, List.not_lt] at *
  exact List.le_antisymm h2 h1

def exTables : Tables where
  lt := ltName
  align := [(kAlignBottom, .reverse), (kAlignCenter, .center), (kAlignFill, .forwardFill), (kAlignLeft, .forward),
    (kAlignProportional, .proportional), (kAlignRight, .reverse), (kAlignTop, .forward)]
  place := [(kPlaceColumn, .column), (kPlaceOverlay, .overlay), (kPlaceRow, .row)]

theorem exTables_ready : Ready exTables where
  order := ltName_weak
  total := ltName_total
  align := ⟨by decide, by decide⟩
  place := ⟨by decide, by decide⟩

/-- A row with masked labels, three spacings and margins. -/
def exParams : Params := fun k =>
  if k = kIndent then some (.num 12) else
  if k = kHorizontal then some (.name kAlignRight) else
  if k = kChildVertical then some (.name kAlignFill) else
  if k = kPlacement then some (.name kPlaceRow) else
  if k = kGuideMask then some (.arr [.name kGuideLabel]) else
  if k = kSpacing then some (.arr [.num 1, .num 2, .num 3]) else
  if k = kMargin then some (.arr [.num 4, .num 5, .num 6, .num 7]) else none

theorem isInt_ofInt (n : Int) (h : -2 ^ 31 ≤ n ∧ n < 2 ^ 31) : IsInt (.num (n : Rat)) n := ⟨n, rfl, by simp, h⟩

theorem exParams_typed (d : Attrs) : Typed exParams d := by
  constructor
  · intro q h; cases h; exact ⟨12, isInt_ofInt 12 (by omega)⟩
  · intro k hk v h
    simp only [List.mem_cons, List.not_mem_nil, or_false] at hk
    rcases hk with rfl | rfl | rfl | rfl | rfl
    · exact ⟨kAlignRight, (Option.some.inj h).symm⟩
    · cases h
    · cases h
    · exact ⟨kAlignFill, (Option.some.inj h).symm⟩
    · exact ⟨kPlaceRow, (Option.some.inj h).symm⟩
  · intro k hk v h
    simp only [List.mem_cons, List.not_mem_nil, or_false] at hk
    rcases hk with rfl | rfl
    · exact ⟨[kGuideLabel], (Option.some.inj h).symm⟩
    · cases h
  · intro v h
    refine Or.inl ⟨_, (Option.some.inj h).symm, ?_⟩
    intro x hx
    simp only [List.mem_cons, List.not_mem_nil, or_false] at hx
    rcases hx with rfl | rfl | rfl
    · exact ⟨1, isInt_ofInt 1 (by omega)⟩
    · exact ⟨2, isInt_ofInt 2 (by omega)⟩
    · exact ⟨3, isInt_ofInt 3 (by omega)⟩
  · intro v h
    refine Or.inl ⟨_, (Option.some.inj h).symm, by simp, ?_⟩
    intro x hx
    simp only [List.mem_cons, List.not_mem_nil, or_false] at hx
    rcases hx with rfl | rfl | rfl | rfl
    · exact ⟨4, isInt_ofInt 4 (by omega)⟩
    · exact ⟨5, isInt_ofInt 5 (by omega)⟩
    · exact ⟨6, isInt_ofInt 6 (by omega)⟩
    · exact ⟨7, isInt_ofInt 7 (by omega)⟩

example : ∃ d', apply exTables exParams Attrs.new = .ok d' ∧ After exParams Attrs.new d' := C109_apply exTables_ready (exParams_typed _)

example : apply exTables exParams Attrs.new = .ok
    { indent := 12, spacing := [0, 1, 2, 3], h := ⟨.reverse, true, false, (5, 7), .forward⟩,
      v := ⟨.default, false, false, (4, 6), .forwardFill⟩, placement := .row } := by decide +kernel

example : lookup exTables.lt exTables.align kAlignCenter = .found .center :=
  (C108_unique ltName_weak ltName_total exTables_ready.align (by decide) _ _).2 (by decide)

example : ∃ l : List Name, l.Perm reflected ∧ l.Pairwise fun a b => ltName b a = false :=
  ⟨[kAlignBottom, kAlignCenter, kAlignFill, kAlignLeft, kAlignProportional, kAlignRight, kAlignTop, kPlaceColumn, kPlaceOverlay, kPlaceRow],
    by decide, by decide⟩

end Verif.Layout
