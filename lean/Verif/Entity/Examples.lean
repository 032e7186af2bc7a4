import Verif.Entity.Props

/-
The hypothesis `Sorted` of C86, C87 is met: there are sorted indexes of the table.
-/
namespace Verif.Entity

def exByCode : List Entry := codePointSet.mergeSort (fun a b => !(decide (b.2 < a.2)))
def exByName : List Entry := codePointSet.mergeSort (fun a b => !(strLess b.1 a.1))

theorem exSorted : Sorted exByCode exByName := by
  refine ⟨⟨List.mergeSort_perm _ _, ?_⟩, ⟨List.mergeSort_perm _ _, ?_⟩⟩
  · have := List.pairwise_mergeSort (le := fun a b : Entry => !(decide (b.2 < a.2)))
      (fun a b c h1 h2 => by simp at *; omega) (fun a b => by simp; omega) codePointSet
    exact this.imp (fun {a b} h => by simpa [Table.indirectCompare] using h)
  · have := List.pairwise_mergeSort (le := fun a b : Entry => !(strLess b.1 a.1))
      (fun a b c h1 h2 => by
        simp only [Bool.not_eq_true'] at *
        exact strLess_ntrans _ _ _ h2 h1)
      (fun a b => by
        cases h : strLess b.1 a.1 with
        | false => simp
        | true =>
          simp only [Bool.not_true, Bool.false_or, Bool.not_eq_true']
          exact strLess_strictWeak.asymm h) codePointSet
    exact this.imp (fun {a b} h => by simpa [Table.indirectCompare] using h)

/-- `a"&` in UTF-8 with an accented character: the round trip changes it. -/
example : ∃ t u, entityEscape exByCode [97, 0xC3, 0xA9] = some t ∧
    entityUnescape exByName t = .ok u ∧ u ≠ [97, 0xC3, 0xA9] :=
  C86_round_trip_violated exSorted _ (by decide) ⟨0xC3, by decide, by decide⟩

/-- `Tom & "Jerry"` survives. -/
example : ∃ t, entityEscape exByCode [84, 38, 34, 10, 74] = some t ∧
    entityUnescape exByName t = .ok [84, 38, 34, 10, 74] :=
  C86_round_trip_partial exSorted _ (by decide)

/-- `AT&T` is truncated. -/
example : entityUnescape exByName [65, 84, 38, 84] = .ok [65, 84] :=
  (C87_unescape_truncates_violated [65, 84] [84] (by decide) (by decide)).2

example : xatoi 0 [52, 49] = 65 := by decide
example : datoi 0 [54, 53] = 65 := by decide

/-- `#x4Ag1` is `#x4A`, and `#74;1` is `#74`. -/
example : codeOfEntity exByName [35, 120, 52, 65, 103, 49] = .ok 74 :=
  (C87_hexadecimal_reference_end [52, 65] 103 [49] (by decide)).trans ((C87_hexadecimal_reference [52, 65] (by decide)).trans (by decide))
example : codeOfEntity exByName [35, 55, 52, 59, 49] = .ok 74 :=
  (C87_decimal_reference_end 55 (by decide) [52] 59 [49] (by decide)).trans ((C87_decimal_reference 55 [52] (by decide)).trans (by decide))

end Verif.Entity
