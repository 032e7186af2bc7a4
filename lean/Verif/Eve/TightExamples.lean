import Verif.Eve.Tight
import Verif.Eve.Examples
namespace Verif.Eve

/-- The conditions are met by a row whose first and last view reach over its edges. -/
example : ∃ t', runSlice roundExact .horizontal .flat 0
    (box .row .forward [leafV 10 .forward [] (7, 1), leafV 10 .forward [] (1, 9)]) = .ok t' ∧
    t'.places.map (fun p => (p.position, p.length, p.outset)) = [(0, 32, 4, 5), (3, 10, 7, 1), (18, 10, 1, 9)] ∧
    (box .row .forward [leafV 10 .forward [] (7, 1), leafV 10 .forward [] (1, 9)]).Forall
      (fun p _ => p.place.outset = p.ext.outset) := by
  have h : (match runSlice roundExact .horizontal .flat 0
      (box .row .forward [leafV 10 .forward [] (7, 1), leafV 10 .forward [] (1, 9)]) with
    | .ok t => t.places.map (fun p => (p.position, p.length, p.outset))
    | _ => []) = [(0, 32, 4, 5), (3, 10, 7, 1), (18, 10, 1, 9)] := by decide +kernel
  split at h
  · rename_i t ht
    exact ⟨t, ht, h, by simp [box, leafV, Tree.Forall, Tree.Forall.Foralls, Tree.roots, Tree.visible, Tree.root]⟩
  · cases h

end Verif.Eve
