import Verif.Eve.ResizeProps
import Verif.Eve.Examples
/-! C128: a case that meets the conditions, and what `adjust` remembers. -/
namespace Verif.Eve

/-- A view with the same extents in both slices, as it is added. -/
def addV (placement : Placement) (align : Align) (ext : Ext) (kids : List (Tree Proxy))
    (second : Option (Ext → Ext → Place → Place → Ext) := none) : Tree Proxy :=
  .node true
    { h := { placement := placement, align := align, spacing := [0, 5] }
      v := { placement := placement, align := align, spacing := [0, 5] }
      measure := (ext, ext), measureVertical := second } kids

/-- A row: a leaf with a guide, a text that fills the width and whose height depends on it, a column. -/
def window : Tree Proxy :=
  addV .row .forward {}
    [addV .leaf .default { length := 20, guides := [4] } [],
     addV .leaf .forwardFill { length := 30 } [] (some (fun _ v ph _ => { v with length := 600 / ph.length })),
     addV .column .reverse {} [addV .leaf .default { length := 10, guides := [3] } [], addV .leaf .center { length := 12 } []]]

theorem slice_forall {P : Slice → Prop} : (∀ s, P s) ↔ P .horizontal ∧ P .vertical :=
  ⟨fun h => ⟨h _, h _⟩, fun h s => by cases s <;> simp [h]⟩

theorem window_fresh : Fresh window := by
  simp [Fresh, window, addV, Tree.All, Tree.All.Alls, Proxy.get, Item.leaf, slice_forall]

/-- What the visible views are told: position, length, outsets and guides, in both slices; and the size. -/
def told (r : Except Err (Tree Proxy × Int × Int)) : Option (List Place × List Place × Int × Int) :=
  match r with
  | .ok (t, size) => some ((t.map Proxy.h).places, (t.map Proxy.v).places, size)
  | .error _ => none

/-- The views after a layout of a certain size. -/
def after (r : Except Err (Tree Proxy × Int × Int)) (t : Tree Proxy) : Tree Proxy :=
  match r with
  | .ok (t', _) => t'
  | .error _ => t

theorem after_used {rnd : Int → Int → Int → Int} {o : Options} {w h : Int} {t0 t : Tree Proxy} (hu : Used rnd t0 t) :
    Used rnd t0 (after (evaluate rnd o w h t) t) := by
  cases e : evaluate rnd o w h t with
  | error _ => exact hu
  | ok r => obtain ⟨t', rw, rh⟩ := r; exact .evaluated hu e

theorem after_adjust_used {rnd : Int → Int → Int → Int} {o : Options} {w h : Int} {t0 t : Tree Proxy} (hu : Used rnd t0 t) :
    Used rnd t0 (after (adjust rnd o w h t) t) := by
  cases e : adjust rnd o w h t with
  | error _ => exact hu
  | ok r => obtain ⟨t', rw, rh⟩ := r; exact .adjusted hu e

theorem mapVisible_flags (f : Proxy → Proxy) (t : Tree Proxy) : (t.mapVisible f).flags = t.flags := by
  unfold Tree.flags
  rw [Tree.map_mapVisible (f := f) (g := id) (k := fun _ => ()) (fun _ => rfl), Tree.mapVisible_id]

theorem adjust_flags {rnd : Int → Int → Int → Int} {o : Options} {w h rw rh : Int} {t t' : Tree Proxy}
    (e : adjust rnd o w h t = .ok (t', rw, rh)) : t'.flags = t.flags := by
  obtain ⟨t1, _, _, _, e3, e4, _, _⟩ := adjust_parts e
  have k1 := map_of_without e3 (fun _ => ()) (fun _ => rfl)
  have k2 := map_of_without e4 (fun _ => ()) (fun _ => rfl)
  exact k2.trans ((mapVisible_flags _ _).trans k1)

theorem after_adjust_flags {rnd : Int → Int → Int → Int} {o : Options} {w h : Int} {t : Tree Proxy} :
    (after (adjust rnd o w h t) t).flags = t.flags := by
  cases e : adjust rnd o w h t with
  | error _ => rfl
  | ok r => obtain ⟨t', rw, rh⟩ := r; exact adjust_flags e

theorem after_flags {rnd : Int → Int → Int → Int} {o : Options} {w h : Int} {t : Tree Proxy} :
    (after (evaluate rnd o w h t) t).flags = t.flags := by
  cases e : evaluate rnd o w h t with
  | error _ => rfl
  | ok r =>
    obtain ⟨t', rw, rh⟩ := r
    unfold evaluate at e
    rw [post_onEach] at e
    exact (adjust_flags e).trans (mapVisible_flags _ _)

/-- The views after two layouts, of different sizes. -/
def twice (t0 : Tree Proxy) : Tree Proxy :=
  after (adjust roundExact .nested 300 200 (after (evaluate roundExact .flat 0 0 t0) t0))
    (after (evaluate roundExact .flat 0 0 t0) t0)

theorem twice_used (t0 : Tree Proxy) : Used roundExact t0 (twice t0) := after_adjust_used (after_used .added)

theorem twice_flags (t0 : Tree Proxy) : t0.flags = (twice t0).flags := by
  unfold twice
  rw [after_adjust_flags, after_flags]

theorem twice_visible {t0 : Tree Proxy} (h : t0.visible = true) : (twice t0).visible = true := by
  have := congrArg Tree.visible (twice_flags t0)
  simp only [Tree.flags, Tree.map_visible] at this
  rw [← this]; exact h

/-- A layout leaves its traces: the alignment is resolved, the guides are stored. -/
example : (match evaluate roundExact .flat 0 0 window with
      | .ok (t, _) => t.kids.map (fun u => (u.root.h.align, u.root.h.fwd, u.root.h.space))
      | .error _ => []) = [(.forward, [4], 0), (.forwardFill, [], 5), (.reverse, [3], 5)] := by decide +kernel

theorem twice_told {t0 : Tree Proxy} (h0 : Fresh t0) (hv : t0.visible = true) (w h : Int) :
    told (evaluate roundExact .nested w h (twice t0)) = told (evaluate roundExact .nested w h t0) := by
  have := C128_evaluate_forgets (o := .nested) (w := w) (h := h) h0 (twice_used t0) rfl (twice_flags t0)
    (twice_visible hv)
  revert this
  cases evaluate roundExact .nested w h (twice t0) <;> cases evaluate roundExact .nested w h t0 <;>
    simp +contextual [told]

/-- The next call of `evaluate` gives the same as the first would have. -/
example : told (evaluate roundExact .nested 100 50 (twice window)) = told (evaluate roundExact .nested 100 50 window) :=
  twice_told window_fresh rfl 100 50

example : ((told (evaluate roundExact .nested 100 50 window)).map (fun r => r.1.map (fun p => (p.position, p.length)))) =
    some [(0, 100), (0, 20), (25, 58), (88, 12), (0, 10), (0, 12)] := by decide +kernel

/-- A row of one view whose outset (a shadow, say) is large. -/
def shadowed : Tree Proxy := addV .row .forward {} [addV .leaf .default { length := 20, outset := (30, 30) } []]

/-- The same is not true of `adjust`: it does not measure, and starts with the outsets of the last layout (source/eve.cpp:773,
781, 820, 828).  A window is laid out at its natural size, and then made larger, as the comments of adobe/eve.hpp:206-240
advise: its trailing outset is still 30, although its content ends 50 before its edge; after `evaluate` it is 0. -/
theorem C128_adjust_remembers :
    (told (adjust roundExact .nested 100 0 (after (evaluate roundExact .nested 0 0 shadowed) shadowed))).map
        (fun r => r.1.map (fun p => (p.position, p.length, p.outset)))
      = some [(0, 100, 30, 30), (0, 20, 30, 30)] ∧
    (told (evaluate roundExact .nested 100 0 (after (evaluate roundExact .nested 0 0 shadowed) shadowed))).map
        (fun r => r.1.map (fun p => (p.position, p.length, p.outset)))
      = some [(0, 100, 30, 0), (0, 20, 30, 30)] := by decide +kernel

end Verif.Eve
