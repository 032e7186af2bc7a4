import Verif.Eve.Twin
/-! Cases that meet the conditions of the theorems, and arrangements for which the code does not keep them. -/
namespace Verif.Eve

/-- A leaf with a length, guides and an alignment. -/
def leafV (length : Int) (align : Align) (guides : List Int := []) (outset : Int × Int := (0, 0)) : Tree Item :=
  .node true { align := align, ext := { length := length, guides := guides, outset := outset }, clength := length,
               place := { length := length, outset := outset, guides := guides } } []

def box (placement : Placement) (align : Align) (kids : List (Tree Item)) (margin : Int × Int := (2, 3)) : Tree Item :=
  .node true { placement := placement, align := align, margin := margin, spacing := [0, 5], ext := { frame := (1, 1) } } kids

/-- A row: a leaf, one that fills, a column with two leaves whose guides (baselines, say) differ, and an invisible view. -/
def sample : Tree Item :=
  box .row .forward [leafV 20 .forward [4], leafV 10 .forwardFill, .node false {} [],
    box .column .reverse [leafV 30 .forward [3], leafV 7 .forward [9], leafV 11 .reverse [2], leafV 5 .reverse [1]]]

/-- Position and length of the visible views. -/
def result (r : Except Err (Tree Item)) : Option (List (Int × Int)) :=
  match r with
  | .ok t => some (t.places.map (fun p => (p.position, p.length)))
  | .error _ => none

/-- The sample satisfies the conditions of C62, … -/
theorem sample_sane : sample.Forall (fun p kids => (p.leaf = false → Sane .horizontal p kids) ∧ LeafOk p kids) := by
  simp [sample, box, leafV, Tree.Forall, Tree.Forall.Foralls, Tree.roots, Tree.visible, Tree.root, Item.leaf, Sane, LeafOk,
    isWith, inherit, RowSane, Item.guided, Align.isReverse, Align.padded]

/-- … has no balanced container, … -/
theorem sample_unbalanced : sample.Forall (fun p _ => p.balance = false) := by
  simp [sample, box, leafV, Tree.Forall, Tree.Forall.Foralls]

theorem result_ok {r : Except Err (Tree Item)} {x : List (Int × Int)} (h : result r = some x) : ∃ t, r = .ok t := by
  cases r with
  | ok t => exact ⟨t, rfl⟩
  | error e => simp [result] at h

theorem result_root {t : Tree Item} {x : List (Int × Int)} {a : Int × Int} (h : result (.ok t) = some (a :: x)) :
    t.root.place.length = a.2 := by
  match t with
  | .node false _ _ => simp [result, Tree.places] at h
  | .node true b ks =>
    simp only [result, Tree.places, List.map_cons, Option.some.injEq, List.cons.injEq] at h
    rw [← h.1]; rfl

theorem sample_natural : result (runSlice roundExact .horizontal .nested 0 sample)
    = some [(0, 90), (3, 20), (28, 10), (43, 43), (9, 30), (3, 7), (28, 11), (29, 5)] := by decide +kernel

theorem sample_nested : result (runSlice roundExact .horizontal .nested 100 sample)
    = some [(0, 100), (3, 20), (28, 20), (53, 43), (9, 30), (3, 7), (28, 11), (29, 5)] := by decide +kernel

theorem sample_flat : result (runSlice roundExact .horizontal .flat 100 sample)
    = some [(0, 100), (3, 20), (28, 20), (53, 43), (62, 30), (56, 7), (81, 11), (82, 5)] := by decide +kernel

/-- … fits in 100, … -/
theorem sample_fits : Fits roundExact .horizontal .nested 100 sample := by
  obtain ⟨t0, h0⟩ := result_ok sample_natural
  refine Or.inr ⟨t0, h0, ?_⟩
  have := sample_natural
  rw [h0] at this
  rw [result_root this]
  decide

/-- … and the solver finishes. -/
theorem sample_settles : Settles .horizontal sample := by
  have h1 : ∃ ta, sample.post (adjustStep .horizontal) = .ok ta := by
    obtain ⟨t0, h0⟩ := result_ok sample_natural
    obtain ⟨ps⟩ := passes h0
    exact ⟨_, ps.adjusted⟩
  obtain ⟨ta, h1⟩ := h1
  have h2 : (match sample.post (adjustStep .horizontal) with
    | .ok ta => (match solve .horizontal ta with | .ok (_, b) => b | _ => false)
    | _ => false) = true := by decide +kernel
  rw [h1] at h2
  cases h3 : solve .horizontal ta with
  | error e => simp [h3] at h2
  | ok r =>
    obtain ⟨ts, b⟩ := r
    simp only [h3] at h2
    exact ⟨ta, ts, h1, by rw [h3, h2]⟩

/-- The conditions of C62, C64, C65 and C66 are met. -/
example : ∃ t', runSlice roundExact .horizontal .nested 100 sample = .ok t' ∧
    t'.Forall (fun p kids => p.leaf = false → Contained .horizontal .nested p kids ∧ p.clength ≤ p.place.length) ∧
    t'.Forall (fun p kids => p.leaf = false → isWith .horizontal p.placement = false →
      LeadingAligned kids ∧ TrailingAligned kids ∧
      (p.align = .forward ∨ p.align = .forwardFill → LeadingOf (origin .nested p) p kids)) := by
  obtain ⟨t', h⟩ := result_ok sample_nested
  exact ⟨t', h, C62_children_contained_partial roundExact_good h sample_sane sample_fits,
    C64_guides_aligned_partial h sample_unbalanced sample_settles⟩

/-- In the sample the two leading guides of the column coincide, although the views have different guides. -/
example : result (runSlice roundExact .horizontal .flat 100 sample)
    = some [(0, 100), (3, 20), (28, 20), (53, 43), (62, 30), (56, 7), (81, 11), (82, 5)] ∧
    (62 + 3 = 56 + 9) := ⟨sample_flat, rfl⟩

/-- A row without guides, two of whose views fill. -/
def plainSample : Tree Item :=
  box .row .forward [leafV 20 .forward, leafV 10 .forwardFill, leafV 7 .forwardFill, leafV 4 .reverse]

theorem plain_natural : result (runSlice roundExact .horizontal .flat 0 plainSample)
    = some [(0, 63), (3, 20), (28, 10), (43, 7), (55, 4)] := by decide +kernel

theorem plain_result : result (runSlice roundExact .horizontal .flat 100 plainSample)
    = some [(0, 100), (3, 20), (28, 28), (61, 26), (92, 4)] := by decide +kernel

/-- The conditions of C63 are met; 37 additional units are divided as 18 and 19. -/
example : ∃ t', runSlice roundExact .horizontal .flat 100 plainSample = .ok t' ∧
    plainSample.Forall (fun p kids => (p.leaf = false → Sane .horizontal p kids) ∧ LeafOk p kids) ∧
    plainSample.Forall PlainKids ∧ Fits roundExact .horizontal .flat 100 plainSample := by
  obtain ⟨t', h⟩ := result_ok plain_result
  refine ⟨t', h, ?_, ?_, ?_⟩
  · simp [plainSample, box, leafV, Tree.Forall, Tree.Forall.Foralls, Tree.roots, Tree.visible, Tree.root, Item.leaf, Sane, LeafOk,
      isWith, inherit, RowSane, Item.guided]
  · simp [plainSample, box, leafV, Tree.Forall, Tree.Forall.Foralls, Tree.roots, Tree.visible, Tree.root, PlainKids, Plain]
  · obtain ⟨t0, h0⟩ := result_ok plain_natural
    refine Or.inr ⟨t0, h0, ?_⟩
    have := plain_natural
    rw [h0] at this
    rw [result_root this]
    decide

/-! ### a whole layout -/

/-- A view from its two slices, without a second measurement. -/
def view (h v : Item) : Proxy := { h := h, v := v, measure := (h.ext, v.ext), measureVertical := none }

/-- A view whose height depends on the width it got. -/
def textView (width area : Int) : Proxy :=
  { h := { align := .forwardFill, ext := { length := width }, clength := width }
    v := { align := .forward }
    measure := ({ length := width }, {})
    measureVertical := some (fun _ v ph _ => { v with length := max 0 (area / ph.length) }) }

def page : Tree Proxy :=
  .node true (view { placement := .column, spacing := [0, 4], margin := (2, 2) } { placement := .column, spacing := [0, 4], margin := (2, 2) })
    [.node true (textView 40 1200) [], .node true (view { align := .reverse, ext := { length := 10 } } { align := .forward, ext := { length := 12 } }) []]

/-- Position and length of the visible views, in both directions, and the size of the whole. -/
def results (r : Except Err (Tree Proxy × Int × Int)) : Option (List (Int × Int) × List (Int × Int) × Int × Int) :=
  match r with
  | .ok (t, w, h) => some ((t.map Proxy.h).places.map (fun p => (p.position, p.length)),
      (t.map Proxy.v).places.map (fun p => (p.position, p.length)), w, h)
  | .error _ => none

/-- The text is 60 wide and therefore 20 high; the whole is 40 high. -/
theorem page_result : results (evaluate roundExact .flat 64 0 page)
    = some ([(0, 64), (2, 60), (52, 10)], [(0, 40), (2, 20), (26, 12)], 64, 40) := by decide +kernel

theorem page_natural : results (evaluate roundExact .flat 0 0 page)
    = some ([(0, 44), (2, 40), (32, 10)], [(0, 50), (2, 30), (36, 12)], 44, 50) := by decide +kernel

theorem page_sane : (page.mapVisible calculate).Forall SaneBoth := by
  simp [page, view, textView, Tree.mapVisible, Tree.mapVisible.mapVisibles, calculate, Tree.Forall, Tree.Forall.Foralls, Tree.roots,
    Tree.visible, Tree.root, SaneBoth, Item.measured, Item.leaf, Sane, LeafOk, isWith, inherit, RowSane, Item.guided,
    Proxy.measures, List.forall₂_cons_left_iff]
  rintro e es rfl _ _ x ph rfl
  simp [RowSane, Item.guided, Align.isReverse, Align.padded]
  omega

theorem results_ok {r : Except Err (Tree Proxy × Int × Int)} {x y : List (Int × Int)} {w h : Int}
    (e : results r = some (x, y, w, h)) : ∃ t, r = .ok (t, w, h) := by
  cases r with
  | error e => simp [results] at e
  | ok t =>
    obtain ⟨t, w', h'⟩ := t
    simp only [results, Option.some.injEq, Prod.mk.injEq] at e
    obtain ⟨_, _, rfl, rfl⟩ := e
    exact ⟨t, rfl⟩

/-- The conditions of the theorem about `evaluate` are met. -/
example : ∃ t', evaluate roundExact .flat 64 0 page = .ok (t', 64, 40) ∧ t'.Forall (fun p kids =>
      (p.h.leaf = false → Contained .horizontal .flat p.h (kids.map Proxy.h) ∧ p.h.clength ≤ p.h.place.length) ∧
      (p.v.leaf = false → Contained .vertical .flat p.v (kids.map Proxy.v) ∧ p.v.clength ≤ p.v.place.length)) := by
  obtain ⟨t', h⟩ := results_ok page_result
  obtain ⟨t0, h0⟩ := results_ok page_natural
  exact ⟨t', h, C62_evaluate_contained_partial roundExact_good h page_sane (Or.inr ⟨t0, 44, 50, h0, by decide⟩) (Or.inl rfl)⟩

/-! ### arrangements the code does not keep apart -/

/-- Two views of a row overlap, or one of them is outside. -/
def overlaps (r : Except Err (Tree Item)) : Bool :=
  match result r with
  | some [(p, l), (p1, l1), (p2, l2)] => p2 < p1 + l1 || p1 < p || p + l < p2 + l2
  | _ => false

/-- Two leaves aligned in reverse, with guides: the distance of the second guide is subtracted twice. -/
def badReverse : Tree Item := box .row .forward [leafV 10 .reverse [8], leafV 10 .reverse [2]]
/-- A leaf with a guide after one that fills: the guide does not move with the additional space. -/
def badGuide : Tree Item := box .row .forward [leafV 10 .forwardFill, leafV 10 .forward [2]]
/-- No alignment. -/
def badDefault : Tree Item :=
  .node true { placement := .row, childAlign := .default, align := .forward, spacing := [5] } [leafV 10 .default, leafV 10 .default]

/-- C62 without its conditions on guides is false of the code. -/
theorem C62_children_contained_violated :
    overlaps (runSlice roundExact .horizontal .flat 0 badReverse) = true ∧
    overlaps (runSlice roundExact .horizontal .flat 60 badGuide) = true ∧
    overlaps (runSlice roundExact .horizontal .flat 60 badDefault) = true := by decide +kernel

/-- Across the direction, a view that fills in reverse leaves its container: position 46 and length 53 in a container that ends at 60. -/
theorem C62_cross_reverse_fill_violated :
    result (runSlice roundExact .horizontal .flat 60 (box .column .forward [leafV 10 .reverseFill, leafV 30 .forward]))
      = some [(0, 60), (46, 53), (3, 30)] := by decide +kernel

/-- A proportional view that is alone in a row divides by zero. -/
theorem C62_proportional_alone_violated :
    (match runSlice roundExact .horizontal .flat 60 (box .row .forward [leafV 10 .proportional]) with
      | .error .ub => true | _ => false) = true := by decide +kernel

/-- Along the direction, the outsets of the views in the middle are not covered: the second view reaches from -12 to 58,
its container from 0 to 47. -/
theorem C66_outsets_cover_violated :
    (match runSlice roundExact .horizontal .flat 0
        (box .row .forward [leafV 10 .forward, leafV 10 .forward [] (30, 30), leafV 10 .forward]) with
      | .ok t => t.places.map (fun p => (p.position - p.outset.1, p.position + p.length + p.outset.2))
      | _ => []) = [(0, 47), (3, 13), (-12, 58), (33, 43)] := by decide +kernel

/-- A container without frame and margin. -/
def bare (placement : Placement) (align : Align) (kids : List (Tree Item)) (spacing : List Int := [0]) : Tree Item :=
  .node true { placement := placement, align := align, spacing := spacing } kids

/-- Views that fill in reverse in rows that lie on top of each other. -/
def unsettled : Tree Item :=
  bare .overlay .reverseFill
    [bare .row .reverseFill
      [leafV 0 .reverseFill [0], bare .row .forwardFill [leafV 0 .reverseFill [0], leafV 0 .forwardFill [0]],
        leafV 0 .reverseFill [0]],
     bare .row .forwardFill
      [bare .row .forwardFill [leafV 0 .reverseFill [0], leafV 0 .reverseFill [0, 0]], leafV 0 .forwardFill [0]] [1, 3, 0]]

/-- The comment of source/eve.cpp:345-349, that each pass solves a guide and the loop ends before its limit, is false: with
twelve views and eight guides there is progress in each of the thirteen passes the limit allows. -/
theorem C64_solver_settles_violated : unsettled.count = 12 ∧
    (match unsettled.post (adjustStep .horizontal) with
    | .ok ta => (match solve .horizontal ta with | .ok (_, b) => some b | _ => none)
    | _ => none) = some false := by decide +kernel

end Verif.Eve
