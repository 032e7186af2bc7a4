import Verif.Layout.Spec
import Verif.Search.Props
import Mathlib.Tactic.ByContra
/-!
The steps of `apply_layout_parameters`.
-/
namespace Verif.Layout
open Spec

/-- A lookup in a sorted table. -/
theorem lookup_spec {κ υ : Type} [DecidableEq κ] {lt : κ → κ → Bool} (hc : StrictWeak lt)
    (ht : ∀ a b, lt a b = false → lt b a = false → a = b) {t t' : List (κ × υ)} (hs : Sorted lt t t') (key : κ) :
    (∃ v, lookup lt t' key = .found v ∧ (key, v) ∈ t) ∨ (lookup lt t' key = .missing ∧ ∀ v, (key, v) ∉ t) := by
  have hsb : Search.SortedBy t' lt Prod.fst := by
    intro i j hi hj hij
    rcases Nat.lt_or_eq_of_le hij with h | h
    · exact List.pairwise_iff_getElem.1 hs.2 i j hi hj h
    · subst h; exact hc.irrefl _
  obtain ⟨k, hk, hle, h3, h4⟩ := Search.C01_lower_bound t' lt Prod.fst key (Search.SortedBy.partLower hc hsb key _ _)
  unfold lookup
  rw [hk]
  simp only
  by_cases hlt : k < t'.length
  · rw [if_neg (by omega), List.getElem?_eq_getElem hlt]
    simp only
    by_cases hkey : t'[k].1 = key
    · left
      refine ⟨t'[k].2, by simp [hkey], ?_⟩
      have := hs.1.mem_iff.1 (List.getElem_mem hlt)
      rw [← hkey]; exact this
    · right
      refine ⟨by simp [hkey], fun v hv => ?_⟩
      obtain ⟨i, hi, he⟩ := List.getElem_of_mem (hs.1.mem_iff.2 hv)
      have hki : k ≤ i := by
        by_contra hlt2
        have := h3 i hi (by omega)
        rw [he, hc.irrefl] at this
        cases this
      have h5 := hsb k i hlt hi hki
      rw [he] at h5
      exact hkey (ht _ _ (h4 k hlt (Nat.le_refl _)) h5)
  · right
    rw [if_pos (by omega)]
    refine ⟨rfl, fun v hv => ?_⟩
    obtain ⟨i, hi, he⟩ := List.getElem_of_mem (hs.1.mem_iff.2 hv)
    have := h3 i hi (by omega)
    rw [he, hc.irrefl] at this
    cases this

theorem align_mem (n : String) (a : Align) : (n.toList, a) ∈ alignmentTable ↔ AlignName n a := by
  have key : ∀ (k : Name) (s : String), k = s.toList → (n.toList = k ↔ n = s) := by rintro k s rfl; exact String.toList_inj
  have ekAlignLeft : n.toList = kAlignLeft ↔ n = "align_left" := key kAlignLeft "align_left" rfl
  have ekAlignRight : n.toList = kAlignRight ↔ n = "align_right" := key kAlignRight "align_right" rfl
  have ekAlignTop : n.toList = kAlignTop ↔ n = "align_top" := key kAlignTop "align_top" rfl
  have ekAlignBottom : n.toList = kAlignBottom ↔ n = "align_bottom" := key kAlignBottom "align_bottom" rfl
  have ekAlignCenter : n.toList = kAlignCenter ↔ n = "align_center" := key kAlignCenter "align_center" rfl
  have ekAlignProportional : n.toList = kAlignProportional ↔ n = "align_proportional" := key kAlignProportional "align_proportional" rfl
  have ekAlignFill : n.toList = kAlignFill ↔ n = "align_fill" := key kAlignFill "align_fill" rfl
  simp only [alignmentTable, List.mem_cons, Prod.mk.injEq, List.not_mem_nil, or_false, ekAlignLeft, ekAlignRight, ekAlignTop, ekAlignBottom, ekAlignCenter, ekAlignProportional, ekAlignFill]
  exact Iff.rfl

theorem place_mem (n : String) (a : Place) : (n.toList, a) ∈ placementTable ↔ PlaceName n a := by
  have key : ∀ (k : Name) (s : String), k = s.toList → (n.toList = k ↔ n = s) := by rintro k s rfl; exact String.toList_inj
  have ekPlaceRow : n.toList = kPlaceRow ↔ n = "place_row" := key kPlaceRow "place_row" rfl
  have ekPlaceColumn : n.toList = kPlaceColumn ↔ n = "place_column" := key kPlaceColumn "place_column" rfl
  have ekPlaceOverlay : n.toList = kPlaceOverlay ↔ n = "place_overlay" := key kPlaceOverlay "place_overlay" rfl
  simp only [placementTable, List.mem_cons, Prod.mk.injEq, List.not_mem_nil, or_false, ekPlaceRow, ekPlaceColumn, ekPlaceOverlay]
  exact Iff.rfl

theorem name_string (n : Name) : ∃ s : String, n = s.toList := ⟨String.ofList n, by simp⟩

theorem toInt_isInt {q : Rat} {n : Int} (h : IsInt (.num q) n) : toInt q = some n := by
  obtain ⟨q', he, h1, h2, h3⟩ := h
  cases he
  simp only [toInt, h1]
  rw [if_pos ⟨h2, h3⟩]

theorem isInt_of_toInt {q : Rat} {n : Int} (h : toInt q = some n) : IsInt (.num q) n := by
  simp only [toInt] at h
  split at h
  · rename_i hh
    cases h
    exact ⟨q, rfl, rfl, hh.1, hh.2⟩
  · cases h

theorem castInt_isInt {v : Val} {n : Int} (h : IsInt v n) (d k) : castInt v d k = k n := by
  obtain ⟨q, rfl, h1⟩ := h
  simp only [castInt, toInt_isInt ⟨q, rfl, h1⟩]

section
variable {T : Tables} {p : Params} {d : Attrs}

theorem align_ok (hT : Ready T) (k : String) (n : Name) (hk : p k.toList = some (.name n)) (old : Align) (f : Align → Attrs) (hf : f old = d) :
    ∃ a, align T (.name n) d f = .ok (f a) ∧ AlignIs p k old a := by
  obtain ⟨s, rfl⟩ := name_string n
  unfold align
  rcases lookup_spec hT.order hT.total hT.align s.toList with ⟨a, h1, h2⟩ | ⟨h1, h2⟩
  · refine ⟨a, by simp only [h1], .inl ⟨s, hk, (align_mem s a).1 h2⟩⟩
  · refine ⟨old, by simp only [h1, hf], .inr ⟨?_, rfl⟩⟩
    intro m a hm ha
    unfold par at hm
    rw [hk] at hm
    simp only [Option.some.injEq, Val.name.injEq, String.toList_inj] at hm
    subst hm
    exact h2 a ((align_mem _ a).2 ha)

theorem alignIs_none {k : String} (hk : p k.toList = none) (old : Align) : AlignIs p k old old := by
  refine .inr ⟨?_, rfl⟩
  intro n a hn
  unfold par at hn
  rw [hk] at hn; cases hn

theorem horizontal_ok (hT : Ready T) (hn : ∀ v, par p "horizontal" = some v → ∃ n, v = .name n) (d : Attrs) :
    ∃ a, stepHorizontal T p d = .ok { d with h.alignment := a } ∧ AlignIs p "horizontal" d.h.alignment a := by
  unfold stepHorizontal
  cases hk : p kHorizontal with
  | none => exact ⟨_, rfl, alignIs_none hk _⟩
  | some v =>
    obtain ⟨n, rfl⟩ := hn v hk
    exact align_ok hT "horizontal" n hk d.h.alignment (fun a => { d with h.alignment := a }) rfl

theorem vertical_ok (hT : Ready T) (hn : ∀ v, par p "vertical" = some v → ∃ n, v = .name n) (d : Attrs) :
    ∃ a, stepVertical T p d = .ok { d with v.alignment := a } ∧ AlignIs p "vertical" d.v.alignment a := by
  unfold stepVertical
  cases hk : p kVertical with
  | none => exact ⟨_, rfl, alignIs_none hk _⟩
  | some v =>
    obtain ⟨n, rfl⟩ := hn v hk
    exact align_ok hT "vertical" n hk d.v.alignment (fun a => { d with v.alignment := a }) rfl

theorem childHorizontal_ok (hT : Ready T) (hn : ∀ v, par p "child_horizontal" = some v → ∃ n, v = .name n) (d : Attrs) :
    ∃ a, stepChildHorizontal T p d = .ok { d with h.childAlignment := a } ∧ AlignIs p "child_horizontal" d.h.childAlignment a := by
  unfold stepChildHorizontal
  cases hk : p kChildHorizontal with
  | none => exact ⟨_, rfl, alignIs_none hk _⟩
  | some v =>
    obtain ⟨n, rfl⟩ := hn v hk
    exact align_ok hT "child_horizontal" n hk d.h.childAlignment (fun a => { d with h.childAlignment := a }) rfl

theorem childVertical_ok (hT : Ready T) (hn : ∀ v, par p "child_vertical" = some v → ∃ n, v = .name n) (d : Attrs) :
    ∃ a, stepChildVertical T p d = .ok { d with v.childAlignment := a } ∧ AlignIs p "child_vertical" d.v.childAlignment a := by
  unfold stepChildVertical
  cases hk : p kChildVertical with
  | none => exact ⟨_, rfl, alignIs_none hk _⟩
  | some v =>
    obtain ⟨n, rfl⟩ := hn v hk
    exact align_ok hT "child_vertical" n hk d.v.childAlignment (fun a => { d with v.childAlignment := a }) rfl

theorem indent_ok (hn : ∀ q, par p "indent" = some (.num q) → ∃ n, IsInt (.num q) n) (d : Attrs) :
    ∃ a, stepIndent p d = .ok { d with indent := a } ∧ ((∃ v, par p "indent" = some v ∧ IsInt v a) ∨
      ((∀ q, par p "indent" ≠ some (.num q)) ∧ a = d.indent)) := by
  unfold stepIndent
  unfold par at *
  show ∃ a, (match p "indent".toList with
    | some (.num q) => match toInt q with
      | none => Res.ub
      | some n => .ok { d with indent := n }
    | _ => .ok d) = _ ∧ _
  cases hk : p "indent".toList with
  | none => exact ⟨d.indent, rfl, .inr ⟨by simp, rfl⟩⟩
  | some v =>
    cases v with
    | num q =>
      obtain ⟨n, h⟩ := hn q hk
      refine ⟨n, by simp only [toInt_isInt h], .inl ⟨_, rfl, h⟩⟩
    | name n => exact ⟨d.indent, rfl, .inr ⟨by simp, rfl⟩⟩
    | arr l => exact ⟨d.indent, rfl, .inr ⟨by simp, rfl⟩⟩
    | other k => exact ⟨d.indent, rfl, .inr ⟨by simp, rfl⟩⟩

theorem maskLoop_ok (l : List Name) : ∀ d : Attrs, ∃ sv sh, maskLoop d (l.map .name) = .ok { d with v.suppress := sv, h.suppress := sh } ∧
    (sv = true ↔ d.v.suppress = true ∨ kGuideBaseline ∈ l) ∧ (sh = true ↔ d.h.suppress = true ∨ kGuideLabel ∈ l) := by
  induction l with
  | nil => intro d; exact ⟨d.v.suppress, d.h.suppress, rfl, by simp, by simp⟩
  | cons n l ih =>
    intro d
    simp only [List.map_cons, maskLoop]
    by_cases h1 : n = kGuideBaseline
    · have h2 : n ≠ kGuideLabel := by rw [h1]; decide
      rw [if_pos h1, if_neg h2]
      obtain ⟨sv, sh, e, hv, hh⟩ := ih { d with v.suppress := true }
      refine ⟨sv, sh, e, ?_, ?_⟩
      · rw [hv]; simp [h1]
      · rw [hh]; simp [Ne.symm h2]
    · by_cases h2 : n = kGuideLabel
      · rw [if_neg h1, if_pos h2]
        obtain ⟨sv, sh, e, hv, hh⟩ := ih { d with h.suppress := true }
        refine ⟨sv, sh, e, ?_, ?_⟩
        · rw [hv]; simp [Ne.symm h1]
        · rw [hh]; simp [h2]
      · rw [if_neg h1, if_neg h2]
        obtain ⟨sv, sh, e, hv, hh⟩ := ih d
        refine ⟨sv, sh, e, ?_, ?_⟩
        · rw [hv]; simp [Ne.symm h1]
        · rw [hh]; simp [Ne.symm h2]

theorem balanceLoop_ok (l : List Name) : ∀ d : Attrs, ∃ sv sh bv bh,
    balanceLoop d (l.map .name) = .ok { d with v.suppress := sv, h.suppress := sh, v.balance := bv, h.balance := bh } ∧
    (sv = true ↔ d.v.suppress = true ∨ kGuideBaseline ∈ l) ∧ (sh = true ↔ d.h.suppress = true ∨ kGuideLabel ∈ l) ∧
    (bv = true ↔ d.v.balance = true ∨ kGuideBaseline ∈ l) ∧ (bh = true ↔ d.h.balance = true ∨ kGuideLabel ∈ l) := by
  induction l with
  | nil => intro d; exact ⟨d.v.suppress, d.h.suppress, d.v.balance, d.h.balance, rfl, by simp, by simp, by simp, by simp⟩
  | cons n l ih =>
    intro d
    simp only [List.map_cons, balanceLoop]
    by_cases h1 : n = kGuideBaseline
    · have h2 : n ≠ kGuideLabel := by rw [h1]; decide
      rw [if_pos h1, if_neg h2]
      obtain ⟨sv, sh, bv, bh, e, hv, hh, hbv, hbh⟩ := ih { d with v.balance := true, v.suppress := true }
      refine ⟨sv, sh, bv, bh, e, ?_, ?_, ?_, ?_⟩
      · rw [hv]; simp [h1]
      · rw [hh]; simp [Ne.symm h2]
      · rw [hbv]; simp [h1]
      · rw [hbh]; simp [Ne.symm h2]
    · by_cases h2 : n = kGuideLabel
      · rw [if_neg h1, if_pos h2]
        obtain ⟨sv, sh, bv, bh, e, hv, hh, hbv, hbh⟩ := ih { d with h.balance := true, h.suppress := true }
        refine ⟨sv, sh, bv, bh, e, ?_, ?_, ?_, ?_⟩
        · rw [hv]; simp [Ne.symm h1]
        · rw [hh]; simp [h2]
        · rw [hbv]; simp [Ne.symm h1]
        · rw [hbh]; simp [h2]
      · rw [if_neg h1, if_neg h2]
        obtain ⟨sv, sh, bv, bh, e, hv, hh, hbv, hbh⟩ := ih d
        refine ⟨sv, sh, bv, bh, e, ?_, ?_, ?_, ?_⟩
        · rw [hv]; simp [Ne.symm h1]
        · rw [hh]; simp [Ne.symm h2]
        · rw [hbv]; simp [Ne.symm h1]
        · rw [hbh]; simp [Ne.symm h2]

theorem lists_iff (l : List Name) (n : String) : Lists (.arr (l.map .name)) n ↔ n.toList ∈ l := by
  unfold Lists
  constructor
  · rintro ⟨l', h1, h2⟩
    cases h1
    simpa using h2
  · intro h; exact ⟨_, rfl, by simpa using h⟩

theorem mask_ok (hn : ∀ v, par p "guide_mask" = some v → Names v) (d : Attrs) :
    ∃ sv sh, stepMask p d = .ok { d with v.suppress := sv, h.suppress := sh } ∧
    (sv = true ↔ match par p "guide_mask" with
      | some v => Lists v "guide_baseline"
      | none => d.v.suppress = true) ∧
    (sh = true ↔ match par p "guide_mask" with
      | some v => Lists v "guide_label"
      | none => d.h.suppress = true) := by
  unfold stepMask
  unfold par at *
  change ∃ sv sh, (match p "guide_mask".toList with
    | none => Res.ok d
    | some v => match v with
      | .arr l => maskLoop { d with v.suppress := false, h.suppress := false } l
      | _ => .throw { d with v.suppress := false, h.suppress := false }) = _ ∧ _
  cases hk : p "guide_mask".toList with
  | none => exact ⟨d.v.suppress, d.h.suppress, rfl, Iff.rfl, Iff.rfl⟩
  | some v =>
    obtain ⟨l, rfl⟩ := hn v hk
    obtain ⟨sv, sh, e, hv, hh⟩ := maskLoop_ok l { d with v.suppress := false, h.suppress := false }
    refine ⟨sv, sh, e, ?_, ?_⟩
    · rw [hv]; simp only [lists_iff]; simp; rfl
    · rw [hh]; simp only [lists_iff]; simp; rfl

theorem balance_ok (hn : ∀ v, par p "guide_balance" = some v → Names v) (d : Attrs) :
    ∃ sv sh bv bh, stepBalance p d = .ok { d with v.suppress := sv, h.suppress := sh, v.balance := bv, h.balance := bh } ∧
    (sv = true ↔ (∃ v, par p "guide_balance" = some v ∧ Lists v "guide_baseline") ∨ d.v.suppress = true) ∧
    (sh = true ↔ (∃ v, par p "guide_balance" = some v ∧ Lists v "guide_label") ∨ d.h.suppress = true) ∧
    (match par p "guide_balance" with
      | some v => bv = true ↔ Lists v "guide_baseline"
      | none => bv = d.v.balance) ∧
    (match par p "guide_balance" with
      | some v => bh = true ↔ Lists v "guide_label"
      | none => bh = d.h.balance) := by
  unfold stepBalance
  unfold par at *
  change ∃ sv sh bv bh, (match p "guide_balance".toList with
    | none => Res.ok d
    | some v => match v with
      | .arr l => balanceLoop { d with v.balance := false, h.balance := false } l
      | _ => .throw { d with v.balance := false, h.balance := false }) = _ ∧ _
  cases hk : p "guide_balance".toList with
  | none => exact ⟨d.v.suppress, d.h.suppress, d.v.balance, d.h.balance, rfl, by simp, by simp, rfl, rfl⟩
  | some v =>
    obtain ⟨l, rfl⟩ := hn v hk
    obtain ⟨sv, sh, bv, bh, e, hv, hh, hbv, hbh⟩ := balanceLoop_ok l { d with v.balance := false, h.balance := false }
    have e1 : ∀ n : String, (∃ v, some (Val.arr (l.map Val.name)) = some v ∧ Lists v n) ↔ n.toList ∈ l := by
      intro n
      constructor
      · rintro ⟨v, h1, h2⟩; cases h1; exact (lists_iff l n).1 h2
      · intro h; exact ⟨_, rfl, (lists_iff l n).2 h⟩
    refine ⟨sv, sh, bv, bh, e, ?_, ?_, ?_, ?_⟩
    · rw [hv, e1, or_comm]; rfl
    · rw [hh, e1, or_comm]; rfl
    · simp only [lists_iff]; rw [hbv]; simp; rfl
    · simp only [lists_iff]; rw [hbh]; simp; rfl

theorem placement_ok (hT : Ready T) (hn : ∀ v, par p "placement" = some v → ∃ n, v = .name n) (d : Attrs) :
    ∃ pl sv, stepPlacement T p d = .ok { d with placement := pl, v.suppress := sv } ∧
    ((∃ n, par p "placement" = some (.name n.toList) ∧ PlaceName n pl) ∨
      ((∀ n a, par p "placement" = some (.name n.toList) → ¬ PlaceName n a) ∧ pl = d.placement)) ∧
    (sv = true ↔ ¬ (par p "placement" ≠ none ∧ pl = .row ∧ par p "guide_mask" = none) ∧ d.v.suppress = true) := by
  have fin : ∀ pl : Place, p "placement".toList ≠ none → ∃ sv, (Res.bind (.ok { d with placement := pl }) fun d =>
      if d.placement = .row ∧ (p kGuideMask).isNone then .ok { d with v.suppress := false } else .ok d) =
      .ok { d with placement := pl, v.suppress := sv } ∧
      (sv = true ↔ ¬ (par p "placement" ≠ none ∧ pl = .row ∧ par p "guide_mask" = none) ∧ d.v.suppress = true) := by
    intro pl hp
    simp only [Res.bind]
    by_cases hr : pl = .row ∧ (p kGuideMask).isNone = true
    · rw [if_pos hr]
      refine ⟨false, rfl, ?_⟩
      have h3 : par p "guide_mask" = none := Option.isNone_iff_eq_none.1 hr.2
      have h4 : par p "placement" ≠ none := hp
      simp only [Bool.false_eq_true, h3, hr.1, h4, ne_eq, not_false_iff, and_self, not_true, false_and]
    · rw [if_neg hr]
      refine ⟨d.v.suppress, rfl, ?_⟩
      have : ¬ (par p "placement" ≠ none ∧ pl = .row ∧ par p "guide_mask" = none) := by
        rintro ⟨_, h1, h2⟩
        exact hr ⟨h1, Option.isNone_iff_eq_none.2 h2⟩
      simp only [this, not_false_iff, true_and]
  unfold stepPlacement
  cases hk : p kPlacement with
  | none =>
    refine ⟨d.placement, d.v.suppress, rfl, .inr ⟨?_, rfl⟩, ?_⟩
    · intro n a hh
      unfold par at hh
      rw [show p "placement".toList = none from hk] at hh; cases hh
    · have : ¬ (par p "placement" ≠ none ∧ d.placement = .row ∧ par p "guide_mask" = none) := fun hh => hh.1 hk
      simp only [this, not_false_iff, true_and]
  | some v =>
    obtain ⟨n, rfl⟩ := hn v hk
    obtain ⟨s, rfl⟩ := name_string n
    have hne : p "placement".toList ≠ none := by rw [show p "placement".toList = some _ from hk]; simp
    simp only
    rcases lookup_spec hT.order hT.total hT.place s.toList with ⟨a, h1, h2⟩ | ⟨h1, h2⟩
    · rw [h1]
      obtain ⟨sv, e, hs⟩ := fin a hne
      exact ⟨a, sv, e, .inl ⟨s, hk, (place_mem s a).1 h2⟩, hs⟩
    · rw [h1]
      obtain ⟨sv, e, hs⟩ := fin d.placement hne
      refine ⟨d.placement, sv, e, .inr ⟨?_, rfl⟩, hs⟩
      intro m a hm ha
      unfold par at hm
      rw [show p "placement".toList = some _ from hk] at hm
      simp only [Option.some.injEq, Val.name.injEq, String.toList_inj] at hm
      subst hm
      exact h2 a ((place_mem _ a).2 ha)

theorem spacingLoop_ok (l : List Val) : ∀ (d : Attrs) (pre : List Int) (post : List Int), (∀ x ∈ l, ∃ n, IsInt x n) →
    d.spacing = pre ++ post → post.length = l.length →
    ∃ ns, List.Forall₂ IsInt l ns ∧ spacingLoop d pre.length l = .ok { d with spacing := pre ++ ns } := by
  induction l with
  | nil =>
    intro d pre post _ hd hl
    refine ⟨[], .nil, ?_⟩
    have : post = [] := List.length_eq_zero_iff.1 (by simpa using hl)
    subst this
    simp only [spacingLoop]
    rw [← hd]
  | cons v l ih =>
    intro d pre post hx hd hl
    obtain ⟨n, hn⟩ := hx v (by simp)
    cases post with
    | nil => simp at hl
    | cons b post =>
      simp only [spacingLoop]
      rw [castInt_isInt hn]
      obtain ⟨ns, h1, h2⟩ := ih { d with spacing := d.spacing.set pre.length n } (pre ++ [n]) post (fun x hx' => hx x (by simp [hx']))
        (by simp [hd]) (by simpa using hl)
      refine ⟨n :: ns, .cons hn h1, ?_⟩
      rw [show pre.length + 1 = (pre ++ [n]).length by simp]
      rw [h2]
      simp

theorem resize_eq (l : List Int) (n : Nat) : ∃ post, resize l (n + 1) = l.headD 0 :: post ∧ post.length = n := by
  cases l with
  | nil =>
    refine ⟨List.replicate n 0, ?_, by simp⟩
    simp [resize, List.replicate_succ]
  | cons a l =>
    refine ⟨l.take n ++ List.replicate (n - l.length) 0, ?_, ?_⟩
    · simp [resize]
    · simp; omega

theorem spacing_ok (hn : ∀ v, par p "spacing" = some v → (∃ l, v = .arr l ∧ ∀ x ∈ l, ∃ n, IsInt x n) ∨
    ((∀ l, v ≠ .arr l) ∧ 2 ≤ d.spacing.length ∧ ∀ q, v = .num q → ∃ n, IsInt v n)) :
    ∃ sp, stepSpacing p d = .ok { d with spacing := sp } ∧ (match par p "spacing" with
    | none => sp = d.spacing
    | some (.arr l) => ∃ ns : List Int, List.Forall₂ IsInt l ns ∧ sp = d.spacing.headD 0 :: ns
    | some (.num q) => ∃ n a b, IsInt (.num q) n ∧ d.spacing = a :: b ∧ sp = a :: n :: b.tail
    | some _ => sp = d.spacing) := by
  have hpk : par p "spacing" = p kSpacing := rfl
  unfold stepSpacing
  rw [hpk] at hn ⊢
  cases hk : p kSpacing with
  | none => exact ⟨d.spacing, rfl, rfl⟩
  | some v =>
    have hsp : 2 ≤ d.spacing.length → ∃ a b l, d.spacing = a :: b :: l := by
      intro h
      cases hd : d.spacing with
      | nil => rw [hd] at h; simp at h
      | cons a l =>
        cases l with
        | nil => rw [hd] at h; simp at h
        | cons b l => exact ⟨a, b, l, rfl⟩
    rcases hn v hk with ⟨l, rfl, hl⟩ | ⟨h1, h2, h3⟩
    · obtain ⟨post, hr, hlen⟩ := resize_eq d.spacing l.length
      obtain ⟨ns, e1, e2⟩ := spacingLoop_ok l { d with spacing := resize d.spacing (l.length + 1) } [d.spacing.headD 0] post hl
        (by simpa using hr) hlen
      exact ⟨_, e2, ns, e1, rfl⟩
    · obtain ⟨a, b, l, hd⟩ := hsp h2
      cases v with
      | arr l => exact absurd rfl (h1 l)
      | num q =>
        obtain ⟨n, hq⟩ := h3 q rfl
        refine ⟨a :: n :: l, ?_, n, a, b :: l, hq, hd, rfl⟩
        simp [hd, toInt_isInt hq]
      | name m => exact ⟨d.spacing, by simp [hd], rfl⟩
      | other k => exact ⟨d.spacing, by simp [hd], rfl⟩

theorem margin_ok (hn : ∀ v, par p "margin" = some v → (∃ l, v = .arr l ∧ 4 ≤ l.length ∧ ∀ x ∈ l, ∃ n, IsInt x n) ∨ ∃ n, IsInt v n)
    (d : Attrs) : ∃ mv mh, stepMargin p d = .ok { d with v.margin := mv, h.margin := mh } ∧ (match par p "margin" with
    | none => mv = d.v.margin ∧ mh = d.h.margin
    | some (.arr l) => ∃ t le b r rest, l = t :: le :: b :: r :: rest ∧ IsInt t mv.1 ∧ IsInt le mh.1 ∧ IsInt b mv.2 ∧ IsInt r mh.2
    | some v => ∃ n, IsInt v n ∧ mv = (n, n) ∧ mh = (n, n)) := by
  have hpk : par p "margin" = p kMargin := rfl
  unfold stepMargin
  rw [hpk] at hn ⊢
  cases hk : p kMargin with
  | none => exact ⟨d.v.margin, d.h.margin, rfl, rfl, rfl⟩
  | some v =>
    rcases hn v hk with ⟨l, rfl, h1, h2⟩ | ⟨n, hv⟩
    · match l, h1, h2 with
      | t :: le :: b :: r :: rest, _, h2 =>
        obtain ⟨n1, e1⟩ := h2 t (by simp)
        obtain ⟨n2, e2⟩ := h2 le (by simp)
        obtain ⟨n3, e3⟩ := h2 b (by simp)
        obtain ⟨n4, e4⟩ := h2 r (by simp)
        refine ⟨(n1, n3), (n2, n4), ?_, t, le, b, r, rest, rfl, e1, e2, e3, e4⟩
        simp only [elemInt, List.getElem?_cons_zero, List.getElem?_cons_succ]
        simp only [castInt_isInt e1, castInt_isInt e2, castInt_isInt e3, castInt_isInt e4]
    · have hv' := hv
      obtain ⟨q, rfl, h1⟩ := hv
      exact ⟨(n, n), (n, n), by simp only [castInt_isInt hv'], n, hv', rfl, rfl⟩

end
end Verif.Layout
