import Verif.Layout.Lemmas
/-!
C108: `static_table`.  C109: the layout parameters of a view.
-/
namespace Verif.Layout
open Spec

/-- A lookup in a table that has been sorted gives a value stored with the key, or finds out that there is none. -/
theorem C108_lookup {κ υ : Type} [DecidableEq κ] {lt : κ → κ → Bool} (hc : StrictWeak lt)
    (ht : ∀ a b, lt a b = false → lt b a = false → a = b) {t t' : List (κ × υ)} (hs : Sorted lt t t') (key : κ) :
    (∃ v, lookup lt t' key = .found v ∧ (key, v) ∈ t) ∨ (lookup lt t' key = .missing ∧ ∀ v, (key, v) ∉ t) :=
  lookup_spec hc ht hs key

/-- With different keys, it is the value. -/
theorem C108_unique {κ υ : Type} [DecidableEq κ] {lt : κ → κ → Bool} (hc : StrictWeak lt)
    (ht : ∀ a b, lt a b = false → lt b a = false → a = b) {t t' : List (κ × υ)} (hs : Sorted lt t t')
    (hd : (t.map (·.1)).Nodup) (key : κ) (v : υ) : lookup lt t' key = .found v ↔ (key, v) ∈ t := by
  have huniq : ∀ w, (key, v) ∈ t → (key, w) ∈ t → v = w := by
    intro w h1 h2
    rw [List.nodup_iff_pairwise_ne, List.pairwise_map] at hd
    by_contra hne
    have : ∀ (l : List (κ × υ)), l.Pairwise (fun a b => a.1 ≠ b.1) → (key, v) ∈ l → (key, w) ∈ l → False := by
      intro l
      induction l with
      | nil => intro _ h; cases h
      | cons a l ih =>
        intro hp h1 h2
        rw [List.pairwise_cons] at hp
        rcases List.mem_cons.1 h1 with e1 | m1
        · rcases List.mem_cons.1 h2 with e2 | m2
          · rw [← e1] at e2; cases e2; exact hne rfl
          · exact hp.1 _ m2 (by rw [← e1])
        · rcases List.mem_cons.1 h2 with e2 | m2
          · exact hp.1 _ m1 (by rw [← e2])
          · exact ih hp.2 m1 m2
    exact this t hd h1 h2
  rcases lookup_spec hc ht hs key with ⟨w, h1, h2⟩ | ⟨h1, h2⟩
  · rw [h1]
    constructor
    · intro h; cases h; exact h2
    · intro h; rw [huniq w h h2]
  · rw [h1]
    constructor
    · intro h; cases h
    · intro h; exact absurd h (h2 v)

/-- Parameters of the right types give the attributes that they stand for. -/
theorem C109_apply {T : Tables} {p : Params} {d : Attrs} (hT : Ready T) (hp : Typed p d) : ∃ d', apply T p d = .ok d' ∧ After p d d' := by
  obtain ⟨i, e1, r1⟩ := indent_ok hp.indent d
  obtain ⟨ha, e2, r2⟩ := horizontal_ok hT (hp.names _ (by simp)) { d with indent := i }
  obtain ⟨va, e3, r3⟩ := vertical_ok hT (hp.names _ (by simp)) { d with indent := i, h.alignment := ha }
  obtain ⟨sv, sh, e4, r4, r4'⟩ := mask_ok (hp.guides _ (by simp)) { d with indent := i, h.alignment := ha, v.alignment := va }
  obtain ⟨sv2, sh2, bv, bh, e5, r5, r5', r6, r6'⟩ := balance_ok (hp.guides _ (by simp))
    { d with indent := i, h.alignment := ha, v.alignment := va, v.suppress := sv, h.suppress := sh }
  obtain ⟨pl, sv3, e6, r7, r8⟩ := placement_ok hT (hp.names _ (by simp))
    { d with indent := i, h.alignment := ha, v.alignment := va, v.suppress := sv2, h.suppress := sh2, v.balance := bv, h.balance := bh }
  obtain ⟨ch, e7, r9⟩ := childHorizontal_ok hT (hp.names _ (by simp))
    { d with indent := i, h.alignment := ha, v.alignment := va, v.suppress := sv3, h.suppress := sh2, v.balance := bv, h.balance := bh,
             placement := pl }
  obtain ⟨cv, e8, r10⟩ := childVertical_ok hT (hp.names _ (by simp))
    { d with indent := i, h.alignment := ha, v.alignment := va, v.suppress := sv3, h.suppress := sh2, v.balance := bv, h.balance := bh,
             placement := pl, h.childAlignment := ch }
  obtain ⟨sp, e9, r11⟩ := spacing_ok (p := p)
    (d := { d with indent := i, h.alignment := ha, v.alignment := va, v.suppress := sv3, h.suppress := sh2, v.balance := bv, h.balance := bh,
                   placement := pl, h.childAlignment := ch, v.childAlignment := cv }) hp.spacing
  obtain ⟨mv, mh, e10, r12⟩ := margin_ok hp.margin
    { d with indent := i, h.alignment := ha, v.alignment := va, v.suppress := sv3, h.suppress := sh2, v.balance := bv, h.balance := bh,
             placement := pl, h.childAlignment := ch, v.childAlignment := cv, spacing := sp }
  refine ⟨{ d with indent := i, h.alignment := ha, v.alignment := va, v.suppress := sv3, h.suppress := sh2, v.balance := bv, h.balance := bh,
                   placement := pl, h.childAlignment := ch, v.childAlignment := cv, spacing := sp, v.margin := mv, h.margin := mh }, ?_, ?_⟩
  · unfold apply
    rw [e1]; simp only [Res.bind]
    rw [e2]; simp only
    rw [e3]; simp only
    rw [e4]; simp only
    rw [e5]; simp only
    rw [e6]; simp only
    rw [e7]; simp only
    rw [e8]; simp only
    rw [e9]; simp only
    exact e10
  · refine ⟨r1, r2, r3, r9, r10, r7, r6, r6', ?_, ?_, r11, r12⟩
    · show sh2 = true ↔ _
      rw [r5']
      apply or_congr Iff.rfl
      exact r4'
    · show sv3 = true ↔ _
      rw [r8]
      apply and_congr Iff.rfl
      show sv2 = true ↔ _
      rw [r5]
      apply or_congr Iff.rfl
      exact r4

/-- The ten names of alignments and placements are variables that stand for themselves; the others are cells of the layout sheet. -/
theorem C110_variables {lt : Name → Name → Bool} (hc : StrictWeak lt) (ht : ∀ a b, lt a b = false → lt b a = false → a = b)
    {l : List Name} (hperm : l.Perm reflected) (hsort : l.Pairwise fun a b => lt b a = false) (get : Name → Option Val) (n : String) :
    ((∃ a, AlignName n a) ∨ (∃ a, PlaceName n a) → layoutVar lt (some l) get n.toList = some (some (.name n.toList))) ∧
    (¬ ((∃ a, AlignName n a) ∨ (∃ a, PlaceName n a)) → layoutVar lt (some l) get n.toList = some (get n.toList)) := by
  have hmem : n.toList ∈ l ↔ (∃ a, AlignName n a) ∨ (∃ a, PlaceName n a) := by
    rw [hperm.mem_iff]
    have h1 : (∃ a, AlignName n a) ↔ n.toList ∈ alignmentTable.map (·.1) := by
      rw [List.mem_map]
      constructor
      · rintro ⟨a, h⟩; exact ⟨_, (align_mem n a).2 h, rfl⟩
      · rintro ⟨⟨m, a⟩, h, e⟩; cases e; exact ⟨a, (align_mem n a).1 h⟩
    have h2 : (∃ a, PlaceName n a) ↔ n.toList ∈ placementTable.map (·.1) := by
      rw [List.mem_map]
      constructor
      · rintro ⟨a, h⟩; exact ⟨_, (place_mem n a).2 h, rfl⟩
      · rintro ⟨⟨m, a⟩, h, e⟩; cases e; exact ⟨a, (place_mem n a).1 h⟩
    rw [h1, h2, ← List.mem_append]
    rfl
  have hlook := lookup_spec (υ := Unit) hc ht (t := reflected.map fun x => (x, ())) (t' := l.map fun x => (x, ()))
    ⟨hperm.map _, by rw [List.pairwise_map]; exact hsort⟩ n.toList
  have hlb : ∀ (f m : Nat), Search.lowerBoundN (l.map fun x => (x, ())) lt Prod.fst n.toList f m = Search.lowerBoundN l lt id n.toList f m := by
    intro f m
    induction m using Nat.strongRecOn generalizing f with
    | _ m ih =>
      unfold Search.lowerBoundN
      by_cases hm : m = 0
      · simp [hm]
      · simp only [hm, ↓reduceDIte, List.getElem?_map]
        cases hl : l[f + (m >>> 1)]? with
        | none => rfl
        | some x =>
          simp only [Option.map_some, id]
          split
          · apply ih; rw [Nat.shiftRight_eq_div_pow]; omega
          · apply ih; rw [Nat.shiftRight_eq_div_pow]; omega
  have hlb' : Search.lowerBound (l.map fun x => (x, ())) lt Prod.fst n.toList = Search.lowerBound l lt id n.toList := by
    unfold Search.lowerBound; rw [List.length_map]; exact hlb _ _
  unfold lookup at hlook
  rw [hlb'] at hlook
  unfold layoutVar
  simp only []
  cases hL : Search.lowerBound l lt id n.toList with
  | none => rw [hL] at hlook; simp at hlook
  | some i =>
    rw [hL] at hlook
    simp only [List.length_map, List.getElem?_map] at hlook ⊢
    by_cases hi : i = l.length
    · simp [hi] at hlook
      have : n.toList ∉ l := fun h => hlook (hperm.mem_iff.1 h)
      rw [hmem] at this
      exact ⟨fun h => absurd h this, fun _ => by simp [hi]⟩
    · cases hg : l[i]? with
      | none => rw [hg] at hlook; simp [hi] at hlook
      | some x =>
        rw [hg] at hlook
        by_cases hx : x = n.toList
        · subst hx
          have : n.toList ∈ l := List.mem_of_getElem? hg
          rw [hmem] at this
          exact ⟨fun _ => by simp [hi], fun h => absurd this h⟩
        · simp [hi, hx] at hlook
          have : n.toList ∉ l := fun h => hlook (hperm.mem_iff.1 h)
          rw [hmem] at this
          exact ⟨fun h => absurd h this, fun _ => by simp [hx]⟩

/-- Before the tables are made – by `bind_layout` or `apply_layout_parameters` – nothing may be looked up. -/
theorem C110_variables_violated (lt : Name → Name → Bool) (get : Name → Option Val) (n : Name) : layoutVar lt none get n = none := rfl

/-! ### Where the code is wrong -/

/-- Balanced guides must be suppressed, says the source; in a row without a mask they are not. -/
theorem C109_balance_violated {T : Tables} (hT : Ready T) : ∃ p d, Typed p d ∧ p kGuideMask = none ∧
    ∃ d', apply T p d = .ok d' ∧ d'.v.balance = true ∧ d'.v.suppress = false := by
  let p : Params := fun k => if k = kGuideBalance then some (.arr [.name kGuideBaseline]) else
    if k = kPlacement then some (.name kPlaceRow) else none
  have hty : Typed p Attrs.new := by
    constructor
    · intro q h; cases h
    · intro k hk v h
      simp only [List.mem_cons, List.not_mem_nil, or_false] at hk
      rcases hk with rfl | rfl | rfl | rfl | rfl
      · cases h
      · cases h
      · cases h
      · cases h
      · exact ⟨kPlaceRow, (Option.some.inj h).symm⟩
    · intro k hk v h
      simp only [List.mem_cons, List.not_mem_nil, or_false] at hk
      rcases hk with rfl | rfl
      · cases h
      · exact ⟨[kGuideBaseline], (Option.some.inj h).symm⟩
    · intro v h; cases h
    · intro v h; cases h
  refine ⟨p, Attrs.new, hty, rfl, ?_⟩
  obtain ⟨d', h1, h2⟩ := C109_apply hT hty
  refine ⟨d', h1, ?_, ?_⟩
  · have := h2.vBalance
    have hp : par p "guide_balance" = some (.arr [.name kGuideBaseline]) := rfl
    rw [hp] at this
    exact this.2 ⟨_, rfl, List.mem_singleton.2 rfl⟩
  · have hpl : d'.placement = .row := by
      have hp : par p "placement" = some (.name kPlaceRow) := rfl
      rcases h2.placement with ⟨n, e, hn⟩ | ⟨h, _⟩
      · rw [hp] at e
        have e' : kPlaceRow = n.toList := by injection e with e; injection e
        have hn' : n = "place_row" := by
          have : n = String.ofList n.toList := by simp
          rw [this, ← e']; rfl
        subst hn'
        rcases hn with ⟨_, h⟩ | ⟨h, _⟩ | ⟨h, _⟩
        · exact h
        · exact absurd h (by decide)
        · exact absurd h (by decide)
      · exact absurd (Or.inl ⟨rfl, rfl⟩) (h "place_row" .row hp)
    cases hs : d'.v.suppress with
    | false => rfl
    | true =>
      have := (h2.vSuppress.1 hs).1
      refine absurd ⟨?_, hpl, rfl⟩ this
      intro h; cases h

/-- An array of spacings without an element, in a first set of parameters, and a number in a second one: an element that is not there. -/
theorem C109_spacing_violated (T : Tables) : ∃ p q : Params, ∃ d, apply T p Attrs.new = .ok d ∧ apply T q d = .ub := by
  refine ⟨fun k => if k = kSpacing then some (.arr []) else none, fun k => if k = kSpacing then some (.num 4) else none,
    { Attrs.new with spacing := [0] }, rfl, rfl⟩

/-- An array of less than four margins is read beyond its end. -/
theorem C109_margin_violated (T : Tables) (d : Attrs) : apply T (fun k => if k = kMargin then some (.arr [.num 1, .num 2]) else none) d = .ub := by
  rfl

/-- A parameter of a wrong type is found out after others have been applied. -/
theorem C109_atomic_violated (T : Tables) : ∃ p d d', apply T p d = .throw d' ∧ d' ≠ d := by
  refine ⟨fun k => if k = kIndent then some (.num 7) else if k = kGuideMask then some (.other 0) else none, Attrs.new,
    { Attrs.new with indent := 7 }, rfl, ?_⟩
  intro h
  have : (7 : Int) = 0 := congrArg Attrs.indent h
  omega

end Verif.Layout
