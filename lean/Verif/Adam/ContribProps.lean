import Verif.Adam.ContribLemmas
/-!
What a sheet reports about the cells its results come from (C115), whether that is enough to get the results back (C116), and about the
cells worth enabling in a dialog (C117).
-/
namespace Verif.Adam
variable {N V : Type} [DecidableEq N] [DecidableEq V] [Values V]

/-! ### C115: reports -/

/-- A result of the sheet: an output cell, or an interface cell when the sheet has no output cells. -/
def IsResult (s : Sheet N V) (i : Nat) : Prop :=
  (∃ o, s.outputIndex.find o = some i) ∧ ((s.cell i).spec = .output ∨ (s.hasOutput = false ∧ (s.cell i).spec = .interfaceOutput))

/-- `k` is the input half of the interface cell named `n`, and it contributes to a result. -/
def Contributes (s : Sheet N V) (n : N) (k : Nat) : Prop :=
  s.inputIndex.find n = some k ∧ ∃ i, IsResult s i ∧ (s.cell i).contributing.testBit k = true

/-- The same for one output cell named `o`. -/
def ContributesTo (s : Sheet N V) (o n : N) (k : Nat) : Prop :=
  s.inputIndex.find n = some k ∧ ∃ i, s.outputIndex.find o = some i ∧ (s.cell i).contributing.testBit k = true

theorem half_find {s : Sheet N V} (hs : Reachable s) {k : Nat} (hk : Half s k) (n : N) : (s.cell k).name = n ↔ s.inputIndex.find n = some k := by
  constructor
  · rintro rfl; exact hs.halves k hk
  · intro h
    have hf := hs.good.fit
    obtain ⟨i, h1, h2⟩ := (hf.inp n k).mp h
    rcases h2 with ⟨h2, rfl⟩ | h2
    · rw [hk.2] at h2; cases h2
    · have hsp : (s.cell i).spec = .interfaceOutput := by
        by_contra hne
        rw [hf.wf.noInput i hne] at h2; cases h2
      obtain ⟨j, g1, _, _, _, g5⟩ := hf.wf.iface n i h1 hsp
      rw [h2] at g1
      cases g1
      exact g5

/-- A report on some of the contributors. -/
theorem report_get {s : Sheet N V} (hs : Reachable s) {b : Bits} (hb : ∀ k, b.testBit k = true → Half s k) (mark : Dict N V) (n : N) (v : V) :
    Dict.get (contributingSet s mark b) n = some v ↔ ∃ k, (s.inputIndex.find n = some k ∧ b.testBit k = true) ∧ (s.cell k).state = v ∧
      (Dict.get mark n ≠ some v ∨ (s.priorityAccessed.testBit k = true ∧
        ∃ n' k', (s.inputIndex.find n' = some k' ∧ b.testBit k' = true) ∧ Dict.get mark n' = none)) := by
  rw [contributingSet_get (distinct_of hs.halves hb)]
  constructor
  · rintro ⟨k, h1, h2, h3, h4, h5⟩
    refine ⟨k, ⟨(half_find hs (hb k h2) n).mp h3, h2⟩, h4, h5.imp id ?_⟩
    rintro ⟨g1, j, g2, g3, g4⟩
    exact ⟨g1, _, j, ⟨(half_find hs (hb j g3) _).mp rfl, g3⟩, g4⟩
  · rintro ⟨k, ⟨h1, h2⟩, h4, h5⟩
    refine ⟨k, (hb k h2).1, h2, (half_find hs (hb k h2) n).mpr h1, h4, h5.imp id ?_⟩
    rintro ⟨g1, n', j, ⟨g2, g3⟩, g4⟩
    exact ⟨g1, j, (hb j g3).1, g3, by rw [(half_find hs (hb j g3) n').mpr g2]; exact g4⟩

theorem outputBits_half {s : Sheet N V} (hs : Reachable s) (ord : List Nat) : ∀ k, (outputBits s ord).testBit k = true → Half s k := by
  intro k hk
  obtain ⟨i, _, _, h⟩ := (outputBits_bit s ord k).mp hk
  exact hs.bits.cell i k h

theorem contributes_iff {s : Sheet N V} {ord : List Nat} (ho : Enumerates s ord) (n : N) (k : Nat) :
    (s.inputIndex.find n = some k ∧ (outputBits s ord).testBit k = true) ↔ Contributes s n k := by
  unfold Contributes IsResult
  rw [outputBits_bit]
  constructor
  · rintro ⟨h1, i, h2, h3, h4⟩
    exact ⟨h1, i, ⟨(ho.2 i).mp h2, h3⟩, h4⟩
  · rintro ⟨h1, i, ⟨h2, h3⟩, h4⟩
    exact ⟨h1, i, (ho.2 i).mpr h2, h3, h4⟩

/-- C115.  What `contributing(mark)` returns: the interface cells which contribute to a result of the sheet and whose value is not the one in the
mark, and, if one of the contributing cells is not in the mark at all, also those contributing cells, unchanged, whose priority was used; each with
its current value.  Nothing else is reported, and the order in which the hash table is gone through does not matter. -/
theorem C115_report {s : Sheet N V} (hs : Reachable s) {ord : List Nat} (ho : Enumerates s ord) (mark : Dict N V) (n : N) (v : V) :
    Dict.get (contributingOf s ord mark) n = some v ↔ ∃ k, Contributes s n k ∧ (s.cell k).state = v ∧
      (Dict.get mark n ≠ some v ∨ (s.priorityAccessed.testBit k = true ∧ ∃ n' k', Contributes s n' k' ∧ Dict.get mark n' = none)) := by
  unfold contributingOf
  rw [report_get hs (outputBits_half hs ord)]
  simp only [contributes_iff ho]

/-- C115.  Without a mark all the contributing cells are reported. -/
theorem C115_report_all {s : Sheet N V} (hs : Reachable s) {ord : List Nat} (ho : Enumerates s ord) (n : N) (v : V) :
    Dict.get (contributingOf s ord []) n = some v ↔ ∃ k, Contributes s n k ∧ (s.cell k).state = v := by
  rw [C115_report hs ho]
  constructor
  · rintro ⟨k, h1, h2, _⟩; exact ⟨k, h1, h2⟩
  · rintro ⟨k, h1, h2⟩; exact ⟨k, h1, h2, Or.inl (by simp [get_nil])⟩

/-- C115.  `contributing_to_cell` reports the contributors of one cell; it throws exactly when there is no such output cell. -/
theorem C115_report_to_cell {s : Sheet N V} (hs : Reachable s) (o : N) :
    (contributingToCell s o = none ↔ s.hasOutputCell o = false) ∧
    ∀ d, contributingToCell s o = some d → ∀ n v, Dict.get d n = some v ↔ ∃ k, ContributesTo s o n k ∧ (s.cell k).state = v := by
  unfold contributingToCell Sheet.hasOutputCell
  refine ⟨by simp, fun d hd n v => ?_⟩
  obtain ⟨i, hi, rfl⟩ := Option.map_eq_some_iff.mp hd
  rw [report_get hs (hs.bits.cell i)]
  constructor
  · rintro ⟨k, ⟨h1, h2⟩, h3, _⟩; exact ⟨k, ⟨h1, i, hi, h2⟩, h3⟩
  · rintro ⟨k, ⟨h1, j, hj, h2⟩, h3⟩
    rw [hi] at hj
    cases hj
    exact ⟨k, ⟨h1, h2⟩, h3, Or.inl (by simp [get_nil])⟩

/-- C115.  A mark which is updated with the report on it is up to date: it has the current value of every contributing cell. -/
theorem C115_mark_and_report {s : Sheet N V} (hs : Reachable s) {ord : List Nat} (ho : Enumerates s ord) (mark : Dict N V) {n : N} {k : Nat}
    (hk : Contributes s n k) : (Dict.get (contributingOf s ord mark) n).or (Dict.get mark n) = some (s.cell k).state := by
  cases hr : Dict.get (contributingOf s ord mark) n with
  | some v =>
      obtain ⟨k', h1, h2, _⟩ := (C115_report hs ho mark n v).mp hr
      have : k' = k := by have := h1.1; rw [hk.1] at this; exact (Option.some.inj this).symm
      rw [← h2, this]; rfl
  | none =>
      by_contra h
      have : Dict.get mark n ≠ some (s.cell k).state := by simpa using h
      have := (C115_report hs ho mark n (s.cell k).state).mpr ⟨k, hk, rfl, Or.inl this⟩
      rw [hr] at this; cases this

theorem Dict.eq_nil {d : Dict N V} (h : ∀ n, Dict.get d n = none) : d = [] := by
  cases d with
  | nil => rfl
  | cons e d =>
      have := h e.1
      unfold Dict.get at this
      rw [List.lookup_cons] at this
      simp at this

/-- C115.  Nothing is reported when and only when the mark is up to date. -/
theorem C115_nothing_new {s : Sheet N V} (hs : Reachable s) {ord : List Nat} (ho : Enumerates s ord) (mark : Dict N V) :
    contributingOf s ord mark = [] ↔ ∀ n k, Contributes s n k → Dict.get mark n = some (s.cell k).state := by
  constructor
  · intro h n k hk
    have := C115_mark_and_report hs ho mark hk
    rw [h] at this
    exact this
  · intro h
    refine Dict.eq_nil fun n => ?_
    cases hr : Dict.get (contributingOf s ord mark) n with
    | none => rfl
    | some v =>
        obtain ⟨k, h1, h2, h3⟩ := (C115_report hs ho mark n v).mp hr
        rcases h3 with h3 | ⟨_, n', k', g1, g2⟩
        · rw [h n k h1, h2] at h3; exact absurd rfl h3
        · rw [h n' k' g1] at g2; cases g2

/-- C115.  Reading twice: what was reported is not reported again. -/
theorem C115_report_twice {s : Sheet N V} (hs : Reachable s) {ord ord' : List Nat} (ho : Enumerates s ord) (ho' : Enumerates s ord') :
    contributingOf s ord' (contributingOf s ord []) = [] := by
  rw [C115_nothing_new hs ho']
  intro n k hk
  exact (C115_report_all hs ho n _).mpr ⟨k, hk, rfl⟩

/-- C115.  A contributing monitor is told something once in each update which returns.  What it is told about cells which changed since its mark, or
which are not in it, is what `monitor_contributing` would tell a new monitor after the update; so is everything if the same cells had
their priority accessed in this update and in the one before. -/
theorem C115_monitor_partial {s s' : Sheet N V} (hs : Reachable s) {srt : Sorter} {ord : List Nat} (ho : Enumerates s ord) {ev : List (Event N V)}
    (hu : update srt ord s = (.ok ev, s')) {o : N} {mark d d' : Dict N V} {m m' : ContribMonitor N V} (hm : monitorContributing s o mark = some (d, m))
    (hm' : monitorContributing s' o mark = some (d', m')) : ∃ r, m.heard srt ord s = [r] ∧
      (∀ n v, Dict.get mark n ≠ some v → (Dict.get r n = some v ↔ Dict.get d' n = some v)) ∧
      (s'.priorityAccessed = s.priorityAccessed → r = d') := by
  have hs' : Reachable s' := hs.update ho hu
  unfold monitorContributing at hm hm'
  obtain ⟨i, hi, he⟩ := Option.map_eq_some_iff.mp hm
  obtain ⟨i', hi', he'⟩ := Option.map_eq_some_iff.mp hm'
  have hio : s'.outputIndex = s.outputIndex := (C59_update_keeps_the_structure s srt ord hu).2.2.2.2.1
  rw [hio, hi] at hi'
  cases hi'
  cases he
  cases he'
  obtain ⟨t, pa, poison, h1, h2, h3, h4, h5, h6, h7⟩ := update_events ho.1 hu
  have hmem : i ∈ ord := (ho.2 i).mpr ⟨o, hi⟩
  have hT : contributingSet t mark (t.cell i).contributing = contributingSet { s' with priorityAccessed := s.priorityAccessed } mark (s'.cell i).contributing := by
    rw [(h6 i).2.2]
    exact contributingSet_congr (s := t) (t := { s' with priorityAccessed := s.priorityAccessed }) h5.symm
      (fun i => ⟨(h6 i).1.symm, (h6 i).2.1.symm⟩) h2 mark _
  have hd : Distinct s' (s'.cell i).contributing := distinct_of hs'.halves (hs'.bits.cell i)
  have hd' : Distinct { s' with priorityAccessed := s.priorityAccessed } (s'.cell i).contributing := hd
  have hinv : ∀ (c : Prop) [Decidable c] (j : Nat) (x : Bool), (if c then [] else [Event.invariant j x]).filterMap (ContribMonitor.told ⟨i, mark⟩ t) = [] := by
    intro c _ j x; split <;> rfl
  have hval : ∀ (c : Prop) [Decidable c] (j : Nat) (x : V), (if c then [Event.value j x] else []).filterMap (ContribMonitor.told ⟨i, mark⟩ t) = [] := by
    intro c _ j x; split <;> rfl
  refine ⟨contributingSet t mark (t.cell i).contributing, ?_, fun n v hv => ?_, fun hp => ?_⟩
  · unfold ContribMonitor.heard
    rw [hu, h1]
    dsimp only
    rw [h7, List.filterMap_append]
    rw [filterMap_flatMap_one (i := i) (y := contributingSet t mark (t.cell i).contributing) _ ho.1 hmem]
    · rfl
    · intro j hj
      rw [List.filterMap_append, List.filterMap_append, hinv, hval]
      simp [ContribMonitor.told, hj]
    · rw [List.filterMap_append, List.filterMap_append, hinv, hval]
      simp [ContribMonitor.told]
  · rw [hT, contributingSet_get hd', contributingSet_get hd]
    constructor
    · rintro ⟨k, g1, g2, g3, g4, _⟩; exact ⟨k, g1, g2, g3, g4, Or.inl hv⟩
    · rintro ⟨k, g1, g2, g3, g4, _⟩; exact ⟨k, g1, g2, g3, g4, Or.inl hv⟩
  · rw [hT, ← hp]

/-! ### C117: enabled cells -/

/-- The definition of "enabled" in adobe/adam.hpp:341-358, for the last update of the sheet. -/
def EnabledNow (s : Sheet N V) (n : N) (touch : List N) : Prop :=
  ∃ i, s.inputIndex.find n = some i ∧ (s.active.testBit i = true ∨ (s.valueAccessed.testBit i = true ∧
    ∃ x ∈ touch, ∃ k, s.inputIndex.find x = some k ∧ s.priorityAccessed.testBit k = true))

theorem single_testBit (i k : Nat) : (Bits.single i).testBit k = decide (i = k) := by unfold Bits.single; rw [Nat.testBit_two_pow]

theorem touchSet_bit {s : Sheet N V} : ∀ {l : List N} {t : Bits}, touchSet s l = some t → ∀ k, t.testBit k = true ↔ ∃ x ∈ l, s.inputIndex.find x = some k
  | [], t, h, k => by cases h; simp
  | n :: l, t, h, k => by
      unfold touchSet at h
      cases hi : s.inputIndex.find n with
      | none => rw [hi] at h; cases h
      | some i =>
          rw [hi] at h
          obtain ⟨t', ht', rfl⟩ := Option.map_eq_some_iff.mp h
          rw [Nat.testBit_or, Bool.or_eq_true, touchSet_bit ht' k, single_testBit]
          simp [hi]

theorem touchSet_none {s : Sheet N V} : ∀ {l : List N}, touchSet s l = none ↔ ∃ x ∈ l, s.inputIndex.find x = none
  | [] => by simp [touchSet]
  | n :: l => by
      unfold touchSet
      cases hi : s.inputIndex.find n with
      | none => simp [hi]
      | some i => simp [hi, touchSet_none (l := l)]

theorem and_ne_zero (a b : Nat) : a &&& b ≠ 0 ↔ ∃ k, a.testBit k = true ∧ b.testBit k = true := by
  rw [ne_eq, and_zero_iff]
  simp

theorem touch_any {s : Sheet N V} {l : List N} {t : Bits} (h : touchSet s l = some t) (b : Bits) :
    t &&& b ≠ 0 ↔ ∃ x ∈ l, ∃ k, s.inputIndex.find x = some k ∧ b.testBit k = true := by
  rw [and_ne_zero]
  constructor
  · rintro ⟨k, h1, h2⟩
    obtain ⟨x, g1, g2⟩ := (touchSet_bit h k).mp h1
    exact ⟨x, g1, k, g2, h2⟩
  · rintro ⟨x, g1, k, g2, h2⟩
    exact ⟨k, (touchSet_bit h k).mpr ⟨x, g1, g2⟩, h2⟩

/-- C117.  `monitor_enabled` throws exactly when one of the names is not that of an interface or input cell; otherwise it tells the monitor whether the
cell is enabled. -/
theorem C117_initial (s : Sheet N V) (n : N) (touch : List N) :
    (monitorEnabled s n touch = none ↔ ∃ x ∈ n :: touch, s.hasInput x = false) ∧
    ∀ b m, monitorEnabled s n touch = some (b, m) → (b = true ↔ EnabledNow s n touch) := by
  unfold monitorEnabled EnabledNow Sheet.hasInput
  cases hi : s.inputIndex.find n with
  | none => exact ⟨by simp [hi], fun b m h => by cases h⟩
  | some i =>
      dsimp only
      refine ⟨by simp [hi, touchSet_none], fun b m h => ?_⟩
      obtain ⟨t, ht, he⟩ := Option.map_eq_some_iff.mp h
      cases he
      simp only [Bool.or_eq_true, Bool.and_eq_true, decide_eq_true_eq, touch_any ht]
      constructor
      · intro h; exact ⟨i, rfl, h⟩
      · rintro ⟨j, hj, h⟩
        cases hj
        exact h

/-- What an enabled monitor is told by an update. -/
theorem enabled_heard {s s' : Sheet N V} {srt : Sorter} {ord : List Nat} (ho : Enumerates s ord) {ev : List (Event N V)}
    (hu : update srt ord s = (.ok ev, s')) (m : EnabledMonitor) : m.heard srt ord s =
      if (s'.priorityAccessed &&& m.touch) = (s.priorityAccessed &&& m.touch) ∧ s.active.testBit m.cell = s'.active.testBit m.cell then []
      else [s'.active.testBit m.cell || (s'.valueAccessed.testBit m.cell && decide (s'.priorityAccessed &&& m.touch ≠ 0))] := by
  obtain ⟨t, pa, poison, h1, h2, h3, h4, h5, h6, h7⟩ := update_events ho.1 hu
  unfold EnabledMonitor.heard
  rw [hu, h1]
  dsimp only
  rw [h7, List.filterMap_append, filterMap_flatMap_none]
  · have hx : ∀ a b : Nat, a ^^^ b = 0 ↔ a = b := by
      intro a b
      constructor
      · intro h
        apply Nat.eq_of_testBit_eq
        intro k
        have := congrArg (Nat.testBit · k) h
        simp only [Nat.testBit_xor, Nat.zero_testBit] at this
        cases ha : a.testBit k <;> cases hb : b.testBit k <;> simp_all
      · rintro rfl; exact Nat.xor_self a
    have he : m.told t (.enabled s'.priorityAccessed s'.active) =
        if (s'.priorityAccessed &&& m.touch) = (s.priorityAccessed &&& m.touch) ∧ s.active.testBit m.cell = s'.active.testBit m.cell then none
        else some (s'.active.testBit m.cell || (s'.valueAccessed.testBit m.cell && decide (s'.priorityAccessed &&& m.touch ≠ 0))) := by
      unfold EnabledMonitor.told
      simp only [h2, h3, ← h4, hx]
    rw [List.nil_append, List.filterMap_cons, he]
    split
    · rename_i h
      split at h
      · rw [if_pos ‹_›]; rfl
      · cases h
    · rename_i b h
      split at h
      · cases h
      · rw [if_neg ‹_›, ← Option.some.inj h]; rfl
  · intro j _
    split <;> split <;> simp [EnabledMonitor.told]

/-- C117.  In an update which returns the monitor is told at most once, and what it is told is right. -/
theorem C117_told_is_right {s s' : Sheet N V} {srt : Sorter} {ord : List Nat} (ho : Enumerates s ord) {ev : List (Event N V)}
    (hu : update srt ord s = (.ok ev, s')) {n : N} {touch : List N} {b : Bool} {m : EnabledMonitor} (hm : monitorEnabled s n touch = some (b, m)) :
    m.heard srt ord s = [] ∨ ∃ b', m.heard srt ord s = [b'] ∧ (b' = true ↔ EnabledNow s' n touch) := by
  have hii : s'.inputIndex = s.inputIndex := (C59_update_keeps_the_structure s srt ord hu).2.2.2.1
  rw [enabled_heard ho hu]
  split
  · exact Or.inl rfl
  · refine Or.inr ⟨_, rfl, ?_⟩
    unfold monitorEnabled at hm
    cases hi : s.inputIndex.find n with
    | none => rw [hi] at hm; cases hm
    | some i =>
        rw [hi] at hm
        obtain ⟨t, ht, he⟩ := Option.map_eq_some_iff.mp hm
        cases he
        unfold EnabledNow
        rw [hii]
        simp only [Bool.or_eq_true, Bool.and_eq_true, decide_eq_true_eq, Nat.and_comm s'.priorityAccessed, touch_any ht]
        constructor
        · intro h; exact ⟨i, hi, h⟩
        · rintro ⟨j, hj, h⟩
          rw [hi] at hj
          cases hj
          exact h

/-- C117.  If the monitor is told nothing, the cell is as enabled as before: provided that its value was accessed in this update if and only if it was in
the one before, or that no cell of the touch set had its priority accessed. -/
theorem C117_silence_partial {s s' : Sheet N V} {srt : Sorter} {ord : List Nat} (ho : Enumerates s ord) {ev : List (Event N V)}
    (hu : update srt ord s = (.ok ev, s')) {n : N} {touch : List N} {b : Bool} {m : EnabledMonitor} (hm : monitorEnabled s n touch = some (b, m))
    (hh : m.heard srt ord s = [])
    (hv : (∀ i, s.inputIndex.find n = some i → s'.valueAccessed.testBit i = s.valueAccessed.testBit i) ∨
      ∀ x ∈ touch, ∀ k, s.inputIndex.find x = some k → s.priorityAccessed.testBit k = false) : EnabledNow s' n touch ↔ EnabledNow s n touch := by
  have hii : s'.inputIndex = s.inputIndex := (C59_update_keeps_the_structure s srt ord hu).2.2.2.1
  rw [enabled_heard ho hu] at hh
  split at hh
  · rename_i hc
    unfold monitorEnabled at hm
    cases hi : s.inputIndex.find n with
    | none => rw [hi] at hm; cases hm
    | some i =>
        rw [hi] at hm
        obtain ⟨t, ht, he⟩ := Option.map_eq_some_iff.mp hm
        cases he
        dsimp only at hc
        have h1 := touch_any ht s.priorityAccessed
        have h2 := touch_any ht s'.priorityAccessed
        rw [Nat.and_comm t] at h1 h2
        rw [hc.1, h1] at h2
        unfold EnabledNow
        rw [hii]
        refine exists_congr fun j => and_congr_right fun hj => ?_
        rw [hi] at hj
        cases hj
        rw [← h2, hc.2]
        refine or_congr_right ?_
        rcases hv with hv | hv
        · rw [hv i hi]
        · have : ¬ ∃ x ∈ touch, ∃ k, s.inputIndex.find x = some k ∧ s.priorityAccessed.testBit k = true := by
            rintro ⟨x, g1, k, g2, g3⟩
            rw [hv x g1 k g2] at g3; cases g3
          simp [this]
  · cases hh

end Verif.Adam
