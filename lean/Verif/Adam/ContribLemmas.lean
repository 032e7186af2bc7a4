import Verif.Adam.Mid
import Mathlib.Data.List.Induction
/-! What a report contains. -/
namespace Verif.Adam
variable {N V : Type} [DecidableEq N] [DecidableEq V] [Values V]

theorem Dict.get_insert (d : Dict N V) (n : N) (v : V) (h : ∀ w, Dict.get d n = some w → w = v) (m : N) :
    Dict.get (Dict.insert d n v) m = if m = n then some v else Dict.get d m := by
  unfold Dict.insert
  split
  · rename_i hs
    obtain ⟨w, hw⟩ := Option.isSome_iff_exists.mp hs
    split
    · rename_i hm
      rw [hm, hw, h w hw]
    · rfl
  · rename_i hs
    have hnone : Dict.get d n = none := by simpa using hs
    unfold Dict.get at hnone ⊢
    rw [List.lookup_append]
    split
    · rename_i hm
      rw [hm, hnone]
      simp
    · rename_i hm
      have : (List.lookup m [(n, v)]) = none := by
        rw [List.lookup_cons]
        have : (m == n) = false := by simpa using hm
        rw [this]
        rfl
      rw [this]
      simp

/-- The cells whose bit is set have different names. -/
def Distinct (s : Sheet N V) (b : Bits) : Prop :=
  ∀ i j, i < s.size → j < s.size → b.testBit i = true → b.testBit j = true → (s.cell i).name = (s.cell j).name → i = j

/-- After the cells of `l` have been gone through. -/
structure Scanned (s : Sheet N V) (mark : Dict N V) (b : Bits) (l : List Nat) (a : Scan N V) : Prop where
  changed : ∀ n v, Dict.get a.changed n = some v ↔ ∃ i ∈ l, b.testBit i = true ∧ (s.cell i).name = n ∧ (s.cell i).state = v ∧ Dict.get mark n ≠ some v
  touched : ∀ n v, Dict.get a.touched n = some v ↔ ∃ i ∈ l, b.testBit i = true ∧ (s.cell i).name = n ∧ (s.cell i).state = v ∧ Dict.get mark n = some v ∧
    s.priorityAccessed.testBit i = true
  incl : a.includeTouched = true ↔ ∃ i ∈ l, b.testBit i = true ∧ Dict.get mark (s.cell i).name = none

theorem get_nil (n : N) : Dict.get ([] : Dict N V) n = none := rfl

theorem scan_ok {s : Sheet N V} {mark : Dict N V} {b : Bits} (hd : Distinct s b) (l : List Nat) (hl : ∀ i ∈ l, i < s.size) :
    Scanned s mark b l (l.foldl (scanCell s mark b) ⟨[], [], false⟩) := by
  induction l using List.reverseRecOn with
  | nil => exact ⟨by simp [get_nil], by simp [get_nil], by simp⟩
  | append_singleton l i ih =>
      have ih := ih fun j hj => hl j (by simp [hj])
      have hi : i < s.size := hl i (by simp)
      rw [List.foldl_append]
      simp only [List.foldl_cons, List.foldl_nil]
      generalize hA : l.foldl (scanCell s mark b) ⟨[], [], false⟩ = a at ih
      have hlast : ∀ P : Nat → Prop, (∃ j ∈ l ++ [i], P j) ↔ (∃ j ∈ l, P j) ∨ P i := by
        intro P
        constructor
        · rintro ⟨j, hj, h⟩
          rcases List.mem_append.mp hj with hj | hj
          · exact Or.inl ⟨j, hj, h⟩
          · rw [List.mem_singleton.mp hj] at h; exact Or.inr h
        · rintro (⟨j, hj, h⟩ | h)
          · exact ⟨j, by simp [hj], h⟩
          · exact ⟨i, by simp, h⟩
      have same : ∀ j ∈ l, b.testBit i = true → b.testBit j = true → (s.cell j).name = (s.cell i).name → (s.cell j).state = (s.cell i).state := by
        intro j hj h1 h2 h3
        rw [hd j i (hl j (by simp [hj])) hi h2 h1 h3]
      by_cases hb : b.testBit i = true
      · cases hm : Dict.get mark (s.cell i).name with
        | none =>
            have he : scanCell s mark b a i = { a with includeTouched := true, changed := Dict.insert a.changed (s.cell i).name (s.cell i).state } := by
              simp [scanCell, hb, hm]
            rw [he]
            refine ⟨fun n v => ?_, fun n v => ?_, ?_⟩
            · dsimp only
              rw [Dict.get_insert _ _ _ (fun w hw => ?_), hlast]
              · split
                · rename_i hn
                  constructor
                  · rintro ⟨rfl⟩; exact Or.inr ⟨hb, hn.symm, rfl, by rw [hn, hm]; simp⟩
                  · rintro (⟨j, hj, g1, g2, g3, g4⟩ | ⟨g1, g2, g3, g4⟩)
                    · rw [← g3, same j hj hb g1 (by rw [g2, hn])]
                    · rw [g3]
                · rename_i hn
                  rw [ih.changed]
                  constructor
                  · exact Or.inl
                  · rintro (h | ⟨_, g2, _⟩)
                    · exact h
                    · exact absurd g2.symm hn
              · obtain ⟨j, hj, g1, g2, g3, g4⟩ := (ih.changed _ _).mp hw
                rw [← g3, same j hj hb g1 g2]
            · dsimp only
              rw [ih.touched, hlast]
              constructor
              · exact Or.inl
              · rintro (h | ⟨_, g2, _, g4, _⟩)
                · exact h
                · rw [← g2, hm] at g4; cases g4
            · dsimp only
              rw [hlast]
              simp [hb, hm]
        | some w =>
            by_cases hw : w = (s.cell i).state
            · by_cases hp : s.priorityAccessed.testBit i = true
              · have he : scanCell s mark b a i = { a with touched := Dict.insert a.touched (s.cell i).name (s.cell i).state } := by
                  simp [scanCell, hb, hm, hw, hp]
                rw [he]
                refine ⟨fun n v => ?_, fun n v => ?_, ?_⟩
                · dsimp only
                  rw [ih.changed, hlast]
                  constructor
                  · exact Or.inl
                  · rintro (h | ⟨_, g2, g3, g4⟩)
                    · exact h
                    · rw [← g2, hm, hw, g3] at g4; exact absurd rfl g4
                · dsimp only
                  rw [Dict.get_insert _ _ _ (fun w hw => ?_), hlast]
                  · split
                    · rename_i hn
                      constructor
                      · rintro ⟨rfl⟩; exact Or.inr ⟨hb, hn.symm, rfl, by rw [hn, hm, hw], hp⟩
                      · rintro (⟨j, hj, g1, g2, g3, g4⟩ | ⟨g1, g2, g3, g4⟩)
                        · rw [← g3, same j hj hb g1 (by rw [g2, hn])]
                        · rw [g3]
                    · rename_i hn
                      rw [ih.touched]
                      constructor
                      · exact Or.inl
                      · rintro (h | ⟨_, g2, _⟩)
                        · exact h
                        · exact absurd g2.symm hn
                  · obtain ⟨j, hj, g1, g2, g3, g4⟩ := (ih.touched _ _).mp hw
                    rw [← g3, same j hj hb g1 g2]
                · dsimp only
                  rw [ih.incl, hlast]
                  simp [hm]
              · have he : scanCell s mark b a i = a := by simp [scanCell, hb, hm, hw, hp]
                rw [he]
                refine ⟨fun n v => ?_, fun n v => ?_, ?_⟩
                · rw [ih.changed, hlast]
                  constructor
                  · exact Or.inl
                  · rintro (h | ⟨_, g2, g3, g4⟩)
                    · exact h
                    · rw [← g2, hm, hw, g3] at g4; exact absurd rfl g4
                · rw [ih.touched, hlast]
                  simp [hp]
                · rw [ih.incl, hlast]
                  simp [hm]
            · have he : scanCell s mark b a i = { a with changed := Dict.insert a.changed (s.cell i).name (s.cell i).state } := by
                simp [scanCell, hb, hm, hw]
              rw [he]
              refine ⟨fun n v => ?_, fun n v => ?_, ?_⟩
              · dsimp only
                rw [Dict.get_insert _ _ _ (fun w hw => ?_), hlast]
                · split
                  · rename_i hn
                    constructor
                    · rintro ⟨rfl⟩; exact Or.inr ⟨hb, hn.symm, rfl, by rw [hn, hm]; simp [hw]⟩
                    · rintro (⟨j, hj, g1, g2, g3, g4⟩ | ⟨g1, g2, g3, g4⟩)
                      · rw [← g3, same j hj hb g1 (by rw [g2, hn])]
                      · rw [g3]
                  · rename_i hn
                    rw [ih.changed]
                    constructor
                    · exact Or.inl
                    · rintro (h | ⟨_, g2, _⟩)
                      · exact h
                      · exact absurd g2.symm hn
                · obtain ⟨j, hj, g1, g2, g3, g4⟩ := (ih.changed _ _).mp hw
                  rw [← g3, same j hj hb g1 g2]
              · dsimp only
                rw [ih.touched, hlast]
                constructor
                · exact Or.inl
                · rintro (h | ⟨_, g2, g3, g4, _⟩)
                  · exact h
                  · rw [← g2, hm] at g4; cases g4; exact absurd g3.symm hw
              · dsimp only
                rw [ih.incl, hlast]
                simp [hm]
      · have he : scanCell s mark b a i = a := by simp [scanCell, hb]
        rw [he]
        exact ⟨fun n v => by rw [ih.changed, hlast]; simp [hb], fun n v => by rw [ih.touched, hlast]; simp [hb], by rw [ih.incl, hlast]; simp [hb]⟩

/-- A dictionary into which the elements of another one are inserted. -/
theorem get_foldl_insert (l : Dict N V) : ∀ (d : Dict N V) (m : N),
    Dict.get (l.foldl (fun d e => Dict.insert d e.1 e.2) d) m = (Dict.get d m).or (Dict.get l m) := by
  induction l with
  | nil => intro d m; simp [Dict.get]
  | cons e l ih =>
      intro d m
      obtain ⟨n, v⟩ := e
      rw [List.foldl_cons, ih]
      have hins : Dict.get (Dict.insert d n v) m = (Dict.get d m).or (if m = n then some v else none) := by
        unfold Dict.insert
        split
        · rename_i hs
          split
          · rename_i hm
            rw [hm]
            obtain ⟨w, hw⟩ := Option.isSome_iff_exists.mp hs
            rw [hw]; rfl
          · simp
        · unfold Dict.get
          rw [List.lookup_append]
          congr 1
          rw [List.lookup_cons]
          by_cases hm : m = n
          · simp [hm]
          · have : (m == n) = false := by simpa using hm
            rw [this, if_neg hm]; rfl
      dsimp only
      rw [hins, Option.or_assoc]
      congr 1
      unfold Dict.get
      rw [List.lookup_cons]
      by_cases hm : m = n
      · simp [hm]
      · have : (m == n) = false := by simpa using hm
        rw [this, if_neg hm]; rfl

/-- The report, for cells with different names. -/
theorem contributingSet_get {s : Sheet N V} {mark : Dict N V} {b : Bits} (hd : Distinct s b) (n : N) (v : V) :
    Dict.get (contributingSet s mark b) n = some v ↔ ∃ i, i < s.size ∧ b.testBit i = true ∧ (s.cell i).name = n ∧ (s.cell i).state = v ∧
      (Dict.get mark n ≠ some v ∨ (s.priorityAccessed.testBit i = true ∧ ∃ j, j < s.size ∧ b.testBit j = true ∧ Dict.get mark (s.cell j).name = none)) := by
  have h := scan_ok (mark := mark) hd (List.range s.size) (fun i hi => List.mem_range.mp hi)
  have hmem : ∀ P : Nat → Prop, (∃ i ∈ List.range s.size, P i) ↔ ∃ i, i < s.size ∧ P i := by
    intro P; simp [List.mem_range]
  have h1 := h.changed
  have h2 := h.touched
  have h3 := h.incl
  simp only [hmem] at h1 h2 h3
  unfold contributingSet
  dsimp only
  generalize (List.range s.size).foldl (scanCell s mark b) ⟨[], [], false⟩ = a at h1 h2 h3
  split
  · rename_i hinc
    rw [get_foldl_insert, Option.or_eq_some_iff, h1, h2]
    constructor
    · rintro (⟨i, g1, g2, g3, g4, g5⟩ | ⟨_, i, g1, g2, g3, g4, g5, g6⟩)
      · exact ⟨i, g1, g2, g3, g4, Or.inl g5⟩
      · exact ⟨i, g1, g2, g3, g4, Or.inr ⟨g6, h3.mp hinc⟩⟩
    · rintro ⟨i, g1, g2, g3, g4, g5⟩
      by_cases hm : Dict.get mark n = some v
      · right
        rcases g5 with g5 | ⟨g5, -⟩
        · exact absurd hm g5
        · refine ⟨?_, i, g1, g2, g3, g4, hm, g5⟩
          cases hc : Dict.get a.changed n with
          | none => rfl
          | some w =>
              obtain ⟨j, k1, k2, k3, k4, k5⟩ := (h1 n w).mp hc
              have := hd j i k1 g1 k2 g2 (by rw [k3, g3])
              rw [this, g4] at k4
              rw [k4] at hm
              exact absurd hm k5
      · exact Or.inl ⟨i, g1, g2, g3, g4, hm⟩
  · rename_i hinc
    rw [h1]
    constructor
    · rintro ⟨i, g1, g2, g3, g4, g5⟩
      exact ⟨i, g1, g2, g3, g4, Or.inl g5⟩
    · rintro ⟨i, g1, g2, g3, g4, g5 | ⟨-, g6⟩⟩
      · exact ⟨i, g1, g2, g3, g4, g5⟩
      · exact absurd (h3.mpr g6) hinc

theorem distinct_of {s : Sheet N V} (hh : HalvesOk s) {b : Bits} (hb : ∀ k, b.testBit k = true → Half s k) : Distinct s b := by
  intro i j hi hj h1 h2 he
  have a := hh i (hb i h1)
  have c := hh j (hb j h2)
  rw [he, c] at a
  exact (Option.some.inj a).symm

/-- The bits that `contributing` gathers. -/
theorem outputBits_bit (s : Sheet N V) (ord : List Nat) (k : Nat) : (outputBits s ord).testBit k = true ↔
    ∃ i ∈ ord, ((s.cell i).spec = .output ∨ (s.hasOutput = false ∧ (s.cell i).spec = .interfaceOutput)) ∧ (s.cell i).contributing.testBit k = true := by
  unfold outputBits
  induction ord using List.reverseRecOn with
  | nil => simp
  | append_singleton l i ih =>
      rw [List.foldl_append]
      simp only [List.foldl_cons, List.foldl_nil, List.mem_append, List.mem_singleton]
      split
      · rename_i hc
        rw [Nat.testBit_or, Bool.or_eq_true, ih]
        constructor
        · rintro (⟨j, hj, h⟩ | h)
          · exact ⟨j, Or.inl hj, h⟩
          · exact ⟨i, Or.inr rfl, hc, h⟩
        · rintro ⟨j, hj | rfl, h⟩
          · exact Or.inl ⟨j, hj, h⟩
          · exact Or.inr h.2
      · rename_i hc
        rw [ih]
        constructor
        · rintro ⟨j, hj, h⟩
          exact ⟨j, Or.inl hj, h⟩
        · rintro ⟨j, hj | rfl, h⟩
          · exact ⟨j, hj, h⟩
          · exact absurd h.1 hc

/-- A report reads names, values and the cells whose priority was accessed. -/
theorem contributingSet_congr {s t : Sheet N V} (h1 : s.size = t.size) (h2 : ∀ i, (s.cell i).name = (t.cell i).name ∧ (s.cell i).state = (t.cell i).state)
    (h3 : s.priorityAccessed = t.priorityAccessed) (mark : Dict N V) (b : Bits) : contributingSet s mark b = contributingSet t mark b := by
  have : scanCell s mark b = scanCell t mark b := by
    funext a i
    unfold scanCell
    dsimp only
    rw [(h2 i).1, (h2 i).2, h3]
  unfold contributingSet
  rw [h1, this]

/-! ### What an update tells -/

theorem update_events {s s' : Sheet N V} {srt : Sorter} {ord : List Nat} {ev : List (Event N V)} (hnd : ord.Nodup)
    (h : update srt ord s = (.ok ev, s')) : ∃ t pa poison, updateMid srt ord s = (.ok (pa, poison), t) ∧
      t.priorityAccessed = s.priorityAccessed ∧ t.active = s.active ∧ s'.valueAccessed = t.valueAccessed ∧ s'.size = t.size ∧
      (∀ i, (s'.cell i).name = (t.cell i).name ∧ (s'.cell i).state = (t.cell i).state ∧ (s'.cell i).contributing = (t.cell i).contributing) ∧
      ev = ord.flatMap (fun i => (if (s'.cell i).invariant = (t.cell i).invariant then [] else [.invariant i (s'.cell i).invariant]) ++
        (if (t.cell i).dirty then [.value i (t.cell i).state] else []) ++ [.contributing i (t.cell i).contributing]) ++
        [.enabled s'.priorityAccessed s'.active] := by
  rw [update_mid] at h
  cases hm : updateMid srt ord s with
  | mk r t =>
      have hsh := updateMid_shown (P := s.priorityAccessed) (A := s.active) srt ord s ⟨rfl, rfl⟩
      rw [hm] at hsh
      cases r with
      | error e => rw [bind_err hm] at h; cases h
      | ok x =>
          obtain ⟨pa, poison⟩ := x
          rw [bind_ok hm] at h
          dsimp only at h
          obtain ⟨ev', a', s1, h1, h2, h3, h4⟩ := notify_ok poison ord pa t hnd
          rw [bind_ok h1] at h
          simp only [bind_modify] at h
          have e1 := (Prod.mk.inj h).1
          have e2 := (Prod.mk.inj h).2
          have e1 : ev' ++ [Event.enabled pa a'] = ev := Except.ok.inj e1
          refine ⟨t, pa, poison, rfl, hsh.1, hsh.2, ?_, ?_, ?_, ?_⟩
          · rw [← e2, h2]
          · rw [← e2, h2]
          · intro i
            rw [← e2, h2]
            exact ⟨rfl, rfl, rfl⟩
          · rw [← e1, h3, ← e2]

theorem filterMap_flatMap_one {α β : Type} (f : α → Option β) {g : Nat → List α} {i : Nat} {y : β} : ∀ {l : List Nat}, l.Nodup → i ∈ l →
    (∀ j, j ≠ i → (g j).filterMap f = []) → (g i).filterMap f = [y] → (l.flatMap g).filterMap f = [y]
  | [], _, hi, _, _ => by cases hi
  | j :: l, hnd, hi, h1, h2 => by
      obtain ⟨a, b⟩ := List.nodup_cons.mp hnd
      rw [List.flatMap_cons, List.filterMap_append]
      have hnone : ∀ m : List Nat, i ∉ m → (m.flatMap g).filterMap f = [] := by
        intro m
        induction m with
        | nil => intro _; rfl
        | cons k m ih =>
            intro hm
            rw [List.flatMap_cons, List.filterMap_append, h1 k (fun e => hm (by simp [e])), ih fun hh => hm (by simp [hh])]
            rfl
      by_cases hji : j = i
      · rw [hji, h2, hnone l (by rw [← hji]; exact a)]
        rfl
      · rw [h1 j hji, filterMap_flatMap_one f b (by simpa [Ne.symm hji] using hi) h1 h2]
        rfl

theorem filterMap_flatMap_none {α β : Type} (f : α → Option β) {g : Nat → List α} : ∀ {l : List Nat},
    (∀ j ∈ l, (g j).filterMap f = []) → (l.flatMap g).filterMap f = []
  | [], _ => rfl
  | j :: l, h => by
      rw [List.flatMap_cons, List.filterMap_append, h j (by simp), filterMap_flatMap_none f fun k hk => h k (by simp [hk])]
      rfl

end Verif.Adam
