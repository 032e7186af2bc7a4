import Verif.ExtModel.Spec
/-!
C113: an external model.
-/
namespace Verif.ExtModel
open Spec

structure Inv (s : St) (h : List Op) : Prop where
  next : s.next = made h
  known : ∀ n, s.find n ≠ none ↔ Known h n
  cell : ∀ n i, s.find n = some i → ∃ c, s.cells[i]? = some c ∧
    c.monitors = ((connected h).filter (·.2.1 = n)).map (fun x => (x.1, x.2.2)) ∧ c.model = modelOf h n
  inj : ∀ n n' i, s.find n = some i → s.find n' = some i → n = n'
  unknown : ∀ x ∈ connected h, Known h x.2.1
  noModel : ∀ n, ¬ Known h n → modelOf h n = none

theorem inv_new : Inv St.new [] := by
  constructor
  · rfl
  · intro n; simp [St.new, St.find, Known]
  · intro n i h; simp [St.new, St.find] at h
  · intro n n' i h; simp [St.new, St.find] at h
  · intro x hx; simp [connected] at hx
  · intro n _; rfl

theorem lookup_append (l : List (Name × Nat)) (n m : Name) (k : Nat) :
    (l ++ [(n, k)]).lookup m = (l.lookup m).or (if m = n then some k else none) := by
  induction l with
  | nil => simp [List.lookup]; split <;> simp_all
  | cons a l ih =>
    obtain ⟨x, y⟩ := a
    simp only [List.cons_append, List.lookup_cons]
    cases hx : m == x with
    | true => simp
    | false => simpa using ih

section
variable {s : St} {h : List Op}

theorem known_cons {o : Op} {n : Name} (ho : ∀ m, o ≠ .addCell m) : Known (o :: h) n ↔ Known h n := by
  unfold Known
  rw [List.mem_cons]
  constructor
  · rintro (e | e)
    · exact absurd e.symm (ho n)
    · exact e
  · exact Or.inr

/-- Calls that change nothing. -/
theorem inv_same {o : Op} (hi : Inv s h) (ho : ∀ m, o ≠ .addCell m) (hm : made (o :: h) = made h) (hc : connected (o :: h) = connected h)
    (hd : ∀ n, modelOf (o :: h) n = modelOf h n) : Inv s (o :: h) := by
  constructor
  · rw [hm]; exact hi.next
  · intro n; rw [known_cons ho]; exact hi.known n
  · intro n i e; rw [hc, hd]; exact hi.cell n i e
  · exact hi.inj
  · intro x hx; rw [known_cons ho]; rw [hc] at hx; exact hi.unknown x hx
  · intro n hn; rw [known_cons ho] at hn; rw [hd]; exact hi.noModel n hn

theorem withCell_known (hi : Inv s h) {n : Name} (hk : Known h n) (k : Nat → Cell → St × Out) :
    ∃ i c, s.find n = some i ∧ s.cells[i]? = some c ∧ s.withCell n k = k i c ∧
      c.monitors = ((connected h).filter (·.2.1 = n)).map (fun x => (x.1, x.2.2)) ∧ c.model = modelOf h n := by
  cases e : s.find n with
  | none => exact absurd e ((hi.known n).2 hk)
  | some i =>
    obtain ⟨c, h1, h2, h3⟩ := hi.cell n i e
    exact ⟨i, c, rfl, h1, by simp [St.withCell, e, h1], h2, h3⟩

theorem withCell_unknown (hi : Inv s h) {n : Name} (hk : ¬ Known h n) (k : Nat → Cell → St × Out) : s.withCell n k = (s, .logicError) := by
  cases e : s.find n with
  | none => simp [St.withCell, e]
  | some i => exact absurd ((hi.known n).1 (by simp [e])) hk

theorem step_ok (hi : Inv s h) (o : Op) : Inv (step s o).1 (o :: h) ∧ Sees h o (step s o).2 := by
  classical
  cases o with
  | addCell n =>
    have hf : ∀ m, St.find { s with cells := s.cells ++ [Cell.mk [] none] } m = s.find m := fun _ => rfl
    have hknown : ∀ m, Known (.addCell n :: h) m ↔ m = n ∨ Known h m := by
      intro m; unfold Known; rw [List.mem_cons]; simp
    have hlt : ∀ m i, s.find m = some i → i < s.cells.length := by
      intro m i e
      obtain ⟨c, hc, _⟩ := hi.cell m i e
      exact (List.getElem?_eq_some_iff.1 hc).1
    simp only [step, hf]
    cases e : s.find n with
    | none =>
      have hnk : ¬ Known h n := fun hk => (hi.known n).2 hk e
      have hf' : ∀ m, St.find ⟨s.index ++ [(n, (s.cells ++ [Cell.mk [] none]).length - 1)], s.cells ++ [Cell.mk [] none], s.next⟩ m =
          (s.find m).or (if m = n then some s.cells.length else none) := by
        intro m; unfold St.find; rw [lookup_append]; simp
      refine ⟨⟨hi.next, ?_, ?_, ?_, ?_, ?_⟩, rfl⟩
      · intro m
        rw [hf' m, hknown, ← hi.known m]
        by_cases hm : m = n
        · simp [hm, e]
        · simp [hm]
      · intro m i hm
        simp only [hf' m] at hm
        cases e' : s.find m with
        | some j =>
          rw [e'] at hm
          cases hm
          obtain ⟨c, h1, h2, h3⟩ := hi.cell m _ e'
          refine ⟨c, ?_, h2, h3⟩
          show (s.cells ++ _)[_]? = _
          rw [List.getElem?_append_left (hlt _ _ e')]
          exact h1
        | none =>
          rw [e'] at hm
          by_cases hmn : m = n
          · subst hmn
            simp at hm
            subst hm
            refine ⟨Cell.mk [] none, by simp, ?_, ?_⟩
            · symm
              rw [List.map_eq_nil_iff, List.filter_eq_nil_iff]
              intro x hx
              have := hi.unknown x hx
              simp only [decide_eq_true_eq]
              intro ex; rw [ex] at this; exact hnk this
            · exact (hi.noModel _ hnk).symm
          · simp [hmn] at hm
      · intro m m' i h1 h2
        simp only [hf'] at h1 h2
        cases e1 : s.find m with
        | some j =>
          rw [e1] at h1; cases h1
          have := hlt _ _ e1
          cases e2 : s.find m' with
          | some j' => rw [e2] at h2; cases h2; exact hi.inj _ _ _ e1 e2
          | none =>
            rw [e2] at h2
            by_cases hmn : m' = n
            · simp [hmn] at h2; omega
            · simp [hmn] at h2
        | none =>
          rw [e1] at h1
          by_cases hmn : m = n
          · simp [hmn] at h1
            cases e2 : s.find m' with
            | some j' => rw [e2] at h2; cases h2; have := hlt _ _ e2; omega
            | none =>
              rw [e2] at h2
              by_cases hmn' : m' = n
              · rw [hmn, hmn']
              · simp [hmn'] at h2
          · simp [hmn] at h1
      · intro x hx; rw [hknown]; exact Or.inr (hi.unknown x hx)
      · intro m hm
        rw [hknown] at hm
        exact hi.noModel m (fun hk => hm (Or.inr hk))
    | some i0 =>
      have hk : Known h n := (hi.known n).1 (by simp [e])
      refine ⟨⟨hi.next, ?_, ?_, hi.inj, ?_, ?_⟩, rfl⟩
      · intro m
        show s.find m ≠ none ↔ _
        rw [hknown, hi.known m]
        constructor
        · exact Or.inr
        · rintro (rfl | h); exact hk; exact h
      · intro m i hm
        obtain ⟨c, h1, h2, h3⟩ := hi.cell m i hm
        refine ⟨c, ?_, h2, h3⟩
        show (s.cells ++ _)[_]? = _
        rw [List.getElem?_append_left (hlt _ _ hm)]
        exact h1
      · intro x hx; rw [hknown]; exact Or.inr (hi.unknown x hx)
      · intro m hm
        rw [hknown] at hm
        exact hi.noModel m (fun hk => hm (Or.inr hk))
  | count n =>
    refine ⟨inv_same hi (by simp) rfl rfl (fun _ => rfl), ?_⟩
    simp only [step, Sees]
    cases e : s.find n with
    | none => exact Or.inr ⟨fun hk => (hi.known n).2 hk e, rfl⟩
    | some i => exact Or.inl ⟨(hi.known n).1 (by simp [e]), rfl⟩
  | monitor n m =>
    by_cases hk : Known h n
    · obtain ⟨i, c, h1, h2, h3, h4, h5⟩ := withCell_known hi hk fun i c =>
        ({ s with cells := s.cells.set i { c with monitors := c.monitors ++ [(s.next, m)] }, next := s.next + 1 }, .conn s.next)
      have hlt := (List.getElem?_eq_some_iff.1 h2).1
      have hconn : connected (.monitor n m :: h) = connected h ++ [(made h, n, m)] := by simp [connected, hk]
      simp only [step]
      rw [h3]
      refine ⟨⟨?_, ?_, ?_, hi.inj, ?_, ?_⟩, ?_⟩
      · show s.next + 1 = _
        simp [made, hk, hi.next]
      · intro m'; rw [known_cons (by simp)]; exact hi.known m'
      · intro n' i' e'
        have e' : s.find n' = some i' := e'
        rw [hconn]
        obtain ⟨c', g1, g2, g3⟩ := hi.cell n' i' e'
        by_cases hn : n' = n
        · subst hn
          rw [e'] at h1; cases h1
          refine ⟨{ c with monitors := c.monitors ++ [(s.next, m)] }, ?_, ?_, h5⟩
          · show (s.cells.set _ _)[_]? = _
            rw [List.getElem?_set_self hlt]
          · rw [h4, List.filter_append, List.map_append, hi.next]; simp
        · have hne : i ≠ i' := by
            intro ei; subst ei; exact hn (hi.inj _ _ _ e' h1)
          refine ⟨c', ?_, ?_, g3⟩
          · show (s.cells.set _ _)[_]? = _
            rw [List.getElem?_set_ne hne]; exact g1
          · rw [g2, List.filter_append, List.map_append]
            have : ¬ n = n' := fun e => hn e.symm
            simp [this]
      · intro x hx
        rw [known_cons (by simp)]
        rw [hconn] at hx
        rcases List.mem_append.1 hx with hx | hx
        · exact hi.unknown x hx
        · simp at hx; subst hx; exact hk
      · intro m' hm; rw [known_cons (by simp)] at hm; exact hi.noModel m' hm
      · exact Or.inl ⟨hk, by rw [hi.next]⟩
    · simp only [step]
      rw [withCell_unknown hi hk]
      exact ⟨inv_same hi (by simp) (by simp [made, hk]) (by simp [connected, hk]) (fun _ => rfl), Or.inr ⟨hk, rfl⟩⟩
  | set n v =>
    have hinv : Inv s (.set n v :: h) := inv_same hi (by simp) rfl rfl (fun _ => rfl)
    by_cases hk : Known h n
    · obtain ⟨i, c, h1, h2, h3, h4, h5⟩ := withCell_known hi hk fun _ _ => (s, .done)
      simp only [step, St.withCell, h1, h2]
      cases e : c.model with
      | none => exact ⟨hinv, Or.inl ⟨hk, Or.inr ⟨by rw [← h5, e], rfl⟩⟩⟩
      | some m => exact ⟨hinv, Or.inl ⟨hk, Or.inl ⟨m, by rw [← h5, e], rfl⟩⟩⟩
    · simp only [step]
      rw [withCell_unknown hi hk]
      exact ⟨hinv, Or.inr ⟨hk, rfl⟩⟩
  | modelMonitor n m =>
    by_cases hk : Known h n
    · obtain ⟨i, c, h1, h2, h3, h4, h5⟩ := withCell_known hi hk fun i c =>
        ({ s with cells := s.cells.set i { c with model := m } }, .done)
      have hlt := (List.getElem?_eq_some_iff.1 h2).1
      simp only [step]
      rw [h3]
      refine ⟨⟨hi.next, ?_, ?_, hi.inj, ?_, ?_⟩, Or.inl ⟨hk, rfl⟩⟩
      · intro m'; rw [known_cons (by simp)]; exact hi.known m'
      · intro n' i' e'
        have e' : s.find n' = some i' := e'
        obtain ⟨c', g1, g2, g3⟩ := hi.cell n' i' e'
        by_cases hn : n' = n
        · subst hn
          rw [e'] at h1; cases h1
          refine ⟨{ c with model := m }, ?_, h4, by simp [modelOf, hk]⟩
          show (s.cells.set _ _)[_]? = _
          rw [List.getElem?_set_self hlt]
        · have hne : i ≠ i' := by
            intro ei; subst ei; exact hn (hi.inj _ _ _ e' h1)
          have hn' : ¬ n = n' := fun e => hn e.symm
          refine ⟨c', ?_, g2, by rw [g3]; simp [modelOf, hn']⟩
          show (s.cells.set _ _)[_]? = _
          rw [List.getElem?_set_ne hne]; exact g1
      · intro x hx; rw [known_cons (by simp)]; exact hi.unknown x hx
      · intro m' hm
        rw [known_cons (by simp)] at hm
        simp [modelOf, hm, hi.noModel m' hm]
    · simp only [step]
      rw [withCell_unknown hi hk]
      refine ⟨inv_same hi (by simp) rfl rfl (fun n' => ?_), Or.inr ⟨hk, rfl⟩⟩
      simp only [modelOf]
      split
      · rename_i hh
        obtain ⟨rfl, hh⟩ := hh
        exact absurd hh hk
      · rfl
  | modelSet n v =>
    have hinv : Inv s (.modelSet n v :: h) := inv_same hi (by simp) rfl rfl (fun _ => rfl)
    by_cases hk : Known h n
    · obtain ⟨i, c, h1, h2, h3, h4, h5⟩ := withCell_known hi hk fun _ c => (s, .called (c.monitors.map fun x => (x.2, v)))
      simp only [step]
      rw [h3]
      refine ⟨hinv, Or.inl ⟨hk, ?_⟩⟩
      rw [h4, List.map_map]; rfl
    · simp only [step]
      rw [withCell_unknown hi hk]
      exact ⟨hinv, Or.inr ⟨hk, rfl⟩⟩
  | disconnect d =>
    refine ⟨⟨hi.next, ?_, ?_, hi.inj, ?_, ?_⟩, rfl⟩
    · intro m'; rw [known_cons (by simp)]; exact hi.known m'
    · intro n' i' e'
      have e' : s.find n' = some i' := e'
      obtain ⟨c', g1, g2, g3⟩ := hi.cell n' i' e'
      refine ⟨{ c' with monitors := c'.monitors.filter (·.1 ≠ d) }, ?_, ?_, g3⟩
      · show (s.cells.map _)[_]? = _
        rw [List.getElem?_map, g1]; rfl
      · show c'.monitors.filter _ = (List.filter _ ((connected h).filter _)).map _
        rw [g2, List.filter_map, List.filter_filter, List.filter_filter]
        congr 1
        apply List.filter_congr
        intro x _
        rw [Bool.and_comm]; rfl
    · intro x hx
      rw [known_cons (by simp)]
      exact hi.unknown x (List.mem_filter.1 hx).1
    · intro m' hm; rw [known_cons (by simp)] at hm; exact hi.noModel m' hm

theorem run_ok (os : List Op) : ∀ {s h}, Inv s h → Seen h os (run s os).2 := by
  induction os with
  | nil => intro s h _; exact .nil
  | cons o os ih =>
    intro s h hi
    obtain ⟨h1, h2⟩ := step_ok hi o
    exact .cons h2 (ih h1)

end

/-- Whatever is done with an external model, every call does what the calls before it say; the pointers in the index are valid. -/
theorem C113_run (os : List Op) : Seen [] os (run St.new os).2 := run_ok os inv_new

theorem seen_ub {h os l} (hs : Seen h os l) : Out.ub ∉ l := by
  induction hs with
  | nil => simp
  | cons hc _ ih =>
    rename_i h op ops o os _
    rw [List.mem_cons]
    rintro (e | e)
    · subst e
      cases op <;> simp [Sees] at hc
    · exact ih e

/-- No call follows a pointer to nothing. -/
theorem C113_safe (os : List Op) : Out.ub ∉ (run St.new os).2 := seen_ub (C113_run os)

/-- What `set` passes to the model is not what the other monitors see, and the other way round: `set` calls no monitor of `monitor`. -/
theorem C113_apart {h : List Op} {n : Name} {v : Val} {m : Mon} {o : Out} (hk : Known h n) (hm : modelOf h n = some m) (hs : Sees h (.set n v) o) :
    o = .called [(m, v)] := by
  rcases hs with ⟨_, ⟨m', h1, h2⟩ | ⟨h1, _⟩⟩ | ⟨h1, _⟩
  · rw [hm] at h1; cases h1; exact h2
  · rw [hm] at h1; cases h1
  · exact absurd hk h1

/-- `set` on a cell that the model does not watch calls an empty function. -/
theorem C113_set_violated : ∃ os, Out.badCall ∈ (run St.new os).2 :=
  ⟨[.addCell ['a'], .set ['a'] 1], by decide +kernel⟩

end Verif.ExtModel
