import Verif.Adam.Flow
/-! The invariant of the loop of `flow`. -/
namespace Verif.Adam
variable {N V : Type} [DecidableEq N] [DecidableEq V] [Values V]

/-- The relation has not been applied (nor switched off). -/
def U (s : Sheet N V) (r : Nat) : Bool := !(s.rel r).resolved
/-- The number of relations the cell is still attached to. -/
def nU (s : Sheet N V) (i : Nat) : Nat := ((s.cell i).relations.filter (U s)).length
/-- The number of terms of the relation none of whose cells is resolved. -/
def unres (s : Sheet N V) (r : Nat) : Nat := ((s.rel r).terms.filter fun t => !termResolved s t).length
/-- The number of cells the terms of the unresolved relations name. -/
def pot (s : Sheet N V) : Nat :=
  ((List.range s.nrel).map fun r => if U s r then ((s.rel r).terms.map (·.names.length)).sum else 0).sum

theorem termResolved_iff {s : Sheet N V} {t : RelTerm N V} :
    termResolved s t = true ↔ ∃ n ∈ t.names, ∃ i, s.outputIndex.find n = some i ∧ (s.cell i).resolved = true := by
  unfold termResolved
  rw [List.any_eq_true]
  constructor
  · rintro ⟨n, hn, h⟩
    cases hi : s.outputIndex.find n with
    | none => simp [hi] at h
    | some i => exact ⟨n, hn, i, hi, by simpa [hi] using h⟩
  · rintro ⟨n, hn, i, hi, h⟩
    exact ⟨n, hn, by simp [hi, h]⟩

theorem termResolved_congr {s s' : Sheet N V} (ho : s'.outputIndex = s.outputIndex) {t : RelTerm N V}
    (h : ∀ n ∈ t.names, ∀ o, s.outputIndex.find n = some o → (s'.cell o).resolved = (s.cell o).resolved) :
    termResolved s' t = termResolved s t := by
  rw [Bool.eq_iff_iff, termResolved_iff, termResolved_iff, ho]
  constructor
  · rintro ⟨n, hn, i, hi, hr⟩; exact ⟨n, hn, i, hi, by rw [← h n hn i hi]; exact hr⟩
  · rintro ⟨n, hn, i, hi, hr⟩; exact ⟨n, hn, i, hi, by rw [h n hn i hi]; exact hr⟩

theorem unres_congr {s s' : Sheet N V} (ho : s'.outputIndex = s.outputIndex) {r : Nat} (ht : (s'.rel r).terms = (s.rel r).terms)
    (h : ∀ t ∈ (s.rel r).terms, ∀ n ∈ t.names, ∀ o, s.outputIndex.find n = some o → (s'.cell o).resolved = (s.cell o).resolved) :
    unres s' r = unres s r := by
  unfold unres
  rw [ht]
  congr 1
  apply List.filter_congr
  intro t htm
  rw [termResolved_congr ho (h t htm)]

/-- Resolving one cell resolves at most one term. -/
theorem unres_one {s s' : Sheet N V} (ho : s'.outputIndex = s.outputIndex) {i : Nat}
    (hinj : ∀ n n' o, s.outputIndex.find n = some o → s.outputIndex.find n' = some o → n = n')
    (h : ∀ o, o ≠ i → (s'.cell o).resolved = (s.cell o).resolved) : ∀ ts : List (RelTerm N V), (ts.flatMap (·.names)).Nodup →
    (ts.filter fun t => !termResolved s t).length ≤ (ts.filter fun t => !termResolved s' t).length + 1
  | [], _ => by simp
  | t :: ts, hnd => by
      rw [List.flatMap_cons, List.nodup_append] at hnd
      obtain ⟨h1, h2, h3⟩ := hnd
      by_cases hc : ∃ n ∈ t.names, s.outputIndex.find n = some i
      · obtain ⟨n, hn, hi⟩ := hc
        have htail : ts.filter (fun t => !termResolved s' t) = ts.filter fun t => !termResolved s t := by
          apply List.filter_congr
          intro t' ht'
          rw [termResolved_congr ho]
          intro n' hn' o ho'
          apply h
          rintro rfl
          have := hinj n n' o hi ho'
          subst this
          exact h3 n hn n (List.mem_flatMap.mpr ⟨t', ht', hn'⟩) rfl
        simp only [List.filter_cons]
        split <;> split <;> simp [htail] <;> omega
      · have ih := unres_one ho hinj h ts h2
        have : termResolved s' t = termResolved s t := by
          apply termResolved_congr ho
          intro n hn o ho'
          apply h
          rintro rfl
          exact hc ⟨n, hn, ho'⟩
        simp only [List.filter_cons, this]
        split <;> simp <;> omega

/-- The invariant.  `K`: cells known to contribute; `ch r`: the term of `r` which was applied; `rk`: the time at which a cell was derived,
`T` the current time; `cur`: the cell which was popped last, `todo`: its relations still to be looked at; `base`: the part of the stack
which is left of the initial one. -/
structure FInv (sF : Sheet N V) (K : List Nat) (ch rk : Nat → Nat) (T cur : Nat) (todo base : List Nat) (s : Sheet N V) : Prop where
  fl : s.fl = sF.fl
  relMono : ∀ r, (sF.rel r).resolved = true → (s.rel r).resolved = true
  cnt : ∀ i, (s.cell i).resolved = false → (s.cell i).count = nU s i
  done : ∀ i, (s.cell i).resolved = true → i ≠ cur → (s.cell i).count = 0
  curC : (s.cell cur).resolved = true → (s.cell cur).count = (todo.filter (U s)).length
  two : ∀ r, r < sF.nrel → U s r = true → r ∉ todo → 2 ≤ unres s r
  one : ∀ r, r < sF.nrel → U s r = true → 1 ≤ unres s r
  stk : ∀ i, (s.cell i).resolved = false → 0 < (s.cell i).count → i ∈ base
  far : ∀ i, (∀ r ∈ (sF.cell i).relations, U sF r = false) → Same (sF.cell i) (s.cell i)
  trm : ∀ i x, (s.cell i).term = some x → ∃ r t p n, r < sF.nrel ∧ U sF r = true ∧ U s r = false ∧
    (sF.rel r).terms[ch r]? = some t ∧ t.names[p]? = some n ∧ sF.outputIndex.find n = some i ∧ x = termAt t p
  app : ∀ r, r < sF.nrel → U sF r = true → U s r = false → ∃ t, (sF.rel r).terms[ch r]? = some t ∧
    (∀ p n i, t.names[p]? = some n → sF.outputIndex.find n = some i → (s.cell i).term = some (termAt t p)) ∧
    ∀ k' t', k' ≠ ch r → (sF.rel r).terms[k']? = some t' → ∃ n ∈ t'.names, ∃ i, sF.outputIndex.find n = some i ∧
      (s.cell i).resolved = true ∧
      ∀ n' ∈ t.names, ∀ o, sF.outputIndex.find n' = some o → rk i < rk o ∧
        ((s.cell i).term.isSome = true ∨ sF.priority o ≤ sF.priority i)
  rkB : ∀ i, rk i ≤ T
  contrib : ∀ i, (s.cell i).resolved = true → (s.cell i).term = none → (∃ r ∈ (sF.cell i).relations, U sF r = true) → ∀ o ∈ base,
    sF.priority o ≤ sF.priority i
  kept : ∀ i ∈ K, (s.cell i).resolved = true ∧ (s.cell i).term = none


theorem nU_congr {s s' : Sheet N V} {i : Nat} (hr : (s'.cell i).relations = (s.cell i).relations)
    (h : ∀ r ∈ (s.cell i).relations, U s' r = U s r) : nU s' i = nU s i := by
  unfold nU
  rw [hr, List.filter_congr h]

theorem filter_length_erase {p q : Nat → Bool} {r : Nat} : ∀ {l : List Nat}, l.Nodup → r ∈ l → p r = true → q r = false →
    (∀ x, x ≠ r → q x = p x) → (l.filter p).length = (l.filter q).length + 1
  | [], _, h, _, _, _ => by simp at h
  | a :: l, hnd, h, hp, hq, hne => by
      rw [List.nodup_cons] at hnd
      by_cases ha : a = r
      · subst ha
        have : l.filter q = l.filter p := by
          apply List.filter_congr
          intro x hx
          apply hne
          rintro rfl; exact hnd.1 hx
        simp [hp, hq, this]
      · have ih := filter_length_erase hnd.2 ((List.mem_cons.mp h).resolve_left fun h => ha h.symm) hp hq hne
        simp only [List.filter_cons, hne a ha]
        split <;> (try simp only [List.length_cons]) <;> omega

theorem nU_drop {s s' : Sheet N V} {i r : Nat} (hr : (s'.cell i).relations = (s.cell i).relations)
    (hnd : (s.cell i).relations.Nodup) (hm : r ∈ (s.cell i).relations) (hu : U s r = true) (hu' : U s' r = false)
    (h : ∀ x, x ≠ r → U s' x = U s x) : nU s i = nU s' i + 1 := by
  unfold nU
  rw [hr]
  exact filter_length_erase hnd hm hu hu' h

theorem pot_congr {s s' : Sheet N V} (hf : s'.fl = s.fl) (h : ∀ r, U s' r = U s r) : pot s' = pot s := by
  unfold pot
  rw [fl_nrel hf]
  congr 1
  apply List.map_congr_left
  intro r _
  rw [h, fl_terms hf]

theorem pot_drop {s s' : Sheet N V} (hf : s'.fl = s.fl) {r : Nat} (hr : r < s.nrel) (hu : U s r = true) (hu' : U s' r = false)
    (h : ∀ x, x ≠ r → U s' x = U s x) : pot s' + ((s.rel r).terms.map (·.names.length)).sum ≤ pot s := by
  unfold pot
  rw [fl_nrel hf]
  apply sum_add_le _ _ _ _ r (List.mem_range.mpr hr)
  · simp [hu, hu']
  · intro x _
    by_cases hx : x = r
    · subst hx; simp [hu']
    · rw [h x hx, fl_terms hf]; exact Nat.le_refl _

theorem sum_mem_le {α : Type} (f : α → Nat) : ∀ {l : List α} {a : α}, a ∈ l → f a ≤ (l.map f).sum
  | [], _, h => by simp at h
  | b :: l, a, h => by
      simp only [List.map_cons, List.sum_cons]
      rcases List.mem_cons.mp h with rfl | h
      · omega
      · have := sum_mem_le f h; omega

theorem decr_pos {k : Nat} (h : 0 < k) : decr k = k - 1 := by unfold decr; rw [if_neg (by omega)]

/-- In a list without repetition of names, two terms which share a name are the same. -/
theorem names_disjoint {ts : List (RelTerm N V)} (h : (ts.flatMap (·.names)).Nodup) {k k' : Nat} {t t' : RelTerm N V}
    (hk : ts[k]? = some t) (hk' : ts[k']? = some t') {n : N} (hn : n ∈ t.names) (hn' : n ∈ t'.names) : k = k' := by
  induction ts generalizing k k' with
  | nil => simp at hk
  | cons a ts ih =>
      rw [List.flatMap_cons, List.nodup_append] at h
      obtain ⟨h1, h2, h3⟩ := h
      cases k with
      | zero =>
          cases k' with
          | zero => rfl
          | succ k' =>
              simp only [List.getElem?_cons_zero, Option.some.injEq] at hk
              simp only [List.getElem?_cons_succ] at hk'
              subst hk
              exact absurd rfl (h3 n hn n (List.mem_flatMap.mpr ⟨t', List.mem_of_getElem? hk', hn'⟩))
      | succ k =>
          cases k' with
          | zero =>
              simp only [List.getElem?_cons_zero, Option.some.injEq] at hk'
              simp only [List.getElem?_cons_succ] at hk
              subst hk'
              exact absurd rfl (h3 n hn' n (List.mem_flatMap.mpr ⟨t, List.mem_of_getElem? hk, hn⟩))
          | succ k' =>
              simp only [List.getElem?_cons_succ] at hk hk'
              rw [ih h2 hk hk']

theorem mem_eraseIdx_flatMap {ts : List (RelTerm N V)} {k : Nat} {n : N} :
    n ∈ (ts.eraseIdx k).flatMap (·.names) ↔ ∃ k' t', k' ≠ k ∧ ts[k']? = some t' ∧ n ∈ t'.names := by
  rw [List.mem_flatMap]
  constructor
  · rintro ⟨t', ht', hn⟩
    rw [List.mem_eraseIdx_iff_getElem?] at ht'
    obtain ⟨k', hk', hne⟩ := ht'
    exact ⟨k', t', hk', hne, hn⟩
  · rintro ⟨k', t', hk', hne, hn⟩
    exact ⟨t', List.mem_eraseIdx_iff_getElem?.mpr ⟨k', hk', hne⟩, hn⟩

/-- What is left when `k` is the only unresolved term. -/
theorem findIdx_only {s : Sheet N V} {ts : List (RelTerm N V)} {k : Nat} (hk : firstUnresolved s ts = some k)
    (hrest : (ts.drop (k + 1)).any (fun t => !termResolved s t) = false) :
    ∃ t, ts[k]? = some t ∧ termResolved s t = false ∧ ∀ k' t', k' ≠ k → ts[k']? = some t' → termResolved s t' = true := by
  unfold firstUnresolved at hk
  rw [List.findIdx?_eq_some_iff_getElem] at hk
  obtain ⟨hlt, ht, hbefore⟩ := hk
  refine ⟨ts[k], List.getElem?_eq_getElem hlt, by simpa using ht, ?_⟩
  intro k' t' hne hk'
  obtain ⟨hlt', rfl⟩ := List.getElem?_eq_some_iff.mp hk'
  rcases Nat.lt_or_gt_of_ne hne with h | h
  · simpa using hbefore k' h
  · rw [List.any_eq_false] at hrest
    have := hrest ts[k'] (by
      rw [List.mem_drop_iff_getElem]
      exact ⟨k' - (k + 1), by omega, by congr 1; omega⟩)
    simpa using this

theorem two_unres {s : Sheet N V} {ts : List (RelTerm N V)} {k : Nat} (hk : firstUnresolved s ts = some k)
    (hrest : (ts.drop (k + 1)).any (fun t => !termResolved s t) = true) :
    2 ≤ (ts.filter fun t => !termResolved s t).length := by
  unfold firstUnresolved at hk
  rw [List.findIdx?_eq_some_iff_getElem] at hk
  obtain ⟨hlt, ht, -⟩ := hk
  have h1 : ts = ts.take k ++ ts[k] :: ts.drop (k + 1) := by simp
  rw [h1, List.filter_append, List.filter_cons, if_pos ht, List.length_append, List.length_cons]
  have : 0 < ((ts.drop (k + 1)).filter fun t => !termResolved s t).length := by
    rw [List.any_eq_true] at hrest
    obtain ⟨t, htm, htr⟩ := hrest
    exact List.length_pos_of_mem (List.mem_filter.mpr ⟨htm, htr⟩)
  omega

theorem none_unres {s : Sheet N V} {ts : List (RelTerm N V)} (hk : firstUnresolved s ts = none) :
    (ts.filter fun t => !termResolved s t).length = 0 := by
  unfold firstUnresolved at hk
  rw [List.findIdx?_eq_none_iff] at hk
  rw [List.length_eq_zero_iff, List.filter_eq_nil_iff]
  intro t ht
  simpa using hk t ht

end Verif.Adam
