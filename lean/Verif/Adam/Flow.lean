import Verif.Adam.Update
/-! The direction of the relations (`flow`). -/
namespace Verif.Adam
variable {N V : Type} [DecidableEq N] [DecidableEq V] [Values V]

/-- What `add_relation` builds. -/
structure RelOk (s : Sheet N V) : Prop where
  inj : ∀ n n' o, s.outputIndex.find n = some o → s.outputIndex.find n' = some o → n = n'
  names : ∀ r, r < s.nrel → ∀ t ∈ (s.rel r).terms, ∀ n ∈ t.names, ∃ o, s.outputIndex.find n = some o ∧ (s.cell o).input.isSome
  edges : ∀ r, r < s.nrel → ∀ o, o ∈ (s.rel r).edges ↔ ∃ t ∈ (s.rel r).terms, ∃ n ∈ t.names, s.outputIndex.find n = some o
  edgesNodup : ∀ r, r < s.nrel → (s.rel r).edges.Nodup
  rels : ∀ o r, r ∈ (s.cell o).relations ↔ r < s.nrel ∧ o ∈ (s.rel r).edges
  relsNodup : ∀ o, (s.cell o).relations.Nodup
  initial : ∀ o, (s.cell o).initialCount = (s.cell o).relations.length

/-- Relations as they are meant to be written: at least two terms, each with at least one cell, no cell twice. -/
structure Proper (s : Sheet N V) : Prop where
  two : ∀ r, r < s.nrel → 2 ≤ (s.rel r).terms.length
  nonempty : ∀ r, r < s.nrel → ∀ t ∈ (s.rel r).terms, t.names ≠ []
  nodup : ∀ r, r < s.nrel → ((s.rel r).terms.flatMap (·.names)).Nodup

/-! ### What `flow` leaves unchanged -/

def Cell.fl (c : Cell N V) : Cell N V := { c with count := 0, term := none, resolved := false, priority := 0 }
def Sheet.fl (s : Sheet N V) : Sheet N V :=
  { s with cell := fun i => (s.cell i).fl, rel := fun r => { s.rel r with resolved := false }, priorityLow := 0 }

theorem fl_cell {s s' : Sheet N V} (h : s.fl = s'.fl) (i : Nat) : (s.cell i).fl = (s'.cell i).fl :=
  congrFun (congrArg Sheet.cell h) i
theorem fl_input {s s' : Sheet N V} (h : s.fl = s'.fl) (i : Nat) : (s.cell i).input = (s'.cell i).input :=
  by have := congrArg Cell.input (fl_cell h i); exact this
theorem fl_linked {s s' : Sheet N V} (h : s.fl = s'.fl) (i : Nat) : (s.cell i).linked = (s'.cell i).linked :=
  by have := congrArg Cell.linked (fl_cell h i); exact this
theorem fl_relations {s s' : Sheet N V} (h : s.fl = s'.fl) (i : Nat) : (s.cell i).relations = (s'.cell i).relations :=
  by have := congrArg Cell.relations (fl_cell h i); exact this
theorem fl_out {s s' : Sheet N V} (h : s.fl = s'.fl) : s.outputIndex = s'.outputIndex :=
  by have := congrArg Sheet.outputIndex h; exact this
theorem fl_nrel {s s' : Sheet N V} (h : s.fl = s'.fl) : s.nrel = s'.nrel :=
  by have := congrArg Sheet.nrel h; exact this
theorem fl_terms {s s' : Sheet N V} (h : s.fl = s'.fl) (r : Nat) : (s.rel r).terms = (s'.rel r).terms := by
  have := congrArg Rel.terms (congrFun (congrArg Sheet.rel h) r); exact this
theorem fl_edges {s s' : Sheet N V} (h : s.fl = s'.fl) (r : Nat) : (s.rel r).edges = (s'.rel r).edges := by
  have := congrArg Rel.edges (congrFun (congrArg Sheet.rel h) r); exact this

theorem modCell_fl (s : Sheet N V) (i : Nat) (f : Cell N V → Cell N V) (hf : ∀ c, (f c).fl = c.fl) :
    (s.modCell i f).fl = s.fl := by
  unfold Sheet.modCell Sheet.fl
  congr 1
  funext j
  dsimp only
  split
  · exact hf _
  · rfl

theorem modRel_fl (s : Sheet N V) (r : Nat) (b : Bool) : (s.modRel r fun rl => { rl with resolved := b }).fl = s.fl := by
  unfold Sheet.modRel Sheet.fl
  congr 1
  funext j
  dsimp only
  split <;> rfl

/-! ### The cells of the applied term -/

/-- The term given to the cell at position `k` of the names of `t`. -/
def termAt (t : RelTerm N V) (k : Nat) : Term N V :=
  { prog := t.prog, index := if t.names.length = 1 then none else some k }

/-- The fields of cell `i` that `flow` changes, in `s'`, are `f` of those in `s`. -/
def Same (c c' : Cell N V) : Prop := c'.count = c.count ∧ c'.resolved = c.resolved ∧ c'.term = c.term

theorem Same.refl (c : Cell N V) : Same c c := ⟨rfl, rfl, rfl⟩
theorem Same.trans {a b c : Cell N V} (h : Same a b) (h' : Same b c) : Same a c :=
  ⟨h'.1.trans h.1, h'.2.1.trans h.2.1, h'.2.2.trans h.2.2⟩

theorem outputCell_ok {s : Sheet N V} {n : N} {o : Nat} (h : s.outputIndex.find n = some o) : outputCell n s = (.ok o, s) := by
  unfold outputCell
  simp [h]

/-- The change a derived cell undergoes. -/
def Derived (t : RelTerm N V) (k : Nat) (c c' : Cell N V) : Prop :=
  c.term = none ∧ c'.term = some (termAt t k) ∧ c'.count = decr c.count ∧
    c'.resolved = (c.resolved || decide (decr c.count = 0))

theorem applyTerm_ok (t : RelTerm N V) : ∀ (l : List N) (k : Nat) (s : Sheet N V), l.Nodup →
    (∀ n n' o, s.outputIndex.find n = some o → s.outputIndex.find n' = some o → n = n') →
    (∀ n ∈ l, ∃ o, s.outputIndex.find n = some o ∧ (s.cell o).input.isSome) →
    (∃ s', applyTerm t k l s = (.error .overConstrained, s')) ∨
    (∃ s' push, applyTerm t k l s = (.ok push, s') ∧ s'.fl = s.fl ∧ (∀ r, s'.rel r = s.rel r) ∧ push.length ≤ l.length ∧
      (∀ o ∈ push, ∃ n ∈ l, s.outputIndex.find n = some o) ∧
      (∀ p n o, l[p]? = some n → s.outputIndex.find n = some o → Derived t (k + p) (s.cell o) (s'.cell o)) ∧
      (∀ i, (∀ n ∈ l, s.outputIndex.find n ≠ some i) → Same (s.cell i) (s'.cell i)))
  | [], k, s, _, _, _ => Or.inr ⟨s, [], rfl, rfl, fun _ => rfl, by simp, by simp, by simp, fun _ _ => Same.refl _⟩
  | n :: l, k, s, hnd, hinj, hnames => by
      obtain ⟨o, ho, hin⟩ := hnames n (by simp)
      obtain ⟨j, hj⟩ := Option.isSome_iff_exists.mp hin
      unfold applyTerm
      rw [bind_ok (outputCell_ok ho)]
      simp only [bind_gets]
      cases hterm : (s.cell o).term with
      | some x => exact Or.inl ⟨s, by simp [hterm]⟩
      | none =>
          simp only [Option.isSome_none, Bool.false_eq_true, if_false, bind_modify]
          -- the state after the change of the cell and of the priority of its input half
          generalize hs1 : s.modCell o (fun c => { c with
            term := some { prog := t.prog, index := if t.names.length = 1 then none else some k }, count := decr c.count }) = s1
          have h1o : (s1.cell o).term = some (termAt t k) ∧ (s1.cell o).count = decr (s.cell o).count ∧
              (s1.cell o).resolved = (s.cell o).resolved := by rw [← hs1]; simp [termAt]
          have h1other : ∀ i, i ≠ o → s1.cell i = s.cell i := by intro i hi; rw [← hs1]; exact modCell_other _ _ hi
          have h1fl : s1.fl = s.fl := by rw [← hs1]; exact modCell_fl _ _ _ fun _ => rfl
          have h1rel : ∀ r, s1.rel r = s.rel r := by intro r; rw [← hs1]; rfl
          simp only [hj, bind_modify]
          generalize hs2 : lowerPriority j s1 = s2
          have h2same : ∀ i, Same (s1.cell i) (s2.cell i) := by
            intro i; rw [← hs2]; unfold lowerPriority
            by_cases hl : (s1.cell j).linked = true <;> by_cases hi : i = j <;> simp [Sheet.modCell, hl, hi, Same]
          have h2fl : s2.fl = s1.fl := by
            rw [← hs2]; unfold lowerPriority
            split
            · unfold Sheet.modCell Sheet.fl
              congr 1
              funext i
              dsimp only
              by_cases hi : i = j <;> simp [hi, Cell.fl]
            · rfl
          have h2rel : ∀ r, s2.rel r = s1.rel r := by
            intro r; rw [← hs2]; unfold lowerPriority; split <;> rfl
          have h2out : s2.outputIndex = s.outputIndex := fl_out (h2fl.trans h1fl)
          have h2in : ∀ i, (s2.cell i).input = (s.cell i).input := fl_input (h2fl.trans h1fl)
          have hnl : n ∉ l := (List.nodup_cons.mp hnd).1
          have hol : ∀ n' ∈ l, s.outputIndex.find n' ≠ some o := by
            intro n' hn' h; exact hnl (hinj n n' o ho h ▸ hn')
          have hc2 : (s2.cell o).count = decr (s.cell o).count := by rw [(h2same o).1]; exact h1o.2.1
          have again : ∀ s3 : Sheet N V, s3.fl = s2.fl → (∀ r, s3.rel r = s2.rel r) → (∀ i, i ≠ o → s3.cell i = s2.cell i) →
              Derived t k (s.cell o) (s3.cell o) →
              (∃ s', applyTerm t (k + 1) l s3 = (.error .overConstrained, s')) ∨
              (∃ s' push, applyTerm t (k + 1) l s3 = (.ok push, s') ∧ s'.fl = s.fl ∧ (∀ r, s'.rel r = s.rel r) ∧ push.length ≤ l.length ∧
                (∀ o ∈ push, ∃ n' ∈ l, s.outputIndex.find n' = some o) ∧
                (∀ p n' o', (n :: l)[p]? = some n' → s.outputIndex.find n' = some o' → Derived t (k + p) (s.cell o') (s'.cell o')) ∧
                (∀ i, (∀ n' ∈ n :: l, s.outputIndex.find n' ≠ some i) → Same (s.cell i) (s'.cell i))) := by
            intro s3 h3fl h3rel h3other h3o
            have h3out : s3.outputIndex = s.outputIndex := (fl_out h3fl).trans h2out
            rcases applyTerm_ok t l (k + 1) s3 (List.nodup_cons.mp hnd).2 (by rw [h3out]; exact hinj) (by
                rw [h3out]
                intro n' hn'
                obtain ⟨o', ho', hi'⟩ := hnames n' (by simp [hn'])
                exact ⟨o', ho', by rw [fl_input h3fl, h2in]; exact hi'⟩) with h | ⟨s', push, g1, g2, g3, g4, g5, g6, g7⟩
            · exact Or.inl h
            · right
              rw [h3out] at g5 g6 g7
              refine ⟨s', push, g1, g2.trans (h3fl.trans (h2fl.trans h1fl)), fun r => ?_, g4, g5, ?_, ?_⟩
              · rw [g3, h3rel, h2rel, h1rel]
              · intro p n' o' hp ho'
                cases p with
                | zero =>
                    simp only [List.getElem?_cons_zero, Option.some.injEq] at hp
                    subst hp
                    rw [ho] at ho'; cases ho'
                    have := g7 o hol
                    exact ⟨h3o.1, this.2.2.trans h3o.2.1, this.1.trans h3o.2.2.1, this.2.1.trans h3o.2.2.2⟩
                | succ p =>
                    have hp' : l[p]? = some n' := by simpa using hp
                    have hne : o' ≠ o := by
                      rintro rfl; exact hol n' (List.mem_of_getElem? hp') ho'
                    have := g6 p n' o' hp' ho'
                    rw [h3other o' hne] at this
                    have h2 := h2same o'
                    rw [h1other o' hne] at h2
                    rw [show k + 1 + p = k + (p + 1) by omega] at this
                    exact ⟨h2.2.2 ▸ this.1, this.2.1, by rw [this.2.2.1, h2.1], by rw [this.2.2.2, h2.1, h2.2.1]⟩
              · intro i hi
                have hne : i ≠ o := by rintro rfl; exact hi n (by simp) ho
                have h2 := h2same i
                rw [h1other i hne] at h2
                have := g7 i (fun n' hn' => hi n' (by simp [hn']))
                rw [h3other i hne] at this
                exact h2.trans this
          simp only [bind_gets]
          by_cases hcount : (s2.cell o).count = 0
          · simp only [hcount, ne_eq, not_true_eq_false, if_false, bind_modify]
            rcases again (s2.modCell o fun c => { c with resolved := true }) (modCell_fl _ _ _ fun _ => rfl) (fun _ => rfl)
              (fun i hi => modCell_other _ _ hi) (by
                refine ⟨hterm, ?_, ?_, ?_⟩
                · simp only [modCell_self]; rw [(h2same o).2.2]; exact h1o.1
                · simp only [modCell_self]; exact hc2
                · simp only [modCell_self]; rw [← hc2, hcount]; simp) with h | ⟨s', push, g1, g2, g3, g4, g5, g6⟩
            · exact Or.inl h
            · right
              exact ⟨s', push, g1, g2, g3, by simp; omega, fun x hx => by
                obtain ⟨n', hn', h⟩ := g5 x hx; exact ⟨n', by simp [hn'], h⟩, g6⟩
          · simp only [hcount, ne_eq, not_false_eq_true, if_true]
            rcases again s2 rfl (fun _ => rfl) (fun i hi => rfl) (by
                refine ⟨hterm, ?_, hc2, ?_⟩
                · rw [(h2same o).2.2]; exact h1o.1
                · rw [← hc2, (h2same o).2.1, h1o.2.2]; simp [hcount]) with ⟨s', h⟩ | ⟨s', push, g1, g2, g3, g4, g5, g6⟩
            · exact Or.inl ⟨s', by rw [bind_err h]⟩
            · right
              refine ⟨s', o :: push, by rw [bind_ok g1]; rfl, g2, g3, by simp; omega, ?_, g6⟩
              intro x hx
              rcases List.mem_cons.mp hx with rfl | hx
              · exact ⟨n, by simp, ho⟩
              · obtain ⟨n', hn', h⟩ := g5 x hx; exact ⟨n', by simp [hn'], h⟩

/-! ### The cells of the other terms -/

theorem detach_ok : ∀ (l : List N) (s : Sheet N V), l.Nodup →
    (∀ n n' o, s.outputIndex.find n = some o → s.outputIndex.find n' = some o → n = n') →
    (∀ n ∈ l, ∃ o, s.outputIndex.find n = some o) →
    ∃ s', detach l s = (.ok (), s') ∧ s'.fl = s.fl ∧ (∀ r, s'.rel r = s.rel r) ∧
      (∀ i, (s'.cell i).resolved = (s.cell i).resolved ∧ (s'.cell i).term = (s.cell i).term) ∧
      (∀ n ∈ l, ∀ o, s.outputIndex.find n = some o →
        (s'.cell o).count = if (s.cell o).resolved then (s.cell o).count else decr (s.cell o).count) ∧
      (∀ i, (∀ n ∈ l, s.outputIndex.find n ≠ some i) → (s'.cell i).count = (s.cell i).count)
  | [], s, _, _, _ => ⟨s, rfl, rfl, fun _ => rfl, fun _ => ⟨rfl, rfl⟩, by simp, fun _ _ => rfl⟩
  | n :: l, s, hnd, hinj, hnames => by
      obtain ⟨o, ho⟩ := hnames n (by simp)
      unfold detach
      rw [bind_ok (outputCell_ok ho)]
      simp only [bind_modify]
      generalize hs1 : (if (s.cell o).resolved = true then s else s.modCell o fun c => { c with count := decr c.count }) = s1
      have h1other : ∀ i, i ≠ o → s1.cell i = s.cell i := by
        intro i hi; rw [← hs1]; split
        · rfl
        · exact modCell_other _ _ hi
      have h1o : (s1.cell o).count = (if (s.cell o).resolved then (s.cell o).count else decr (s.cell o).count) ∧
          (s1.cell o).resolved = (s.cell o).resolved ∧ (s1.cell o).term = (s.cell o).term := by
        rw [← hs1]; by_cases h : (s.cell o).resolved = true <;> simp [h]
      have h1fl : s1.fl = s.fl := by
        rw [← hs1]; split
        · rfl
        · exact modCell_fl _ _ _ fun _ => rfl
      have h1rel : ∀ r, s1.rel r = s.rel r := by intro r; rw [← hs1]; split <;> rfl
      have h1out : s1.outputIndex = s.outputIndex := fl_out h1fl
      obtain ⟨s', g1, g2, g3, g4, g5, g6⟩ := detach_ok l s1 (List.nodup_cons.mp hnd).2 (by rw [h1out]; exact hinj) (by
        rw [h1out]; intro n' hn'; exact hnames n' (by simp [hn']))
      have hol : ∀ n' ∈ l, s.outputIndex.find n' ≠ some o := by
        intro n' hn' h; exact (List.nodup_cons.mp hnd).1 (hinj n n' o ho h ▸ hn')
      rw [h1out] at g5 g6
      refine ⟨s', g1, g2.trans h1fl, fun r => (g3 r).trans (h1rel r), ?_, ?_, ?_⟩
      · intro i
        obtain ⟨a, b⟩ := g4 i
        by_cases hi : i = o
        · subst hi; exact ⟨a.trans h1o.2.1, b.trans h1o.2.2⟩
        · rw [h1other i hi] at a b; exact ⟨a, b⟩
      · intro n' hn' o' ho'
        rcases List.mem_cons.mp hn' with rfl | hn'
        · rw [ho] at ho'; cases ho'
          rw [g6 o hol]; exact h1o.1
        · have hne : o' ≠ o := by rintro rfl; exact hol n' hn' ho'
          rw [g5 n' hn' o' ho', h1other o' hne]
      · intro i hi
        have hne : i ≠ o := by rintro rfl; exact hi n (by simp) ho
        rw [g6 i (fun n' hn' => hi n' (by simp [hn'])), h1other i hne]

end Verif.Adam
