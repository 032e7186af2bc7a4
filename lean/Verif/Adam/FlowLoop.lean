import Verif.Adam.FlowInv
/-! The loop of `flow` keeps its invariant. -/
namespace Verif.Adam
variable {N V : Type} [DecidableEq N] [DecidableEq V] [Values V]
variable {sF : Sheet N V} {K : List Nat} {ch rk : Nat → Nat} {T cur r : Nat} {todo base : List Nat} {s : Sheet N V}

/-- A relation which is already resolved is skipped. -/
theorem FInv.skip (h : FInv sF K ch rk T cur (r :: todo) base s) (hr : U s r = false) : FInv sF K ch rk T cur todo base s :=
  { h with
    curC := fun hc => by have := h.curC hc; simpa [hr] using this
    two := fun r' hr' hu hn => h.two r' hr' hu (by
      intro hm
      rcases List.mem_cons.mp hm with rfl | hm
      · rw [hr] at hu; cases hu
      · exact hn hm) }

/-- The count of the popped cell is decremented and nothing else happens: there are at least two unresolved terms. -/
theorem FInv.later (h : FInv sF K ch rk T cur (r :: todo) base s) (hcur : (s.cell cur).resolved = true) (hr : U s r = true)
    (hmem : r ∈ (sF.cell cur).relations) (h2 : 2 ≤ unres s r) : FInv sF K ch rk T cur todo base (s.modCell cur fun c => { c with count := decr c.count }) := by
  have hres : ∀ i, ((s.modCell cur fun c => { c with count := decr c.count }).cell i).resolved = (s.cell i).resolved := by
    intro i; by_cases hi : i = cur <;> simp [Sheet.modCell, hi]
  have hterm : ∀ i, ((s.modCell cur fun c => { c with count := decr c.count }).cell i).term = (s.cell i).term := by
    intro i; by_cases hi : i = cur <;> simp [Sheet.modCell, hi]
  have hcnt : ∀ i, i ≠ cur → ((s.modCell cur fun c => { c with count := decr c.count }).cell i) = (s.cell i) := by
    intro i hi; exact modCell_other _ _ hi
  have hfl : (s.modCell cur fun c => { c with count := decr c.count }).fl = s.fl := modCell_fl _ _ _ fun _ => rfl
  have hun : ∀ r, unres (s.modCell cur fun c => { c with count := decr c.count }) r = unres s r :=
    fun r => unres_congr (s := s) (s' := s.modCell cur fun c => { c with count := decr c.count }) rfl rfl fun _ _ _ _ o _ => hres o
  have hne : ∀ i, (s.cell i).resolved = false → i ≠ cur := by rintro i hi rfl; rw [hcur] at hi; cases hi
  refine ⟨hfl.trans h.fl, h.relMono, ?_, ?_, ?_, ?_, ?_, ?_, ?_, ?_, ?_, h.rkB, ?_, ?_⟩
  · intro i hi
    rw [hres] at hi
    rw [hcnt i (hne i hi), h.cnt i hi]
    exact (nU_congr (fl_relations hfl i) fun _ _ => rfl).symm
  · intro i hi hic
    rw [hres] at hi; rw [hcnt i hic]; exact h.done i hi hic
  · intro _
    have hc := h.curC hcur
    simp only [List.filter_cons, hr, if_true, List.length_cons] at hc
    rw [modCell_self]
    simp only [hc]
    exact decr_pos (by omega)
  · intro r' hr' hu hn
    rw [hun]
    by_cases hrr : r' = r
    · subst hrr; exact h2
    · exact h.two r' hr' hu (by simp [hrr, hn])
  · intro r' hr' hu; rw [hun]; exact h.one r' hr' hu
  · intro i hi hc
    rw [hres] at hi; rw [hcnt i (hne i hi)] at hc; exact h.stk i hi hc
  · intro i hi
    have hs := h.far i hi
    have hic : i ≠ cur := by
      rintro rfl
      have h3 : (sF.rel r).resolved = true := by simpa [U] using hi r hmem
      have h4 := h.relMono r h3
      simp [U, h4] at hr
    rw [hcnt i hic]; exact hs
  · intro i x hx
    rw [hterm] at hx; exact h.trm i x hx
  · intro r' hr' hu hu'
    obtain ⟨t, h1, h2, h3⟩ := h.app r' hr' hu hu'
    refine ⟨t, h1, fun p n i hp hi => by rw [hterm]; exact h2 p n i hp hi, fun k' t' hk ht' => ?_⟩
    obtain ⟨n, hn, i, hi, hr, ho⟩ := h3 k' t' hk ht'
    exact ⟨n, hn, i, hi, by rw [hres]; exact hr, fun n' hn' o ho' => by rw [hterm]; exact ho n' hn' o ho'⟩
  · intro i hi ht
    rw [hres] at hi; rw [hterm] at ht; exact h.contrib i hi ht
  · intro i hi
    rw [hres, hterm]; exact h.kept i hi


/-- The only unresolved term of the relation is applied. -/
theorem FInv.apply (hR : RelOk sF) (hP : Proper sF) (h : FInv sF K ch rk T cur (r :: todo) base s) (hcur : (s.cell cur).resolved = true)
    (hnd : (r :: todo).Nodup) (hu : U s r = true) (hmem : r ∈ (sF.cell cur).relations) {k : Nat} {t : RelTerm N V}
    (hk : (sF.rel r).terms[k]? = some t) (htr : termResolved s t = false)
    (honly : ∀ k' t', k' ≠ k → (sF.rel r).terms[k']? = some t' → termResolved s t' = true) {s' : Sheet N V}
    (hfl : s'.fl = s.fl) (hU : U s' r = false) (hU' : ∀ x, x ≠ r → U s' x = U s x)
    (hder : ∀ p n o, t.names[p]? = some n → sF.outputIndex.find n = some o → Derived t p (s.cell o) (s'.cell o))
    (hterm : ∀ i, (∀ n ∈ t.names, sF.outputIndex.find n ≠ some i) → (s'.cell i).term = (s.cell i).term)
    (hres : ∀ i, (∀ n ∈ t.names, sF.outputIndex.find n ≠ some i) → (s'.cell i).resolved = (s.cell i).resolved)
    (hcnt : ∀ i, (∀ n ∈ t.names, sF.outputIndex.find n ≠ some i) → (s'.cell i).count = if i = cur then decr (s.cell i).count else
      if (s.cell i).resolved = true then (s.cell i).count else if i ∈ (sF.rel r).edges then decr (s.cell i).count else (s.cell i).count) :
    FInv sF K (fun x => if x = r then k else ch x) (fun i => if ∃ n ∈ t.names, sF.outputIndex.find n = some i then T + 1 else rk i)
      (T + 1) cur todo base s' ∧ (s'.cell cur).resolved = true ∧
      (∀ i, (s.cell i).term.isSome = true → (s'.cell i).term.isSome = true) := by
  have hrn : r < sF.nrel := ((hR.rels cur r).mp hmem).1
  have hout : s.outputIndex = sF.outputIndex := fl_out h.fl
  have hrtodo : r ∉ todo := (List.nodup_cons.mp hnd).1
  have hrF : U sF r = true := by
    unfold U at *
    cases hx : (sF.rel r).resolved with
    | false => rfl
    | true => rw [h.relMono r hx] at hu; cases hu
  have hfl' : s'.fl = sF.fl := hfl.trans h.fl
  -- the cells of the term
  have inT : ∀ n ∈ t.names, ∃ p, t.names[p]? = some n := fun n hn => List.getElem?_of_mem hn
  have hun : ∀ n ∈ t.names, ∀ o, sF.outputIndex.find n = some o → (s.cell o).resolved = false := by
    intro n hn o ho
    cases hr : (s.cell o).resolved with
    | false => rfl
    | true =>
        have : termResolved s t = true := termResolved_iff.mpr ⟨n, hn, o, by rw [hout]; exact ho, hr⟩
        rw [htr] at this; cases this
  have hedge : ∀ n ∈ t.names, ∀ o, sF.outputIndex.find n = some o → o ∈ (sF.rel r).edges := fun n hn o ho =>
    (hR.edges r hrn o).mpr ⟨t, List.mem_of_getElem? hk, n, hn, ho⟩
  have hdrop : ∀ o, o ∈ (sF.rel r).edges → nU s o = nU s' o + 1 := by
    intro o ho
    refine nU_drop (fl_relations hfl o) ?_ ?_ hu hU hU'
    · rw [fl_relations h.fl]; exact hR.relsNodup o
    · rw [fl_relations h.fl]; exact (hR.rels o r).mpr ⟨hrn, ho⟩
  have hsame : ∀ o, o ∉ (sF.rel r).edges → nU s' o = nU s o := by
    intro o ho
    refine nU_congr (fl_relations hfl o) fun x hx => hU' x ?_
    rintro rfl
    rw [fl_relations h.fl] at hx
    exact ho ((hR.rels o x).mp hx).2
  have hcntT : ∀ n ∈ t.names, ∀ o, sF.outputIndex.find n = some o → (s'.cell o).count = nU s' o ∧ 0 < (s.cell o).count := by
    intro n hn o ho
    obtain ⟨p, hp⟩ := inT n hn
    have hd := hder p n o hp ho
    have h1 := h.cnt o (hun n hn o ho)
    have h2 := hdrop o (hedge n hn o ho)
    rw [hd.2.2.1, decr_pos (by omega)]
    omega
  have hcurT : ∀ n ∈ t.names, sF.outputIndex.find n ≠ some cur := by
    intro n hn hc
    have := hun n hn cur hc
    rw [hcur] at this; cases this
  have caseT : ∀ i, (∃ n ∈ t.names, sF.outputIndex.find n = some i) ∨ (∀ n ∈ t.names, sF.outputIndex.find n ≠ some i) := by
    intro i
    by_cases hx : ∃ n ∈ t.names, sF.outputIndex.find n = some i
    · exact Or.inl hx
    · exact Or.inr fun n hn hi => hx ⟨n, hn, hi⟩
  have hresMono : ∀ i, (s.cell i).resolved = true → (s'.cell i).resolved = true := by
    intro i hi
    rcases caseT i with ⟨n, hn, hni⟩ | hx
    · rw [hun n hn i hni] at hi; cases hi
    · rw [hres i hx]; exact hi
  have htermMono : ∀ i x, (s.cell i).term = some x → (s'.cell i).term = some x := by
    intro i x hi
    rcases caseT i with ⟨n, hn, hni⟩ | hx
    · obtain ⟨p, hp⟩ := inT n hn
      rw [(hder p n i hp hni).1] at hi; cases hi
    · rw [hterm i hx]; exact hi
  have htermKeep : ∀ i, (s.cell i).resolved = true → (s'.cell i).term = (s.cell i).term := by
    intro i hi
    rcases caseT i with ⟨n, hn, hni⟩ | hx
    · rw [hun n hn i hni] at hi; cases hi
    · rw [hterm i hx]
  -- the relations which are left have the same unresolved terms
  have hunres : ∀ r', r' < sF.nrel → U s' r' = true → unres s' r' = unres s r' := by
    intro r' hr' hu'
    refine unres_congr (fl_out hfl) (fl_terms hfl r') ?_
    intro t' ht' n' hn' o ho
    rw [hout] at ho
    rcases caseT o with ⟨n, hn, hno⟩ | hx
    · -- the cell is attached to `r'`
      have hor' : r' ∈ (sF.cell o).relations := (hR.rels o r').mpr ⟨hr', (hR.edges r' hr' o).mpr ⟨t', by rwa [fl_terms h.fl] at ht', n', hn', ho⟩⟩
      have hpos : 0 < nU s' o := by
        unfold nU
        rw [fl_relations hfl']
        exact List.length_pos_of_mem (List.mem_filter.mpr ⟨hor', hu'⟩)
      obtain ⟨p, hp⟩ := inT n hn
      have hd := hder p n o hp hno
      rw [hd.2.2.2, ← hd.2.2.1, (hcntT n hn o hno).1]
      simp [Nat.pos_iff_ne_zero.mp hpos]
    · exact hres o hx
  have hUmono : ∀ x, U s' x = true → U s x = true ∧ x ≠ r := by
    intro x hx
    have hne : x ≠ r := by rintro rfl; rw [hU] at hx; cases hx
    exact ⟨by rw [← hU' x hne]; exact hx, hne⟩
  refine ⟨⟨hfl', ?_, ?_, ?_, ?_, ?_, ?_, ?_, ?_, ?_, ?_, ?_, ?_, ?_⟩, hresMono cur hcur, ?_⟩
  · intro x hx
    have h1 := h.relMono x hx
    by_cases hxr : x = r
    · subst hxr; simpa [U] using hU
    · have := hU' x hxr; simp only [U, h1] at this; simpa using this
  · intro i hi
    rcases caseT i with ⟨n, hn, hni⟩ | hx
    · exact (hcntT n hn i hni).1
    · have hi' := hi
      rw [hres i hx] at hi'
      have hic : i ≠ cur := by rintro rfl; rw [hcur] at hi'; cases hi'
      rw [hcnt i hx, if_neg hic, if_neg (by simp [hi'])]
      have h1 := h.cnt i hi'
      split
      · rename_i he
        have := hdrop i he
        rw [decr_pos (by omega)]; omega
      · rename_i he
        rw [hsame i he]; exact h1
  · intro i hi hic
    rcases caseT i with ⟨n, hn, hni⟩ | hx
    · obtain ⟨p, hp⟩ := inT n hn
      have hd := hder p n i hp hni
      have hun' := hun n hn i hni
      have h2 := hd.2.2.2
      rw [hi, hun'] at h2
      have : decr (s.cell i).count = 0 := by simpa using h2.symm
      rw [hd.2.2.1, this]
    · have hi' := hi
      rw [hres i hx] at hi'
      rw [hcnt i hx, if_neg hic, if_pos hi']
      exact h.done i hi' hic
  · intro _
    have hc := h.curC hcur
    simp only [List.filter_cons, hu, if_true, List.length_cons] at hc
    rw [hcnt cur hcurT, if_pos rfl, hc, decr_pos (by omega)]
    have : todo.filter (U s') = todo.filter (U s) := by
      apply List.filter_congr
      intro x hx
      apply hU'
      rintro rfl; exact hrtodo hx
    rw [this]; omega
  · intro r' hr' hu' hn
    obtain ⟨h1, h2⟩ := hUmono r' hu'
    rw [hunres r' hr' hu']
    exact h.two r' hr' h1 (by simp [h2, hn])
  · intro r' hr' hu'
    rw [hunres r' hr' hu']
    exact h.one r' hr' (hUmono r' hu').1
  · intro i hi hc
    rcases caseT i with ⟨n, hn, hni⟩ | hx
    · exact h.stk i (hun n hn i hni) (hcntT n hn i hni).2
    · have hi' := hi
      rw [hres i hx] at hi'
      refine h.stk i hi' ?_
      have hic : i ≠ cur := by rintro rfl; rw [hcur] at hi'; cases hi'
      rw [hcnt i hx, if_neg hic, if_neg (by simp [hi'])] at hc
      split at hc
      · rename_i he
        have := hdrop i he
        have := h.cnt i hi'
        omega
      · exact hc
  · intro i hi
    have hne : i ∉ (sF.rel r).edges := by
      intro he
      have := hi r ((hR.rels i r).mpr ⟨hrn, he⟩)
      rw [hrF] at this; cases this
    have hx : ∀ n ∈ t.names, sF.outputIndex.find n ≠ some i := fun n hn hni => hne (hedge n hn i hni)
    have hic : i ≠ cur := by rintro rfl; exact hne ((hR.rels i r).mp hmem).2
    have hs := h.far i hi
    refine ⟨?_, by rw [hres i hx]; exact hs.2.1, by rw [hterm i hx]; exact hs.2.2⟩
    rw [hcnt i hx, if_neg hic, if_neg hne]
    simp only [ite_self]
    exact hs.1
  · intro i x hx
    rcases caseT i with ⟨n, hn, hni⟩ | hno
    · obtain ⟨p, hp⟩ := inT n hn
      have hd := hder p n i hp hni
      rw [hd.2.1] at hx
      exact ⟨r, t, p, n, hrn, hrF, hU, by simpa using hk, hp, hni, by simpa using hx.symm⟩
    · rw [hterm i hno] at hx
      obtain ⟨r', t', p, n, h1, h2, h3, h4, h5⟩ := h.trm i x hx
      have hne : r' ≠ r := by rintro rfl; rw [hu] at h3; cases h3
      exact ⟨r', t', p, n, h1, h2, by rw [hU' r' hne]; exact h3, by simpa [hne] using h4, h5⟩
  · intro r' hr' huF hu'
    by_cases hrr : r' = r
    · subst hrr
      refine ⟨t, by simpa using hk, fun p n i hp hi => (hder p n i hp hi).2.1, fun k' t' hk' ht' => ?_⟩
      simp only [if_true] at hk'
      obtain ⟨n, hn, i, hi, hri⟩ := termResolved_iff.mp (honly k' t' hk' ht')
      rw [hout] at hi
      refine ⟨n, hn, i, hi, hresMono i hri, fun n' hn' o ho => ⟨?_, ?_⟩⟩
      · have hiT : ¬ ∃ n ∈ t.names, sF.outputIndex.find n = some i := by
          rintro ⟨m, hm, hmi⟩
          rw [hun m hm i hmi] at hri; cases hri
        rw [if_neg hiT, if_pos ⟨n', hn', ho⟩]
        have := h.rkB i
        omega
      · cases hti : (s.cell i).term with
        | some x => left; rw [htermMono i x hti]; rfl
        | none =>
            right
            refine h.contrib i hri hti ⟨r', (hR.rels i r').mpr ⟨hrn, (hR.edges r' hrn i).mpr ⟨t', List.mem_of_getElem? ht', n, hn, hi⟩⟩, hrF⟩ o ?_
            exact h.stk o (hun n' hn' o ho) (hcntT n' hn' o ho).2
    · have hu1 : U s r' = false := by rw [← hU' r' hrr]; exact hu'
      obtain ⟨t1, h1, h2, h3⟩ := h.app r' hr' huF hu1
      refine ⟨t1, by simpa [hrr] using h1, fun p n i hp hi => htermMono i _ (h2 p n i hp hi), fun k' t' hk' ht' => ?_⟩
      obtain ⟨n, hn, i, hi, hri, ho⟩ := h3 k' t' (by simpa [hrr] using hk') ht'
      refine ⟨n, hn, i, hi, hresMono i hri, fun n' hn' o ho' => ?_⟩
      obtain ⟨g1, g2⟩ := ho n' hn' o ho'
      have hiT : ¬ ∃ n ∈ t.names, sF.outputIndex.find n = some i := by
        rintro ⟨m, hm, hmi⟩
        rw [hun m hm i hmi] at hri; cases hri
      have hoT : ¬ ∃ n ∈ t.names, sF.outputIndex.find n = some o := by
        rintro ⟨m, hm, hmo⟩
        obtain ⟨p, hp⟩ := inT m hm
        obtain ⟨p', hp'⟩ := List.getElem?_of_mem hn'
        have := (hder p m o hp hmo).1
        rw [h2 p' n' o hp' ho'] at this; cases this
      rw [if_neg hiT, if_neg hoT, htermKeep i hri]
      exact ⟨g1, g2⟩
  · intro i
    have := h.rkB i
    split <;> omega
  · intro i hi ht hat
    rcases caseT i with ⟨n, hn, hni⟩ | hno
    · obtain ⟨p, hp⟩ := inT n hn
      rw [(hder p n i hp hni).2.1] at ht; cases ht
    · rw [hres i hno] at hi; rw [hterm i hno] at ht
      exact h.contrib i hi ht hat
  · intro i hi
    obtain ⟨h1, h2⟩ := h.kept i hi
    exact ⟨hresMono i h1, by rw [htermKeep i h1]; exact h2⟩
  · intro i hi
    obtain ⟨x, hx⟩ := Option.isSome_iff_exists.mp hi
    rw [htermMono i x hx]; rfl


theorem FInv.U_mem (hR : RelOk sF) (h : FInv sF K ch rk T cur (r :: todo) base s) (hsub : ∀ x ∈ r :: todo, x ∈ (sF.cell cur).relations) :
    r < sF.nrel := ((hR.rels cur r).mp (hsub r (by simp))).1

/-- One relation of the popped cell. -/
theorem flowRel_ok (hR : RelOk sF) (hP : Proper sF) (h : FInv sF K ch rk T cur (r :: todo) base s)
    (hcur : (s.cell cur).resolved = true) (hnd : (r :: todo).Nodup) (hsub : ∀ x ∈ r :: todo, x ∈ (sF.cell cur).relations) :
    (∃ s', flowRel cur r s = (.error .overConstrained, s')) ∨
    ∃ s' push ch' rk' T', flowRel cur r s = (.ok push, s') ∧ FInv sF K ch' rk' T' cur todo base s' ∧ (s'.cell cur).resolved = true ∧
      (∀ x ∈ push, (s'.cell x).term.isSome = true) ∧ push.length + pot s' ≤ pot s ∧
      (∀ i, (s.cell i).term.isSome = true → (s'.cell i).term.isSome = true) := by
  have hrn := h.U_mem hR hsub
  have hmem := hsub r (by simp)
  have hout : s.outputIndex = sF.outputIndex := fl_out h.fl
  unfold flowRel
  simp only [bind_gets]
  cases hres : (s.rel r).resolved with
  | true =>
      right
      refine ⟨s, [], ch, rk, T, rfl, h.skip (by simp [U, hres]), hcur, by simp, by simp, fun _ h => h⟩
  | false =>
      have hu : U s r = true := by simp [U, hres]
      simp only [Bool.false_eq_true, if_false, bind_modify, bind_gets, id_eq]
      generalize hs1 : (s.modCell cur fun c => { c with count := decr c.count }) = s1
      have h1fl : s1.fl = s.fl := by rw [← hs1]; exact modCell_fl _ _ _ fun _ => rfl
      have h1res : ∀ i, (s1.cell i).resolved = (s.cell i).resolved := by
        intro i; rw [← hs1]; by_cases hi : i = cur <;> simp [Sheet.modCell, hi]
      have h1term : ∀ i, (s1.cell i).term = (s.cell i).term := by
        intro i; rw [← hs1]; by_cases hi : i = cur <;> simp [Sheet.modCell, hi]
      have h1other : ∀ i, i ≠ cur → s1.cell i = s.cell i := by
        intro i hi; rw [← hs1]; exact modCell_other _ _ hi
      have h1cur : (s1.cell cur).count = decr (s.cell cur).count := by rw [← hs1]; simp
      have h1rel : s1.rel = s.rel := by rw [← hs1]; rfl
      have htr : ∀ t, termResolved s1 t = termResolved s t := fun t =>
        termResolved_congr (fl_out h1fl) fun n _ o _ => h1res o
      have hterms : (s.rel r).terms = (sF.rel r).terms := fl_terms h.fl r
      have hone := h.one r hrn hu
      cases hk : firstUnresolved s1 (s.rel r).terms with
      | none =>
          have := none_unres hk
          unfold unres at hone
          simp only [htr] at this
          omega
      | some k =>
          simp only
          rcases Bool.eq_false_or_eq_true (((s.rel r).terms.drop (k + 1)).any (fun t => !termResolved s1 t)) with hrest | hrest
          · · -- there are others
              right
              have h2 := two_unres hk hrest
              simp only [htr] at h2
              obtain ⟨hlt, -⟩ : ∃ h : k < (s.rel r).terms.length, True := by
                unfold firstUnresolved at hk
                rw [List.findIdx?_eq_some_iff_getElem] at hk
                exact ⟨hk.1, trivial⟩
              refine ⟨s1, [], ch, rk, T, ?_, ?_, by rw [h1res]; exact hcur, by simp, ?_, fun i hi => by rw [h1term]; exact hi⟩
              · simp only [List.getElem?_eq_getElem hlt, hrest, if_true]
                rfl
              · rw [← hs1]; exact h.later hcur hu hmem h2
              · rw [pot_congr h1fl fun x => by simp [U, h1rel]]; simp
          · · -- it is the only one
              obtain ⟨t, ht, htu, honly⟩ := findIdx_only hk hrest
              simp only [htr] at htu honly
              rw [hterms] at ht honly hrest
              simp only [hterms, ht, hrest, Bool.false_eq_true, if_false, bind_modify]
              generalize hs2 : (s1.modRel r fun rl => { rl with resolved := true }) = s2
              have h2fl : s2.fl = s1.fl := by rw [← hs2]; exact modRel_fl _ _ _
              have h2cell : s2.cell = s1.cell := by rw [← hs2]; rfl
              have h2rel : (s2.rel r).resolved = true ∧ ∀ x, x ≠ r → s2.rel x = s1.rel x := by
                rw [← hs2]; refine ⟨by simp [Sheet.modRel], fun x hx => by simp [Sheet.modRel, hx]⟩
              have h2out : s2.outputIndex = sF.outputIndex := (fl_out (h2fl.trans h1fl)).trans hout
              have h2in : ∀ i, (s2.cell i).input = (sF.cell i).input := fl_input ((h2fl.trans h1fl).trans h.fl)
              have htmem : t ∈ (sF.rel r).terms := List.mem_of_getElem? ht
              have hnodup := hP.nodup r hrn
              have hnt : t.names.Nodup := by
                obtain ⟨l1, l2, hl⟩ := List.append_of_mem htmem
                rw [hl, List.flatMap_append, List.flatMap_cons] at hnodup
                exact (List.nodup_append.mp (List.nodup_append.mp hnodup).2.1).1
              rcases applyTerm_ok t t.names 0 s2 hnt (by rw [h2out]; exact hR.inj) (by
                  rw [h2out]; intro n hn
                  obtain ⟨o, ho, hi⟩ := hR.names r hrn t htmem n hn
                  exact ⟨o, ho, by rw [h2in]; exact hi⟩) with ⟨s', he⟩ | ⟨s3, push, g1, g2, g3, g4, g5, g6, g7⟩
              · left; exact ⟨s', by rw [bind_err he]⟩
              · right
                rw [h2out] at g5 g6 g7
                rw [bind_ok g1]
                have h3out : s3.outputIndex = sF.outputIndex := (fl_out g2).trans h2out
                obtain ⟨s4, d1, d2, d3, d4, d5, d6⟩ := detach_ok (((sF.rel r).terms.eraseIdx k).flatMap (·.names)).dedup s3
                  (List.nodup_dedup _) (by rw [h3out]; exact hR.inj) (by
                    rw [h3out]
                    intro n hn
                    rw [List.mem_dedup, mem_eraseIdx_flatMap] at hn
                    obtain ⟨k', t', hne, ht', hn'⟩ := hn
                    obtain ⟨o, ho, -⟩ := hR.names r hrn t' (List.mem_of_getElem? ht') n hn'
                    exact ⟨o, ho⟩)
                rw [h3out] at d5 d6
                rw [bind_ok d1]
                have h4fl : s4.fl = s.fl := d2.trans (g2.trans (h2fl.trans h1fl))
                -- the cells of the term are not among the others
                have hdisj : ∀ n ∈ t.names, ∀ o, sF.outputIndex.find n = some o →
                    ∀ n' ∈ (((sF.rel r).terms.eraseIdx k).flatMap (·.names)).dedup, sF.outputIndex.find n' ≠ some o := by
                  intro n hn o ho n' hn' ho'
                  rw [List.mem_dedup, mem_eraseIdx_flatMap] at hn'
                  obtain ⟨k', t', hne, ht', hn''⟩ := hn'
                  have := hR.inj n n' o ho ho'
                  subst this
                  exact hne (names_disjoint hnodup ht' ht hn'' hn)
                have hcurT : ∀ n ∈ t.names, sF.outputIndex.find n ≠ some cur := by
                  intro n hn hc
                  have : termResolved s t = true := termResolved_iff.mpr ⟨n, hn, cur, by rw [hout]; exact hc, hcur⟩
                  rw [htu] at this; cases this
                have hU4 : U s4 r = false := by simp [U, d3, g3, h2rel.1]
                have hU4' : ∀ x, x ≠ r → U s4 x = U s x := by
                  intro x hx; simp [U, d3, g3, h2rel.2 x hx, h1rel]
                obtain ⟨hF, hc, hm⟩ := h.apply hR hP hcur hnd hu hmem ht htu honly (s' := s4) h4fl hU4 hU4' (by
                    intro p n o hp ho
                    have hn : n ∈ t.names := List.mem_of_getElem? hp
                    have hD := g6 p n o hp ho
                    have hoc : o ≠ cur := by rintro rfl; exact hcurT n hn ho
                    rw [h2cell, h1other o hoc] at hD
                    obtain ⟨e1, e2⟩ := d4 o
                    have e3 := d6 o (hdisj n hn o ho)
                    rw [Nat.zero_add] at hD
                    exact ⟨hD.1, e2.trans hD.2.1, e3.trans hD.2.2.1, e1.trans hD.2.2.2⟩) (by
                    intro i hi
                    rw [(d4 i).2, (g7 i hi).2.2, h2cell, h1term]) (by
                    intro i hi
                    rw [(d4 i).1, (g7 i hi).2.1, h2cell, h1res]) (by
                    intro i hi
                    have hg := g7 i hi
                    rw [h2cell] at hg
                    by_cases hio : ∃ n ∈ (((sF.rel r).terms.eraseIdx k).flatMap (·.names)).dedup, sF.outputIndex.find n = some i
                    · obtain ⟨n, hn, hni⟩ := hio
                      rw [d5 n hn i hni, hg.1, hg.2.1, h1res]
                      have he : i ∈ (sF.rel r).edges := by
                        rw [List.mem_dedup, mem_eraseIdx_flatMap] at hn
                        obtain ⟨k', t', hne, ht', hn'⟩ := hn
                        exact (hR.edges r hrn i).mpr ⟨t', List.mem_of_getElem? ht', n, hn', hni⟩
                      by_cases hic : i = cur
                      · subst hic; rw [if_pos hcur, if_pos rfl, h1cur]
                      · rw [if_neg hic, h1other i hic, if_pos he]
                    · have hno : ∀ n ∈ (((sF.rel r).terms.eraseIdx k).flatMap (·.names)).dedup, sF.outputIndex.find n ≠ some i :=
                        fun n hn hx => hio ⟨n, hn, hx⟩
                      have hne : i ∉ (sF.rel r).edges := by
                        intro he
                        obtain ⟨t', ht', n, hn, hni⟩ := (hR.edges r hrn i).mp he
                        obtain ⟨k', hk'⟩ := List.getElem?_of_mem ht'
                        by_cases hkk : k' = k
                        · subst hkk; rw [ht] at hk'; cases hk'; exact hi n hn hni
                        · exact hno n (by rw [List.mem_dedup, mem_eraseIdx_flatMap]; exact ⟨k', t', hkk, hk', hn⟩) hni
                      rw [d6 i hno, hg.1]
                      have hic : i ≠ cur := by rintro rfl; exact hne ((hR.rels i r).mp hmem).2
                      rw [if_neg hic, if_neg hne, h1other i hic]
                      simp)
                refine ⟨s4, push, _, _, _, rfl, hF, hc, ?_, ?_, hm⟩
                · intro o ho
                  obtain ⟨n, hn, hno⟩ := g5 o ho
                  obtain ⟨p, hp⟩ := List.getElem?_of_mem hn
                  rw [(d4 o).2, (g6 p n o hp hno).2.1]; rfl
                · have := pot_drop h4fl (by rw [fl_nrel h.fl]; exact hrn) hu hU4 hU4'
                  have h5 := sum_mem_le (fun t : RelTerm N V => t.names.length) htmem
                  rw [hterms] at this
                  omega

/-- All the relations of the popped cell. -/
theorem flowCell_ok (hR : RelOk sF) (hP : Proper sF) : ∀ (todo stack : List Nat) (ch rk : Nat → Nat) (T : Nat) (s : Sheet N V) (ps : List Nat),
    FInv sF K ch rk T cur todo base s → (s.cell cur).resolved = true → todo.Nodup → (∀ x ∈ todo, x ∈ (sF.cell cur).relations) →
    stack = ps ++ base → (∀ x ∈ ps, (s.cell x).term.isSome = true) →
    (∃ s', flowCell cur stack todo s = (.error .overConstrained, s')) ∨
    ∃ s' stack' ps' ch' rk' T', flowCell cur stack todo s = (.ok stack', s') ∧ FInv sF K ch' rk' T' cur [] base s' ∧
      stack' = ps' ++ base ∧ (∀ x ∈ ps', (s'.cell x).term.isSome = true) ∧ stack'.length + pot s' ≤ stack.length + pot s
  | [], stack, ch, rk, T, s, ps, h, hcur, _, _, hst, hps =>
      Or.inr ⟨s, stack, ps, ch, rk, T, rfl, h, hst, hps, Nat.le_refl _⟩
  | r :: todo, stack, ch, rk, T, s, ps, h, hcur, hnd, hsub, hst, hps => by
      unfold flowCell
      rcases flowRel_ok hR hP h hcur hnd hsub with ⟨s', he⟩ | ⟨s', push, ch', rk', T', h1, h2, h3, h4, h5, h6⟩
      · left; exact ⟨s', by rw [bind_err he]⟩
      · rw [bind_ok h1]
        rcases flowCell_ok hR hP todo (push.reverse ++ stack) ch' rk' T' s' (push.reverse ++ ps) h2 h3 (List.nodup_cons.mp hnd).2
          (fun x hx => hsub x (by simp [hx])) (by rw [hst, List.append_assoc]) (by
            intro x hx
            rcases List.mem_append.mp hx with hx | hx
            · exact h4 x (List.mem_reverse.mp hx)
            · exact h6 x (hps x hx)) with he | ⟨s'', stack', ps', ch'', rk'', T'', g1, g2, g3, g4, g5⟩
        · exact Or.inl he
        · right
          refine ⟨s'', stack', ps', ch'', rk'', T'', g1, g2, g3, g4, ?_⟩
          simp only [List.length_append, List.length_reverse] at g5
          omega

/-- A cell is popped and becomes resolved. -/
theorem FInv.pop (hR : RelOk sF) (hP : Proper sF) (h : FInv sF K ch rk T cur [] base s) {i : Nat} {base' : List Nat}
    (hbase : ∀ x, x ∈ base → x = i ∨ x ∈ base') (hbase' : ∀ x ∈ base', x ∈ base)
    (hi : (s.cell i).count ≠ 0) (hat : ∃ r ∈ (sF.cell i).relations, U sF r = true)
    (hprio : (s.cell i).term = none → ∀ o ∈ base', sF.priority o ≤ sF.priority i) :
    FInv sF K ch rk T i (sF.cell i).relations base' (s.modCell i fun c => { c with resolved := true }) ∧ (s.cell i).resolved = false := by
  have hun : (s.cell i).resolved = false := by
    cases hr : (s.cell i).resolved with
    | false => rfl
    | true =>
        by_cases hic : i = cur
        · subst hic; have := h.curC hr; simp at this; exact absurd this hi
        · exact absurd (h.done i hr hic) hi
  refine ⟨?_, hun⟩
  obtain ⟨s', hs'⟩ : ∃ s', s' = s.modCell i fun c => { c with resolved := true } := ⟨_, rfl⟩
  rw [← hs']
  have hfl : s'.fl = s.fl := by rw [hs']; exact modCell_fl _ _ _ fun _ => rfl
  have hrel : s'.rel = s.rel := by rw [hs']; rfl
  have hterm : ∀ j, (s'.cell j).term = (s.cell j).term := by
    intro j; rw [hs']; by_cases hj : j = i <;> simp [Sheet.modCell, hj]
  have hcnt : ∀ j, (s'.cell j).count = (s.cell j).count := by
    intro j; rw [hs']; by_cases hj : j = i <;> simp [Sheet.modCell, hj]
  have hres : ∀ j, j ≠ i → (s'.cell j).resolved = (s.cell j).resolved := by
    intro j hj; rw [hs', modCell_other _ _ hj]
  have hresi : (s'.cell i).resolved = true := by rw [hs']; simp
  have hmono : ∀ j, (s.cell j).resolved = true → (s'.cell j).resolved = true := by
    intro j hj; by_cases hji : j = i
    · subst hji; exact hresi
    · rw [hres j hji]; exact hj
  have hU : ∀ r, U s' r = U s r := by intro r; simp [U, hrel]
  have hnU : ∀ j, nU s' j = nU s j := fun j => nU_congr (fl_relations hfl j) fun r _ => hU r
  have hterms : ∀ r, (s.rel r).terms = (sF.rel r).terms := fun r => fl_terms h.fl r
  have hout : s.outputIndex = sF.outputIndex := fl_out h.fl
  have hinj : ∀ n n' o, s.outputIndex.find n = some o → s.outputIndex.find n' = some o → n = n' := by rw [hout]; exact hR.inj
  refine ⟨hfl.trans h.fl, fun r hr => by rw [hrel]; exact h.relMono r hr, ?_, ?_, ?_, ?_, ?_, ?_, ?_, ?_, ?_, h.rkB, ?_, ?_⟩
  · intro j hj
    have hji : j ≠ i := by rintro rfl; rw [hresi] at hj; cases hj
    rw [hres j hji] at hj
    rw [hcnt, hnU]; exact h.cnt j hj
  · intro j hj hji
    rw [hres j hji] at hj
    rw [hcnt]
    by_cases hjc : j = cur
    · subst hjc; have := h.curC hj; simpa using this
    · exact h.done j hj hjc
  · intro _
    rw [hcnt, h.cnt i hun]
    unfold nU
    rw [fl_relations h.fl]
    congr 1
    exact List.filter_congr fun r _ => (hU r).symm
  · intro r hr hu hn
    have := h.two r hr (by rw [← hU]; exact hu) (by simp)
    rw [unres_congr (fl_out hfl) (by rw [hrel]) ?_]
    · exact this
    · intro t ht n hn' o ho
      apply hres
      rintro rfl
      rw [hout] at ho
      rw [hterms] at ht
      exact hn ((hR.rels o r).mpr ⟨hr, (hR.edges r hr o).mpr ⟨t, ht, n, hn', ho⟩⟩)
  · intro r hr hu
    have h2 := h.two r hr (by rw [← hU]; exact hu) (by simp)
    have h1 := unres_one (fl_out hfl) hinj hres (s.rel r).terms (by rw [hterms]; exact hP.nodup r hr)
    unfold unres at *
    rw [hrel]
    omega
  · intro j hj hc
    have hji : j ≠ i := by rintro rfl; rw [hresi] at hj; cases hj
    rw [hres j hji] at hj
    rw [hcnt] at hc
    exact (hbase j (h.stk j hj hc)).resolve_left hji
  · intro j hj
    have hji : j ≠ i := by
      rintro rfl
      obtain ⟨r, hr, hu⟩ := hat
      rw [hj r hr] at hu; cases hu
    have := h.far j hj
    rw [hs', modCell_other _ _ hji]; exact this
  · intro j x hx
    rw [hterm] at hx
    obtain ⟨r, t, p, n, a, b, c, d⟩ := h.trm j x hx
    exact ⟨r, t, p, n, a, b, by rw [hU]; exact c, d⟩
  · intro r hr hu hu'
    rw [hU] at hu'
    obtain ⟨t, h1, h2, h3⟩ := h.app r hr hu hu'
    refine ⟨t, h1, fun p n j hp hj => by rw [hterm]; exact h2 p n j hp hj, fun k' t' hk ht' => ?_⟩
    obtain ⟨n, hn, j, hj, hr, ho⟩ := h3 k' t' hk ht'
    exact ⟨n, hn, j, hj, hmono j hr, fun n' hn' o ho' => by rw [hterm]; exact ho n' hn' o ho'⟩
  · intro j hj ht hjat o ho
    rw [hterm] at ht
    by_cases hji : j = i
    · subst hji; exact hprio ht o ho
    · rw [hres j hji] at hj
      exact h.contrib j hj ht hjat o (hbase' o ho)
  · intro j hj
    obtain ⟨h1, h2⟩ := h.kept j hj
    exact ⟨hmono j h1, by rw [hterm]; exact h2⟩

theorem FInv.K' {K' : List Nat} (h : FInv sF K ch rk T cur todo base s) (hk : ∀ i ∈ K', (s.cell i).resolved = true ∧ (s.cell i).term = none) :
    FInv sF K' ch rk T cur todo base s := { h with kept := hk }

/-- A cell that is still attached to some relation was attached to it from the beginning. -/
theorem FInv.attached (hR : RelOk sF) (h : FInv sF K ch rk T cur [] base s) {i : Nat} (hi : (s.cell i).count ≠ 0) :
    ∃ r ∈ (sF.cell i).relations, U sF r = true := by
  have hun : (s.cell i).resolved = false := by
    cases hr : (s.cell i).resolved with
    | false => rfl
    | true =>
        by_cases hic : i = cur
        · subst hic; have := h.curC hr; simp at this; exact absurd this hi
        · exact absurd (h.done i hr hic) hi
  rw [h.cnt i hun] at hi
  unfold nU at hi
  obtain ⟨r, hr⟩ := List.exists_mem_of_ne_nil _ (fun h0 : (s.cell i).relations.filter (U s) = [] => hi (by rw [h0]; rfl))
  rw [List.mem_filter, fl_relations h.fl] at hr
  refine ⟨r, hr.1, ?_⟩
  have h2 := hr.2
  unfold U at h2 ⊢
  cases hx : (sF.rel r).resolved with
  | false => rfl
  | true => rw [h.relMono r hx] at h2; cases h2

theorem flowLoop_succ (b i : Nat) (stack : List Nat) (s : Sheet N V) : flowLoop (b + 1) (i :: stack) s =
    if (s.cell i).count = 0 then flowLoop b stack s
    else (flowCell i stack (s.cell i).relations >>= fun stack' => flowLoop b stack') (s.modCell i fun c => { c with resolved := true }) := by
  rw [flowLoop]
  simp only [bind_gets]
  split <;> rfl

/-- One iteration. -/
theorem flowStep_ok (hR : RelOk sF) (hP : Proper sF) {b : Nat} {ps base : List Nat} {i : Nat} {stack : List Nat} {cur : Nat} {ch rk : Nat → Nat}
    {T : Nat} {s : Sheet N V} (h : FInv sF K ch rk T cur [] base s) (hst : i :: stack = ps ++ base)
    (hps : ∀ x ∈ ps, (s.cell x).term.isSome = true) (hsort : base.Pairwise (fun a b => sF.priority b ≤ sF.priority a))
    (hb : (i :: stack).length + pot s ≤ b + 1) {K' : List Nat}
    (hK' : ∀ j ∈ K', j ∈ K ∨ (j = i ∧ (s.cell i).term = none ∧ (s.cell i).count ≠ 0)) :
    (∃ s', flowLoop (b + 1) (i :: stack) s = (.error .overConstrained, s')) ∨
    ∃ s' ps' base' stack' cur' ch' rk' T', flowLoop (b + 1) (i :: stack) s = flowLoop b stack' s' ∧ FInv sF K' ch' rk' T' cur' [] base' s' ∧
      stack' = ps' ++ base' ∧ (∀ x ∈ ps', (s'.cell x).term.isSome = true) ∧
      base'.Pairwise (fun a b => sF.priority b ≤ sF.priority a) ∧ stack'.length + pot s' ≤ b := by
  simp only [List.length_cons] at hb
  -- what is left of the two parts of the stack
  obtain ⟨ps', base', hst', hps', hbase, hbase', hsort', hprio⟩ : ∃ ps' base', stack = ps' ++ base' ∧
      (∀ x ∈ ps', (s.cell x).term.isSome = true) ∧ (∀ x, x ∈ base → x = i ∨ x ∈ base') ∧ (∀ x ∈ base', x ∈ base) ∧
      base'.Pairwise (fun a b => sF.priority b ≤ sF.priority a) ∧
      ((s.cell i).term = none → ∀ o ∈ base', sF.priority o ≤ sF.priority i) := by
    cases ps with
    | nil =>
        simp only [List.nil_append] at hst
        subst hst
        rw [List.pairwise_cons] at hsort
        exact ⟨[], stack, rfl, by simp, fun x hx => List.mem_cons.mp hx, fun x hx => by simp [hx], hsort.2, fun _ => hsort.1⟩
    | cons p ps =>
        simp only [List.cons_append, List.cons.injEq] at hst
        obtain ⟨rfl, rfl⟩ := hst
        refine ⟨ps, base, rfl, fun x hx => hps x (by simp [hx]), fun x hx => Or.inr hx, fun x hx => hx, hsort, fun hn => ?_⟩
        have := hps i (by simp)
        rw [hn] at this; cases this
  rw [flowLoop_succ]
  by_cases hc : (s.cell i).count = 0
  · right
    refine ⟨s, ps', base', stack, cur, ch, rk, T, by simp only [hc, if_true], ?_, hst', hps', hsort', by omega⟩
    refine { h with
      stk := fun j hj hjc => (hbase j (h.stk j hj hjc)).resolve_left (by rintro rfl; omega)
      contrib := fun j hj ht hat o ho => h.contrib j hj ht hat o (hbase' o ho)
      kept := fun j hj => h.kept j ((hK' j hj).resolve_right fun hx => hx.2.2 hc) }
  · simp only [hc, if_false]
    have hat := h.attached hR hc
    obtain ⟨hpop, hun⟩ := h.pop hR hP hbase hbase' hc hat hprio
    obtain ⟨s', hs'⟩ : ∃ s', s' = s.modCell i fun c => { c with resolved := true } := ⟨_, rfl⟩
    rw [← hs'] at hpop ⊢
    have hres : (s'.cell i).resolved = true := by rw [hs']; simp
    have hterm : ∀ j, (s'.cell j).term = (s.cell j).term := by
      intro j; rw [hs']; by_cases hj : j = i <;> simp [Sheet.modCell, hj]
    have hpot : pot s' = pot s := pot_congr (by rw [hs']; exact modCell_fl _ _ _ fun _ => rfl) fun r => by simp [U, hs', Sheet.modCell]
    have hrels : (s.cell i).relations = (sF.cell i).relations := fl_relations h.fl i
    rw [hrels]
    have hpop' := hpop.K' (K' := K') (by
      intro j hj
      rcases hK' j hj with hj | ⟨rfl, hj, _⟩
      · exact hpop.kept j hj
      · exact ⟨hres, by rw [hterm]; exact hj⟩)
    rcases flowCell_ok hR hP (sF.cell i).relations stack ch rk T s' ps' hpop' hres (hR.relsNodup i) (fun x hx => hx) hst'
        (fun x hx => by rw [hterm]; exact hps' x hx) with ⟨s'', he⟩ | ⟨s'', stack', ps'', ch', rk', T', g1, g2, g3, g4, g5⟩
    · left; exact ⟨s'', by rw [bind_err he]⟩
    · right
      rw [bind_ok g1]
      exact ⟨s'', ps'', base', stack', i, ch', rk', T', rfl, g2, g3, g4, hsort', by omega⟩

/-- The whole loop. -/
theorem flowLoop_ok (hR : RelOk sF) (hP : Proper sF) : ∀ (b : Nat) (ps base stack : List Nat) (cur : Nat) (ch rk : Nat → Nat) (T : Nat)
    (s : Sheet N V), FInv sF K ch rk T cur [] base s → stack = ps ++ base → (∀ x ∈ ps, (s.cell x).term.isSome = true) →
    base.Pairwise (fun a b => sF.priority b ≤ sF.priority a) → stack.length + pot s ≤ b →
    (∃ s', flowLoop b stack s = (.error .overConstrained, s')) ∨
    ∃ s' cur' ch' rk' T', flowLoop b stack s = (.ok (), s') ∧ FInv sF K ch' rk' T' cur' [] [] s' := by
  intro b
  induction b with
  | zero =>
      intro ps base stack cur ch rk T s h hst hps hsort hb
      have : stack = [] := List.length_eq_zero_iff.mp (by omega)
      subst this
      have hbn : base = [] := (List.append_eq_nil_iff.mp hst.symm).2
      subst hbn
      exact Or.inr ⟨s, cur, ch, rk, T, rfl, h⟩
  | succ b ih =>
      intro ps base stack cur ch rk T s h hst hps hsort hb
      cases stack with
      | nil =>
          have hbn : base = [] := (List.append_eq_nil_iff.mp hst.symm).2
          subst hbn
          exact Or.inr ⟨s, cur, ch, rk, T, rfl, h⟩
      | cons i stack =>
          rcases flowStep_ok hR hP h hst hps hsort hb (K' := K) (fun j hj => Or.inl hj) with he |
            ⟨s', ps', base', stack', cur', ch', rk', T', g1, g2, g3, g4, g5, g6⟩
          · exact Or.inl he
          · rw [g1]
            exact ih ps' base' stack' cur' ch' rk' T' s' g2 g3 g4 g5 g6

/-! ### The whole of `flow` -/

/-- The state in which `flow` starts. -/
structure FStart (sF : Sheet N V) : Prop where
  cnt : ∀ i, (sF.cell i).count = nU sF i
  res : ∀ i, (sF.cell i).relations ≠ [] → (sF.cell i).resolved = false
  term : ∀ i, (sF.cell i).term = none

theorem mem_flowCells (hR : RelOk sF) {i : Nat} : i ∈ flowCells sF ↔ ∃ r ∈ (sF.cell i).relations, U sF r = true := by
  unfold flowCells
  rw [List.mem_dedup, List.mem_flatMap]
  constructor
  · rintro ⟨r, hr, hi⟩
    cases hres : (sF.rel r).resolved with
    | true => simp [hres] at hi
    | false =>
        simp only [hres, Bool.false_eq_true, if_false] at hi
        exact ⟨r, (hR.rels i r).mpr ⟨List.mem_range.mp hr, hi⟩, by simp [U, hres]⟩
  · rintro ⟨r, hr, hu⟩
    obtain ⟨h1, h2⟩ := (hR.rels i r).mp hr
    refine ⟨r, List.mem_range.mpr h1, ?_⟩
    have : (sF.rel r).resolved = false := by simpa [U] using hu
    simpa [this] using h2

theorem FStart.inv (hR : RelOk sF) (hP : Proper sF) (hS : FStart sF) (cur : Nat) (base : List Nat) (hbase : ∀ i ∈ flowCells sF, i ∈ base) :
    FInv sF [] (fun _ => 0) (fun _ => 0) 0 cur [] base sF := by
  have h0 : ∀ i, (sF.cell i).resolved = true → (sF.cell i).relations = [] := by
    intro i hi
    by_contra h
    rw [hS.res i h] at hi; cases hi
  have h1 : ∀ i, (sF.cell i).resolved = true → (sF.cell i).count = 0 := by
    intro i hi; rw [hS.cnt]; unfold nU; rw [h0 i hi]; rfl
  have hun : ∀ r, r < sF.nrel → 2 ≤ unres sF r := by
    intro r hr
    unfold unres
    rw [List.filter_eq_self.mpr]
    · exact hP.two r hr
    · intro t ht
      cases hx : termResolved sF t with
      | false => rfl
      | true =>
          obtain ⟨n, hn, i, hi, hres⟩ := termResolved_iff.mp hx
          have := (hR.rels i r).mpr ⟨hr, (hR.edges r hr i).mpr ⟨t, ht, n, hn, hi⟩⟩
          rw [h0 i hres] at this; simp at this
  refine ⟨rfl, fun _ h => h, fun i _ => hS.cnt i, fun i hi _ => h1 i hi, fun hi => by simpa using h1 cur hi,
    fun r hr _ _ => hun r hr, fun r hr _ => by have := hun r hr; omega, ?_, fun i _ => Same.refl _, ?_, ?_, fun _ => Nat.le_refl _, ?_, by simp⟩
  · intro i _ hc
    apply hbase
    rw [mem_flowCells hR]
    rw [hS.cnt] at hc
    unfold nU at hc
    obtain ⟨r, hr⟩ := List.exists_mem_of_length_pos hc
    exact ⟨r, (List.mem_filter.mp hr).1, (List.mem_filter.mp hr).2⟩
  · intro i x hx; rw [hS.term] at hx; cases hx
  · intro r _ h h'; rw [h] at h'; cases h'
  · rintro i hi _ ⟨r, hr, _⟩
    rw [h0 i hi] at hr; simp at hr

theorem pot_le_bound (sF : Sheet N V) : (flowCells sF).length + pot sF ≤ flowBound sF := by
  unfold flowBound pot
  apply Nat.add_le_add_left
  apply sum_le
  intro r _
  split <;> omega

/-- `flow` either finds that the sheet is over constrained, or applies exactly one term of each active relation. -/
theorem flow_ok (hR : RelOk sF) (hP : Proper sF) (hS : FStart sF) {srt : Sorter} (hsrt : SortOk srt) :
    (∃ s', flow srt sF = (.error .overConstrained, s')) ∨
    ∃ s' cur ch rk T pa, flow srt sF = (.ok pa, s') ∧ FInv sF [] ch rk T cur [] [] s' := by
  obtain ⟨hperm, hpw⟩ := hsrt sF.priority (flowCells sF)
  unfold flow
  simp only [bind_gets, id_eq]
  rcases flowLoop_ok hR hP (flowBound sF) [] (srt sF.priority (flowCells sF)).reverse (srt sF.priority (flowCells sF)).reverse 0 _ _ 0 sF
    (hS.inv hR hP 0 (srt sF.priority (flowCells sF)).reverse (fun i hi => List.mem_reverse.mpr (hperm.mem_iff.mpr hi))) rfl (by simp)
    (by rw [List.pairwise_reverse]; exact hpw) (by
      rw [List.length_reverse, hperm.length_eq]; exact pot_le_bound sF) with ⟨s', he⟩ | ⟨s', cur, ch, rk, T, h1, h2⟩
  · left; exact ⟨s', by rw [bind_err he]⟩
  · right; exact ⟨s', cur, ch, rk, T, _, by rw [bind_ok h1]; rfl, h2⟩

/-- When nothing is left on the stack every active relation has been applied. -/
theorem FInv.finished (hR : RelOk sF) (hP : Proper sF) (h : FInv sF K ch rk T cur [] [] s) : ∀ r, r < sF.nrel → U s r = false := by
  intro r hr
  cases hu : U s r with
  | false => rfl
  | true =>
      have h2 := h.two r hr hu (by simp)
      unfold unres at h2
      obtain ⟨t, ht⟩ := List.exists_mem_of_length_pos (show 0 < ((s.rel r).terms.filter fun t => !termResolved s t).length by omega)
      obtain ⟨ht1, ht2⟩ := List.mem_filter.mp ht
      rw [fl_terms h.fl] at ht1
      obtain ⟨n, hn⟩ := List.exists_mem_of_ne_nil _ (hP.nonempty r hr t ht1)
      obtain ⟨o, ho, -⟩ := hR.names r hr t ht1 n hn
      have hun : (s.cell o).resolved = false := by
        cases hx : (s.cell o).resolved with
        | false => rfl
        | true =>
            have : termResolved s t = true := termResolved_iff.mpr ⟨n, hn, o, by rw [fl_out h.fl]; exact ho, hx⟩
            rw [this] at ht2; cases ht2
      have := h.stk o hun (by
        rw [h.cnt o hun]
        unfold nU
        exact List.length_pos_of_mem (List.mem_filter.mpr ⟨by
          rw [fl_relations h.fl]
          exact (hR.rels o r).mpr ⟨hr, (hR.edges r hr o).mpr ⟨t, ht1, n, hn, ho⟩⟩, hu⟩))
      simp at this

/-- The attached cell of the highest priority is not derived. -/
theorem flow_top (hR : RelOk sF) (hP : Proper sF) (hS : FStart sF) {srt : Sorter} (hsrt : SortOk srt) {i : Nat} (hi : i ∈ flowCells sF)
    (htop : ∀ j ∈ flowCells sF, j ≠ i → sF.priority j < sF.priority i) {s' : Sheet N V} {pa : Bits} (hrun : flow srt sF = (.ok pa, s')) :
    (s'.cell i).term = none := by
  obtain ⟨hperm, hpw⟩ := hsrt sF.priority (flowCells sF)
  -- the cell is on the top of the stack
  obtain ⟨stack, hstack⟩ : ∃ stack, (srt sF.priority (flowCells sF)).reverse = i :: stack := by
    have hmem : i ∈ (srt sF.priority (flowCells sF)).reverse := List.mem_reverse.mpr (hperm.mem_iff.mpr hi)
    have hsort : (srt sF.priority (flowCells sF)).reverse.Pairwise (fun a b => sF.priority b ≤ sF.priority a) := by
      rw [List.pairwise_reverse]; exact hpw
    have hsub : ∀ j ∈ (srt sF.priority (flowCells sF)).reverse, j ∈ flowCells sF := fun j hj => hperm.mem_iff.mp (List.mem_reverse.mp hj)
    generalize (srt sF.priority (flowCells sF)).reverse = l at *
    cases l with
    | nil => simp at hmem
    | cons a l =>
        rcases List.mem_cons.mp hmem with rfl | hm
        · exact ⟨l, rfl⟩
        · by_cases hai : a = i
          · subst hai; exact ⟨l, rfl⟩
          · have h1 := (List.pairwise_cons.mp hsort).1 i hm
            have h2 := htop a (hsub a (by simp)) hai
            omega
  have hcnt : (sF.cell i).count ≠ 0 := by
    rw [hS.cnt]
    obtain ⟨r, hr, hu⟩ := (mem_flowCells hR).mp hi
    have : 0 < nU sF i := List.length_pos_of_mem (List.mem_filter.mpr ⟨hr, hu⟩)
    omega
  have hbound := pot_le_bound sF
  have hlen : (i :: stack).length = (flowCells sF).length := by rw [← hstack, List.length_reverse, hperm.length_eq]
  have hb1 : flowBound sF = (flowBound sF - 1) + 1 := by simp only [List.length_cons] at hlen; omega
  unfold flow at hrun
  simp only [bind_gets, id_eq, hstack] at hrun
  rw [hb1] at hrun
  rcases flowStep_ok hR hP (b := flowBound sF - 1) (ps := []) (stack := stack) (hS.inv hR hP 0 (i :: stack) (fun j hj => by
      rw [← hstack]; exact List.mem_reverse.mpr (hperm.mem_iff.mpr hj))) rfl (by simp) (by
      rw [← hstack, List.pairwise_reverse]; exact hpw) (by rw [hlen]; omega) (K' := [i]) (by
      intro j hj; right; exact ⟨by simpa using hj, hS.term i, hcnt⟩) with ⟨s'', he⟩ |
      ⟨s1, ps', base', stack', cur', ch', rk', T', g1, g2, g3, g4, g5, g6⟩
  · rw [bind_err he] at hrun; cases hrun
  · rcases flowLoop_ok hR hP _ ps' base' stack' cur' ch' rk' T' s1 g2 g3 g4 g5 g6 with ⟨s'', he⟩ | ⟨s2, cur, ch, rk, T, h1, h2⟩
    · rw [bind_err (g1.trans he)] at hrun; cases hrun
    · rw [bind_ok (g1.trans h1)] at hrun
      cases hrun
      exact (h2.kept i (by simp)).2

end Verif.Adam
