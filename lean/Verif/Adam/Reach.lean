import Verif.Adam.Finish
/-! The sheets which a client can build. -/
namespace Verif.Adam
variable {N V : Type} [DecidableEq N] [DecidableEq V] [Values V]
variable {s s' : Sheet N V}

theorem find_append (ix : Index N) (n : N) (i : Nat) (m : N) :
    Index.find (ix ++ [(n, i)]) m = match Index.find ix m with
      | some j => some j
      | none => if m = n then some i else none := by
  unfold Index.find
  induction ix with
  | nil =>
      simp only [List.nil_append, List.lookup_cons, List.lookup_nil]
      by_cases h : m = n
      · simp [h]
      · have : (m == n) = false := by simpa using h
        simp [h, this]
  | cons e ix ih =>
      obtain ⟨a, b⟩ := e
      simp only [List.cons_append, List.lookup_cons]
      by_cases h : (m == a) = true
      · simp [h]
      · simp only [h]; exact ih

theorem find_none_notMem {ix : Index N} {n : N} (h : ix.find n = none) : n ∉ ix.map (·.1) := by
  unfold Index.find at h
  rw [List.lookup_eq_none_iff] at h
  intro hm
  obtain ⟨e, he, rfl⟩ := List.mem_map.mp hm
  have := h e he
  simp at this

theorem mem_find {ix : Index N} (hnd : (ix.map (·.1)).Nodup) {e : N × Nat} (he : e ∈ ix) : ix.find e.1 = some e.2 := by
  unfold Index.find
  induction ix with
  | nil => cases he
  | cons a ix ih =>
      obtain ⟨a1, a2⟩ := a
      rw [List.map_cons, List.nodup_cons] at hnd
      rw [List.lookup_cons]
      rcases List.mem_cons.mp he with rfl | he
      · simp
      · have : (e.1 == a1) = false := by
          rw [beq_eq_false_iff_ne]
          rintro h
          rw [← h] at hnd
          exact hnd.1 (List.mem_map_of_mem (f := (·.1)) he)
        rw [this]
        exact ih hnd.2 he

theorem insert_new {ix : Index N} {n : N} (h : ix.find n = none) (i : Nat) : ix.insert n i = ix ++ [(n, i)] := by
  unfold Index.insert; simp [h]

theorem named_lt (hf : Fit s) {n : N} {i : Nat} (h : s.nameIndex.find n = some i) : i < s.size := (hf.wf.name n i h).1

theorem out_named (hf : Fit s) {n : N} {i : Nat} (h : s.outputIndex.find n = some i) : s.nameIndex.find n = some i :=
  ((hf.wf.output n i).mp h).1

/-- The cell which follows the last one is attached to nothing. -/
theorem edge_lt (hf : Fit s) {r o : Nat} (hr : r < s.nrel) (h : o ∈ (s.rel r).edges) : o < s.size := by
  obtain ⟨t, _, n, _, hn⟩ := (hf.rel.edges r hr o).mp h
  exact named_lt hf (out_named hf hn)

/-- Creating a cell which has no name: the input half of an interface cell. -/
theorem Fit.anon (hf : Fit s) {c : Cell N V} (hsize : s'.size = s.size + 1) (hcell : ∀ i, s'.cell i = if i = s.size then c else s.cell i)
    (hname : s'.nameIndex = s.nameIndex) (hin : s'.inputIndex = s.inputIndex) (hout : s'.outputIndex = s.outputIndex)
    (hinv : s'.invariants = s.invariants) (hrel : s'.rel = s.rel) (hnrel : s'.nrel = s.nrel) (hlow : s'.priorityLow = s.priorityLow)
    (hhigh : s.priorityHigh ≤ s'.priorityHigh) (hmode : s'.initMode = false) (hspec : c.spec = .interfaceInput) (hrels : c.relations = [])
    (hcount : c.initialCount = 0) (hprio : c.priority ≤ s'.priorityHigh) (hnoin : c.input = none) : Fit s' := by
  have hlt : ∀ i, i < s.size → s'.cell i = s.cell i := by intro i hi; rw [hcell, if_neg (by omega)]
  have hnm : ∀ n i, s.nameIndex.find n = some i → s'.cell i = s.cell i := fun n i h => hlt i (named_lt hf h)
  have hw := hf.wf
  refine ⟨⟨hmode, ?_, ?_, ?_, ?_, ?_, ?_, ?_, ?_, ?_, ?_, ?_, ?_⟩, ⟨?_, ?_, ?_, ?_, ?_, ?_, ?_⟩, ⟨?_, ?_, ?_⟩, ?_⟩
  · intro n i h
    rw [hname] at h
    rw [hsize, hnm n i h]
    have := hw.name n i h
    exact ⟨by omega, this.2⟩
  · intro n i h; rw [hname] at h; rw [hnm n i h]; exact hw.spec n i h
  · intro n i h hs
    rw [hname] at h; rw [hnm n i h] at hs ⊢
    obtain ⟨j, h1, h2, h3, h4, h5⟩ := hw.iface n i h hs
    exact ⟨j, h1, by omega, by rw [hlt j h2]; exact h3, by rw [hin]; exact h4, by rw [hlt j h2]; exact h5⟩
  · intro i hi
    rw [hcell] at hi ⊢
    split
    · exact hnoin
    · rename_i h; rw [if_neg h] at hi; exact hw.noInput i hi
  · intro n n' i i' j h h' hi hi'
    rw [hname] at h h'
    rw [hnm n i h] at hi; rw [hnm n' i' h'] at hi'
    exact hw.ifaceInj n n' i i' j h h' hi hi'
  · intro n i h; rw [hname] at h; rw [hnm n i h]; exact hw.calcExpr n i h
  · rw [hname, hsize]
    have : s.nameIndex.map (fun e => if (s'.cell e.2).spec = .interfaceOutput then 2 else 1) =
        s.nameIndex.map (fun e => if (s.cell e.2).spec = .interfaceOutput then 2 else 1) := by
      apply List.map_congr_left
      intro e he
      rw [hnm e.1 e.2 (mem_find hw.nodup he)]
    rw [this]
    have := hw.weights
    omega
  · intro n i
    rw [hout, hname, hw.output]
    constructor
    · rintro ⟨h1, h2⟩; rw [hnm n i h1]; exact ⟨h1, h2⟩
    · rintro ⟨h1, h2⟩; rw [hnm n i h1] at h2; exact ⟨h1, h2⟩
  · rw [hname]; exact hw.nodup
  · rw [hout]; exact hw.outNodup
  · intro i
    rw [hinv, hw.invs, hname]
    constructor
    · rintro ⟨n, h1, h2⟩; exact ⟨n, h1, by rw [hnm n i h1]; exact h2⟩
    · rintro ⟨n, h1, h2⟩; exact ⟨n, h1, by rw [hnm n i h1] at h2; exact h2⟩
  · intro i hi
    rw [hcell] at hi ⊢
    split
    · rename_i h; rw [if_pos h, hspec] at hi; simp at hi
    · rename_i h; rw [if_neg h] at hi; exact hw.base i hi
  · rw [hout]; exact hf.rel.inj
  · intro r hr t ht n hn
    rw [hnrel] at hr; rw [hrel] at ht; rw [hout]
    obtain ⟨o, h1, h2⟩ := hf.rel.names r hr t ht n hn
    exact ⟨o, h1, by rw [hnm n o (out_named hf h1)]; exact h2⟩
  · rw [hnrel, hrel, hout]; exact hf.rel.edges
  · rw [hnrel, hrel]; exact hf.rel.edgesNodup
  · intro o r
    rw [hnrel, hrel, hcell]
    split
    · rename_i h
      rw [hrels]
      constructor
      · intro h; cases h
      · rintro ⟨h1, h2⟩
        have := edge_lt hf h1 h2
        omega
    · exact hf.rel.rels o r
  · intro o; rw [hcell]; split
    · rw [hrels]; exact List.nodup_nil
    · exact hf.rel.relsNodup o
  · intro o; rw [hcell]; split
    · rw [hrels, hcount]; rfl
    · exact hf.rel.initial o
  · rw [hlow]; exact hf.prio.low
  · have := hf.prio.high; omega
  · intro i; rw [hcell]; split
    · exact hprio
    · have := hf.prio.le i; omega
  · intro n j
    rw [hin, hf.inp, hname]
    constructor
    · rintro ⟨i, h1, h2⟩; exact ⟨i, h1, by rw [hnm n i h1]; exact h2⟩
    · rintro ⟨i, h1, h2⟩; exact ⟨i, h1, by rw [hnm n i h1] at h2; exact h2⟩

/-- Creating a cell which has a name. -/
theorem Fit.named (hf : Fit s) {n : N} {c : Cell N V} (hnew : s.nameIndex.find n = none) (hsize : s'.size = s.size + 1)
    (hcell : ∀ i, s'.cell i = if i = s.size then c else s.cell i) (hname : s'.nameIndex = s.nameIndex ++ [(n, s.size)])
    (hin : s'.inputIndex = if c.spec = .input then s.inputIndex ++ [(n, s.size)] else match c.input with
      | some j => s.inputIndex ++ [(n, j)]
      | none => s.inputIndex)
    (hout : s'.outputIndex = if c.spec = .output ∨ c.spec = .interfaceOutput ∨ c.spec = .invariant then s.outputIndex ++ [(n, s.size)]
      else s.outputIndex)
    (hinv : s'.invariants = if c.spec = .invariant then s.invariants ++ [s.size] else s.invariants) (hrel : s'.rel = s.rel)
    (hnrel : s'.nrel = s.nrel) (hlow : s'.priorityLow = s.priorityLow) (hhigh : s.priorityHigh ≤ s'.priorityHigh)
    (hmode : s'.initMode = false) (hcn : c.name = n) (hspec : c.spec ≠ .interfaceInput) (hrels : c.relations = [])
    (hcount : c.initialCount = 0) (hprio : c.priority = 0) (hbase : c.spec = .input ∨ c.spec = .constant → c.evaluated = true)
    (hcalc : c.spec = .output ∨ c.spec = .logic ∨ c.spec = .invariant → ∃ p, c.calculator = .expr p)
    (hiface : c.spec = .interfaceOutput → ∃ j, c.input = some j ∧ j < s.size ∧ (s.cell j).spec = .interfaceInput ∧ (s.cell j).name = n ∧
      ∀ m i, s.nameIndex.find m = some i → (s.cell i).input ≠ some j)
    (hnoin : c.spec ≠ .interfaceOutput → c.input = none)
    (hwt : (s.nameIndex.map fun e => if (s.cell e.2).spec = .interfaceOutput then 2 else 1).sum +
      (if c.spec = .interfaceOutput then 2 else 1) ≤ s.size + 1) : Fit s' := by
  have hlt : ∀ i, i < s.size → s'.cell i = s.cell i := by intro i hi; rw [hcell, if_neg (by omega)]
  have hnm : ∀ n i, s.nameIndex.find n = some i → s'.cell i = s.cell i := fun n i h => hlt i (named_lt hf h)
  have hself : s'.cell s.size = c := by rw [hcell, if_pos rfl]
  have hw := hf.wf
  -- the index of names
  have hfind : ∀ m i, s'.nameIndex.find m = some i ↔ s.nameIndex.find m = some i ∨ (m = n ∧ i = s.size) := by
    intro m i
    rw [hname, find_append]
    by_cases hm : m = n
    · subst hm; rw [hnew]; simp only [if_true, Option.some.injEq]
      constructor
      · intro h; exact Or.inr ⟨trivial, h.symm⟩
      · rintro (h | h)
        · cases h
        · exact h.2.symm
    · cases hm' : Index.find s.nameIndex m with
      | none => simp [hm]
      | some j => simp [hm]
  have hnewO : s.outputIndex.find n = none := by
    cases h : s.outputIndex.find n with
    | none => rfl
    | some i => rw [out_named hf h] at hnew; cases hnew
  have hnewI : s.inputIndex.find n = none := by
    cases h : s.inputIndex.find n with
    | none => rfl
    | some i => obtain ⟨j, h', _⟩ := (hf.inp n i).mp h; rw [h'] at hnew; cases hnew
  have hfindO : ∀ m i, s'.outputIndex.find m = some i ↔ s.outputIndex.find m = some i ∨
      (m = n ∧ i = s.size ∧ (c.spec = .output ∨ c.spec = .interfaceOutput ∨ c.spec = .invariant)) := by
    intro m i
    rw [hout]
    split
    · rename_i hsp
      rw [find_append]
      by_cases hm : m = n
      · subst hm; rw [hnewO]; simp only [if_true, Option.some.injEq, hsp, and_true]
        constructor
        · intro h; exact Or.inr ⟨trivial, h.symm⟩
        · rintro (h | h)
          · cases h
          · exact h.2.symm
      · cases hm' : Index.find s.outputIndex m with
        | none => simp [hm]
        | some j => simp [hm]
    · rename_i hsp
      simp [hsp]
  have hfindI : ∀ m j, s'.inputIndex.find m = some j ↔ s.inputIndex.find m = some j ∨
      (m = n ∧ ((c.spec = .input ∧ j = s.size) ∨ c.input = some j)) := by
    intro m j
    have happ : ∀ x, Index.find (s.inputIndex ++ [(n, x)]) m = some j ↔ s.inputIndex.find m = some j ∨ (m = n ∧ j = x) := by
      intro x
      rw [find_append]
      by_cases hm : m = n
      · subst hm; rw [hnewI]; simp only [if_true, Option.some.injEq]
        constructor
        · intro h; exact Or.inr ⟨trivial, h.symm⟩
        · rintro (h | h)
          · cases h
          · exact h.2.symm
      · cases hm' : Index.find s.inputIndex m with
        | none => simp [hm]
        | some j => simp [hm]
    rw [hin]
    split
    · rename_i hsp
      rw [happ, hnoin (by rw [hsp]; simp)]
      simp [hsp]
    · rename_i hsp
      cases hci : c.input with
      | none => simp [hsp]
      | some x =>
          rw [happ]
          simp only [hsp, false_and, false_or, Option.some.injEq]
          refine or_congr Iff.rfl (and_congr Iff.rfl ⟨Eq.symm, Eq.symm⟩)
  refine ⟨⟨hmode, ?_, ?_, ?_, ?_, ?_, ?_, ?_, ?_, ?_, ?_, ?_, ?_⟩, ⟨?_, ?_, ?_, ?_, ?_, ?_, ?_⟩, ⟨?_, ?_, ?_⟩, ?_⟩
  · intro m i h
    rw [hsize]
    rcases (hfind m i).mp h with h | ⟨rfl, rfl⟩
    · rw [hnm m i h]
      have := hw.name m i h
      exact ⟨by omega, this.2⟩
    · rw [hself]; exact ⟨by omega, hcn⟩
  · intro m i h
    rcases (hfind m i).mp h with h | ⟨rfl, rfl⟩
    · rw [hnm m i h]; exact hw.spec m i h
    · rw [hself]; exact hspec
  · intro m i h hs
    rcases (hfind m i).mp h with h | ⟨rfl, rfl⟩
    · rw [hnm m i h] at hs ⊢
      obtain ⟨j, h1, h2, h3, h4, h5⟩ := hw.iface m i h hs
      exact ⟨j, h1, by omega, by rw [hlt j h2]; exact h3, (hfindI m j).mpr (Or.inl h4), by rw [hlt j h2]; exact h5⟩
    · rw [hself] at hs ⊢
      obtain ⟨j, h1, h2, h3, h4, h5⟩ := hiface hs
      exact ⟨j, h1, by omega, by rw [hlt j h2]; exact h3, (hfindI m j).mpr (Or.inr ⟨rfl, Or.inr h1⟩), by rw [hlt j h2]; exact h4⟩
  · intro i hi
    rw [hcell] at hi ⊢
    split
    · rename_i h; rw [if_pos h] at hi; exact hnoin hi
    · rename_i h; rw [if_neg h] at hi; exact hw.noInput i hi
  · intro m m' i i' j h h' hi hi'
    rcases (hfind m i).mp h with h | ⟨rfl, rfl⟩ <;> rcases (hfind m' i').mp h' with h' | ⟨rfl, rfl⟩
    · rw [hnm m i h] at hi; rw [hnm m' i' h'] at hi'
      exact hw.ifaceInj m m' i i' j h h' hi hi'
    · rw [hself] at hi'
      rw [hnm m i h] at hi
      have hsp : c.spec = .interfaceOutput := by by_contra hsp; rw [hnoin hsp] at hi'; cases hi'
      obtain ⟨j', h1, _, _, _, h5⟩ := hiface hsp
      rw [hi'] at h1; cases h1
      exact absurd hi (h5 m i h)
    · rw [hself] at hi
      rw [hnm m' i' h'] at hi'
      have hsp : c.spec = .interfaceOutput := by by_contra hsp; rw [hnoin hsp] at hi; cases hi
      obtain ⟨j', h1, _, _, _, h5⟩ := hiface hsp
      rw [hi] at h1; cases h1
      exact absurd hi' (h5 m' i' h')
    · rfl
  · intro m i h
    rcases (hfind m i).mp h with h | ⟨rfl, rfl⟩
    · rw [hnm m i h]; exact hw.calcExpr m i h
    · rw [hself]; exact hcalc
  · rw [hname, hsize, List.map_append, List.sum_append]
    have : s.nameIndex.map (fun e => if (s'.cell e.2).spec = .interfaceOutput then 2 else 1) =
        s.nameIndex.map (fun e => if (s.cell e.2).spec = .interfaceOutput then 2 else 1) := by
      apply List.map_congr_left
      intro e he
      rw [hnm e.1 e.2 (mem_find hw.nodup he)]
    rw [this]
    simp only [List.map_cons, List.map_nil, List.sum_cons, List.sum_nil, hself, Nat.add_zero]
    exact hwt
  · intro m i
    rw [hfindO, hfind, hw.output]
    constructor
    · rintro (⟨h1, h2⟩ | ⟨h1, h2, h3⟩)
      · exact ⟨Or.inl h1, by rw [hnm m i h1]; exact h2⟩
      · exact ⟨Or.inr ⟨h1, h2⟩, by rw [h2, hself]; exact h3⟩
    · rintro ⟨h1 | ⟨h1, h2⟩, h3⟩
      · left; rw [hnm m i h1] at h3; exact ⟨h1, h3⟩
      · right; rw [h2, hself] at h3; exact ⟨h1, h2, h3⟩
  · rw [hname, List.map_append, List.nodup_append]
    refine ⟨hw.nodup, by simp, ?_⟩
    intro a ha b hb
    simp only [List.map_cons, List.map_nil, List.mem_singleton] at hb
    subst hb
    rintro rfl
    exact find_none_notMem hnew ha
  · rw [hout]
    split
    · rw [List.map_append, List.nodup_append]
      refine ⟨hw.outNodup, by simp, ?_⟩
      intro a ha b hb
      simp only [List.map_cons, List.map_nil, List.mem_singleton] at hb
      subst hb
      rintro rfl
      exact find_none_notMem hnewO ha
    · exact hw.outNodup
  · intro i
    have hmem : i ∈ s'.invariants ↔ i ∈ s.invariants ∨ (i = s.size ∧ c.spec = .invariant) := by
      rw [hinv]; split
      · rename_i h; simp [h]
      · rename_i h; simp [h]
    rw [hmem, hw.invs]
    constructor
    · rintro (⟨m, h1, h2⟩ | ⟨h1, h2⟩)
      · exact ⟨m, (hfind m i).mpr (Or.inl h1), by rw [hnm m i h1]; exact h2⟩
      · exact ⟨n, (hfind n i).mpr (Or.inr ⟨rfl, h1⟩), by rw [h1, hself]; exact h2⟩
    · rintro ⟨m, h1, h2⟩
      rcases (hfind m i).mp h1 with h | ⟨rfl, rfl⟩
      · left; exact ⟨m, h, by rw [hnm m i h] at h2; exact h2⟩
      · right; exact ⟨rfl, by rw [hself] at h2; exact h2⟩
  · intro i hi
    rw [hcell] at hi ⊢
    split
    · rename_i h; rw [if_pos h] at hi; exact hbase hi
    · rename_i h; rw [if_neg h] at hi; exact hw.base i hi
  · intro m m' o h h'
    rcases (hfindO m o).mp h with h | ⟨h, h1, _⟩ <;> rcases (hfindO m' o).mp h' with h' | ⟨h', h1', _⟩
    · exact hf.rel.inj m m' o h h'
    · have := named_lt hf (out_named hf h); omega
    · have := named_lt hf (out_named hf h'); omega
    · rw [h, h']
  · intro r hr t ht m hm
    rw [hnrel] at hr; rw [hrel] at ht
    obtain ⟨o, h1, h2⟩ := hf.rel.names r hr t ht m hm
    exact ⟨o, (hfindO m o).mpr (Or.inl h1), by rw [hnm m o (out_named hf h1)]; exact h2⟩
  · intro r hr o
    rw [hnrel] at hr
    rw [hrel, hf.rel.edges r hr]
    constructor
    · rintro ⟨t, ht, m, hm, h⟩; exact ⟨t, ht, m, hm, (hfindO m o).mpr (Or.inl h)⟩
    · rintro ⟨t, ht, m, hm, h⟩
      obtain ⟨o', h1, _⟩ := hf.rel.names r hr t ht m hm
      refine ⟨t, ht, m, hm, ?_⟩
      have := (hfindO m o').mpr (Or.inl h1)
      rw [h] at this; cases this
      exact h1
  · rw [hnrel, hrel]; exact hf.rel.edgesNodup
  · intro o r
    rw [hnrel, hrel, hcell]
    split
    · rw [hrels]
      constructor
      · intro h; cases h
      · rintro ⟨h1, h2⟩
        have := edge_lt hf h1 h2
        omega
    · exact hf.rel.rels o r
  · intro o; rw [hcell]; split
    · rw [hrels]; exact List.nodup_nil
    · exact hf.rel.relsNodup o
  · intro o; rw [hcell]; split
    · rw [hrels, hcount]; rfl
    · exact hf.rel.initial o
  · rw [hlow]; exact hf.prio.low
  · have := hf.prio.high; omega
  · intro i; rw [hcell]; split
    · rw [hprio]; have := hf.prio.high; omega
    · have := hf.prio.le i; omega
  · intro m j
    rw [hfindI, hf.inp]
    constructor
    · rintro (⟨i, h1, h2⟩ | ⟨h1, h2⟩)
      · exact ⟨i, (hfind m i).mpr (Or.inl h1), by rw [hnm m i h1]; exact h2⟩
      · exact ⟨s.size, (hfind m _).mpr (Or.inr ⟨h1, rfl⟩), by rw [hself]; exact h2⟩
    · rintro ⟨i, h1, h2⟩
      rcases (hfind m i).mp h1 with h | ⟨rfl, rfl⟩
      · left; exact ⟨i, h, by rw [hnm m i h] at h2; exact h2⟩
      · right; exact ⟨rfl, by rw [hself] at h2; exact h2⟩

end Verif.Adam
