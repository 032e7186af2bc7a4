import Verif.Adam.Cond
/-! The whole of `update`. -/
namespace Verif.Adam
variable {N V : Type} [DecidableEq N] [DecidableEq V] [Values V]
variable {s : Sheet N V}

theorem stat_relations {s s' : Sheet N V} (h : s.stat = s'.stat) (i : Nat) : (s.cell i).relations = (s'.cell i).relations :=
  by have := congrArg Cell.relations (stat_cell h i); exact this
theorem stat_resolved {s s' : Sheet N V} (h : s.stat = s'.stat) (i : Nat) : (s.cell i).resolved = (s'.cell i).resolved :=
  by have := congrArg Cell.resolved (stat_cell h i); exact this
theorem stat_initialCount {s s' : Sheet N V} (h : s.stat = s'.stat) (i : Nat) : (s.cell i).initialCount = (s'.cell i).initialCount :=
  by have := congrArg Cell.initialCount (stat_cell h i); exact this
theorem stat_priority {s s' : Sheet N V} (h : s.stat = s'.stat) (i : Nat) : (s.cell i).priority = (s'.cell i).priority :=
  by have := congrArg Cell.priority (stat_cell h i); exact this
theorem stat_rel {s s' : Sheet N V} (h : s.stat = s'.stat) : s.rel = s'.rel := by have := congrArg Sheet.rel h; exact this
theorem stat_nrel {s s' : Sheet N V} (h : s.stat = s'.stat) : s.nrel = s'.nrel := by have := congrArg Sheet.nrel h; exact this

theorem Pre.stat {s s' : Sheet N V} (h : Pre s) (hs : s'.stat = s.stat) : Pre s' := by
  have h1 := stat_input hs; have h2 := stat_relations hs; have h3 := stat_outputIndex hs; have h4 := stat_rel hs
  have h5 := stat_nrel hs; have h6 := stat_initialCount hs; have h7 := stat_count hs; have h8 := stat_resolved hs; have h9 := stat_term hs
  have hr := h.rel
  refine ⟨⟨?_, ?_, ?_, ?_, ?_, ?_, ?_⟩, ⟨?_, ?_, ?_⟩⟩
  · rw [h3]; exact hr.inj
  · intro r; rw [h5, h4, h3]
    intro a t ht n hn
    obtain ⟨o, b, c⟩ := hr.names r a t ht n hn
    exact ⟨o, b, by rw [h1]; exact c⟩
  · rw [h5, h4, h3]; exact hr.edges
  · rw [h5, h4]; exact hr.edgesNodup
  · intro o r; rw [h2, h5, h4]; exact hr.rels o r
  · intro o; rw [h2]; exact hr.relsNodup o
  · intro o; rw [h2, h6]; exact hr.initial o
  · intro i; rw [h7, h.start.cnt]; exact (nU_congr (h2 i) fun r _ => by simp [U, h4]).symm
  · intro i; rw [h2, h8]; exact h.start.res i
  · intro i; rw [h9]; exact h.start.term i

/-! ### The start -/

theorem startUpdate_wf (h : WF s) : WF (startUpdate s) := by
  refine h.congr rfl rfl rfl rfl rfl rfl (fun i => ⟨rfl, rfl, rfl, rfl⟩) ?_
  intro i hi
  show decide _ = true
  simpa using hi

theorem startUpdate_pre (h : WF s) (hr : RelOk s) : Pre (startUpdate s) := by
  refine ⟨⟨hr.inj, hr.names, hr.edges, hr.edgesNodup, hr.rels, hr.relsNodup, hr.initial⟩, ?_, ?_, ?_⟩
  · intro i
    show (s.cell i).initialCount = _
    rw [hr.initial]
    unfold nU
    rw [List.filter_eq_self.mpr]
    · rfl
    · intro r _; rfl
  · intro i hi
    obtain ⟨r, hr'⟩ := List.exists_mem_of_ne_nil _ hi
    obtain ⟨h1, h2⟩ := (hr.rels i r).mp hr'
    obtain ⟨t, ht, n, hn, hf⟩ := (hr.edges r h1 i).mp h2
    obtain ⟨o, ho, hi⟩ := hr.names r h1 t ht n hn
    rw [hf] at ho; cases ho
    have hsp : (s.cell i).spec = .interfaceOutput := by
      by_contra hsp; rw [h.noInput i hsp] at hi; cases hi
    show decide _ = false
    simp [hsp]
  · intro i; rfl

theorem startUpdate_ev : Ev (startUpdate s) (startUpdate s) := Ev.start fun _ => rfl

/-! ### The directed sheet -/

/-- The relation takes part: it has no conditional, or its conditional is not false. -/
def Active (s : Sheet N V) (r : Nat) : Prop := r < s.nrel ∧ ¬ CondVal (startUpdate s) r false

/-- `d` is `s` with one term of each active relation, `ch r`, chosen to derive its cells. -/
structure Directed (s d : Sheet N V) (ch : Nat → Nat) : Prop where
  nameIndex : d.nameIndex = s.nameIndex
  outputIndex : d.outputIndex = s.outputIndex
  cell : ∀ i, (d.cell i).spec = (s.cell i).spec ∧ (d.cell i).name = (s.cell i).name ∧ (d.cell i).calculator = (s.cell i).calculator ∧
    (d.cell i).input = (s.cell i).input ∧ (d.cell i).linked = (s.cell i).linked ∧ (d.cell i).state = (s.cell i).state ∧
    (d.cell i).contributing = (s.cell i).contributing
  free : ∀ i, (d.cell i).count = 0
  applied : ∀ r, Active s r → ∃ t, (s.rel r).terms[ch r]? = some t ∧
    ∀ p n i, t.names[p]? = some n → s.outputIndex.find n = some i → (d.cell i).term = some (termAt t p)
  only : ∀ i x, (d.cell i).term = some x → ∃ r t p n, Active s r ∧ (s.rel r).terms[ch r]? = some t ∧ t.names[p]? = some n ∧
    s.outputIndex.find n = some i ∧ x = termAt t p

/-- How the terms were chosen: `rk` orders the derived cells after what they are derived from, and priorities decide. -/
def Ranked (s d : Sheet N V) (ch rk : Nat → Nat) : Prop :=
  ∀ r t, Active s r → (s.rel r).terms[ch r]? = some t → ∀ k' t', k' ≠ ch r → (s.rel r).terms[k']? = some t' →
    ∃ n ∈ t'.names, ∃ i, s.outputIndex.find n = some i ∧ ∀ n' ∈ t.names, ∀ o, s.outputIndex.find n' = some o →
      rk i < rk o ∧ ((d.cell i).term.isSome = true ∨ s.priority o ≤ s.priority i)

/-- The part of `update` which comes before the loop over the output cells. -/
def prepare (srt : Sorter) : M N V Bits := do
  modify startUpdate
  conditionals (List.range (← gets (·.nrel)))
  modify fun s => { s with condContributing := s.accumulate }
  flow srt

/-- The part which comes after. -/
def finishUpdate (pa : Bits) (ord : List Nat) : M N V (List (Event N V)) := do
  calcOutputs ord
  let poison ← poisonLoop 0 (← gets (·.invariants))
  let (ev, active) ← notify poison pa ord
  modify fun s => { s with priorityAccessed := pa, active := active }
  pure (ev ++ [.enabled pa active])

theorem bind_assoc' {α β γ : Type} (x : M N V α) (f : α → M N V β) (g : β → M N V γ) :
    (x >>= f) >>= g = x >>= fun a => f a >>= g := by
  funext s
  simp only [bind_run]
  cases x s with
  | mk r s' => cases r <;> rfl

theorem update_split (srt : Sorter) (ord : List Nat) : update (V := V) (N := N) srt ord = prepare srt >>= fun pa => finishUpdate pa ord := by
  unfold update prepare finishUpdate
  funext s
  simp only [bind_run, modify_run, gets_run]
  repeat (first | rfl | split)
  all_goals simp_all

theorem bitsOf_testBit (l : List Nat) (k : Nat) : (bitsOf l).testBit k = true ↔ k ∈ l := by
  have h : ∀ (l : List Nat) (b : Bits), (l.foldl (fun b i => b ||| Bits.single i) b).testBit k = true ↔ b.testBit k = true ∨ k ∈ l := by
    intro l
    induction l with
    | nil => intro b; simp
    | cons i l ih =>
        intro b
        rw [List.foldl_cons, ih]
        simp only [Nat.testBit_or, Bool.or_eq_true, List.mem_cons, Bits.single, Nat.testBit_two_pow, decide_eq_true_eq]
        constructor
        · rintro ((h | h) | h)
          · exact Or.inl h
          · exact Or.inr (Or.inl h.symm)
          · exact Or.inr (Or.inr h)
        · rintro (h | h | h)
          · exact Or.inl (Or.inl h)
          · exact Or.inl (Or.inr h.symm)
          · exact Or.inr h
  unfold bitsOf
  rw [h]
  simp

theorem flow_bits {srt : Sorter} {s s' : Sheet N V} {pa : Bits} (h : flow srt s = (.ok pa, s')) :
    pa = bitsOf ((srt s.priority (flowCells s)).filterMap fun i => (s.cell i).input) := by
  unfold flow at h
  simp only [bind_gets, id] at h
  rw [bind_run] at h
  split at h
  · have := (Prod.mk.inj h).1
    exact (Except.ok.inj this).symm
  · cases h

/-- The first half of `update`. -/
theorem prepare_ok (hw : WF s) (hr : RelOk s) (hP : Proper s) (hst : s.getStack = []) (hcond : CondOk (startUpdate s)) {srt : Sorter}
    (hsrt : SortOk srt) :
    (∃ s', prepare srt s = (.error .overConstrained, s')) ∨
    ∃ pa s' d ch rk, prepare srt s = (.ok pa, s') ∧ WF d ∧ Directed s d ch ∧ Ranked s d ch rk ∧ Ev d s' ∧ s'.getStack = [] ∧ Links d s' [] ∧
      s'.invariants = s.invariants ∧ s'.hasOutput = s.hasOutput ∧ (∀ i, (s'.cell i).invariant = (s.cell i).invariant) ∧
      (∀ r, r < s.nrel → CondBits (startUpdate s) r d.condContributing) ∧
      (∀ e, EnvLe (rhs (startUpdate s) e) (rhs d e)) ∧
      (∀ i, (∃ r ∈ (s.cell i).relations, Active s r) → (∀ j, j ≠ i → (∃ r ∈ (s.cell j).relations, Active s r) → s.priority j < s.priority i) →
        (d.cell i).term = none) ∧
      (∀ k, pa.testBit k = true ↔ ∃ i, (∃ r ∈ (s.cell i).relations, Active s r) ∧ (s.cell i).input = some k) := by
  have hwA := startUpdate_wf hw
  have hpA := startUpdate_pre hw hr
  have hUA : ∀ r, U (startUpdate s) r = true := fun r => rfl
  obtain ⟨s0C, sC, h1, h2, h3, h4, h5, h6, h7, h8, h9, h10, h11, h12⟩ := conditionals_ok (List.range s.nrel) (startUpdate s) (startUpdate s) hwA hpA
    startUpdate_ev hst rfl List.nodup_range (fun r hr => ⟨List.mem_range.mp hr, hUA r⟩) (fun r hr => hcond r (List.mem_range.mp hr))
  have hccC : s0C.condContributing = 0 := fl_condContributing h6
  have hact : ∀ r, r < s.nrel → (U s0C r = true ↔ Active s r) := by
    intro r hr'
    rw [h8]
    simp [hUA, Active, hr', List.mem_range]
  unfold prepare
  simp only [bind_modify, bind_gets]
  rw [show (startUpdate s).nrel = s.nrel from rfl, bind_ok h1]
  simp only [bind_modify]
  -- the sheet with the contributors of the conditionals
  obtain ⟨sD, hsD⟩ : ∃ sD : Sheet N V, sD = { sC with condContributing := sC.accumulate } := ⟨_, rfl⟩
  obtain ⟨s0D, hs0D⟩ : ∃ s0D : Sheet N V, s0D = { s0C with condContributing := sC.accumulate } := ⟨_, rfl⟩
  rw [← hsD]
  have hevD : Ev s0D sD := by
    refine h4.transfer ?_ (by rw [hs0D]) (by rw [hsD]) (fun i => by rw [hs0D]; exact ⟨rfl, rfl, rfl, rfl⟩)
      (fun i => by rw [hsD]; exact ⟨rfl, rfl, rfl, rfl⟩) ?_ ?_
    · rw [hsD, hs0D]
      have := congrArg (fun x : Sheet N V => { x with condContributing := sC.accumulate }) h4.stat
      exact this
    · intro e; rw [hs0D]; exact EnvLe.refl _
    · intro b x hb
      rw [hccC] at hb
      intro k
      have := hb k
      simp only [Nat.zero_testBit, Bool.false_eq_true, or_false] at this
      exact ⟨this.1, fun h => Or.inl (this.2 h)⟩
  have hpD0 : Pre s0D := by
    rw [hs0D]; exact ⟨⟨h3.rel.inj, h3.rel.names, h3.rel.edges, h3.rel.edgesNodup, h3.rel.rels, h3.rel.relsNodup, h3.rel.initial⟩,
      ⟨h3.start.cnt, h3.start.res, h3.start.term⟩⟩
  have hpD : Pre sD := hpD0.stat hevD.stat
  -- what is the same as in the beginning
  have hterms : ∀ r, (sD.rel r).terms = (s.rel r).terms := by
    intro r; rw [stat_rel hevD.stat, hs0D]; exact fl_terms h6 r
  have hnrel : sD.nrel = s.nrel := by rw [stat_nrel hevD.stat, hs0D]; have := fl_nrel h6; exact this
  have hout : sD.outputIndex = s.outputIndex := by rw [stat_outputIndex hevD.stat, hs0D]; have := fl_out h6; exact this
  have hrels : ∀ i, (sD.cell i).relations = (s.cell i).relations := by
    intro i; rw [stat_relations hevD.stat, hs0D]; exact fl_relations h6 i
  have hPD : Proper sD := ⟨fun r hr => by rw [hterms]; exact hP.two r (by rwa [hnrel] at hr),
    fun r hr => by rw [hterms]; exact hP.nonempty r (by rwa [hnrel] at hr), fun r hr => by rw [hterms]; exact hP.nodup r (by rwa [hnrel] at hr)⟩
  have hUD : ∀ r, U sD r = U s0C r := by intro r; unfold U; rw [stat_rel hevD.stat, hs0D]
  have hactD : ∀ r, r < s.nrel → (U sD r = true ↔ Active s r) := by intro r hr'; rw [hUD]; exact hact r hr'
  have hpriC : ∀ i, (s0C.cell i).priority = (s.cell i).priority := by
    intro i; exact (h12 i).1
  have hpriD : ∀ i, sD.priority i = s.priority i := by
    intro i
    unfold Sheet.priority
    have : (sD.cell i).input = (s.cell i).input := by rw [stat_input hevD.stat, hs0D]; exact fl_input h6 i
    have hp : ∀ j, (sD.cell j).priority = (s.cell j).priority := by
      intro j; rw [stat_priority hevD.stat, hs0D]; exact hpriC j
    rw [this]
    cases (s.cell i).input with
    | none => exact hp i
    | some j => exact hp j
  rcases flow_ok hpD.rel hPD hpD.start hsrt with ⟨s', he⟩ | ⟨sE, cur, ch, rk, T, pa, hrun, hF⟩
  · left; exact ⟨s', he⟩
  · right
    have hfin := hF.finished hpD.rel hPD
    obtain ⟨d, hd⟩ : ∃ d : Sheet N V, d = { sE with cell := fun i => { sE.cell i with
        state := (s0C.cell i).state, dirty := (s0C.cell i).dirty, evaluated := (s0C.cell i).evaluated,
        contributing := (s0C.cell i).contributing } } := ⟨_, rfl⟩
    have hflc : ∀ i, (sE.cell i).fl = (sD.cell i).fl := fl_cell hF.fl
    have hspecE : ∀ i, (sE.cell i).spec = (s0C.cell i).spec := by
      intro i; have := congrArg Cell.spec (hflc i); refine Eq.trans this ?_
      show (sD.cell i).spec = _
      rw [stat_spec hevD.stat, hs0D]
    have hnameE : ∀ i, (sE.cell i).name = (s0C.cell i).name := by
      intro i; have := congrArg Cell.name (hflc i); refine Eq.trans this ?_
      show (sD.cell i).name = _
      rw [stat_name hevD.stat, hs0D]
    have hinE : ∀ i, (sE.cell i).input = (s0C.cell i).input := by
      intro i; have := congrArg Cell.input (hflc i); refine Eq.trans this ?_
      show (sD.cell i).input = _
      rw [stat_input hevD.stat, hs0D]
    have hcalcE : ∀ i, (sE.cell i).calculator = (s0C.cell i).calculator := by
      intro i; have := congrArg Cell.calculator (hflc i); refine Eq.trans this ?_
      show (sD.cell i).calculator = _
      rw [stat_calculator hevD.stat, hs0D]
    have hlinkE : ∀ i, (sE.cell i).linked = (s0C.cell i).linked := by
      intro i; have := congrArg Cell.linked (hflc i); refine Eq.trans this ?_
      show (sD.cell i).linked = _
      rw [stat_linked hevD.stat, hs0D]
    have hidx : sE.nameIndex = s0C.nameIndex := by
      have := congrArg Sheet.nameIndex hF.fl; refine Eq.trans this ?_
      show sD.nameIndex = _
      rw [stat_nameIndex hevD.stat, hs0D]
    have hmode : sE.initMode = s0C.initMode := by
      have := congrArg Sheet.initMode hF.fl; refine Eq.trans this ?_
      show sD.initMode = _
      rw [stat_initMode hevD.stat, hs0D]
    have hsizeE : sE.size = s0C.size := by
      have := congrArg Sheet.size hF.fl; refine Eq.trans this ?_
      show sD.size = _
      rw [stat_size hevD.stat, hs0D]
    have hinI : sE.inputIndex = s0C.inputIndex := by
      have := congrArg Sheet.inputIndex hF.fl; refine Eq.trans this ?_
      have := congrArg Sheet.inputIndex hevD.stat; refine Eq.trans this ?_
      rw [hs0D]; rfl
    have houtI : sE.outputIndex = s0C.outputIndex := by
      have := congrArg Sheet.outputIndex hF.fl; refine Eq.trans this ?_
      show sD.outputIndex = _
      rw [stat_outputIndex hevD.stat, hs0D]
    have hinvI : sE.invariants = s0C.invariants := by
      have := congrArg Sheet.invariants hF.fl; refine Eq.trans this ?_
      have := congrArg Sheet.invariants hevD.stat; refine Eq.trans this ?_
      rw [hs0D]; rfl
    -- the counts
    have hfree : ∀ i, (sE.cell i).count = 0 := by
      intro i
      cases hres : (sE.cell i).resolved with
      | true =>
          by_cases hic : i = cur
          · subst hic; have := hF.curC hres; simpa using this
          · exact hF.done i hres hic
      | false =>
          rw [hF.cnt i hres]
          unfold nU
          rw [List.length_eq_zero_iff, List.filter_eq_nil_iff]
          intro r hr'
          rw [fl_relations hF.fl] at hr'
          rw [hfin r ((hpD.rel.rels i r).mp hr').1]; simp
    have hdwf : WF d := by
      rw [hd]
      exact h2.congr hmode hidx hinI houtI hinvI hsizeE (fun i => ⟨hspecE i, hnameE i, hinE i, hcalcE i⟩) (fun i hi => h2.base i hi)
    -- cells which had a value before have the same value now
    have hrhs : ∀ e, EnvLe (rhs s0D e) (rhs d e) := by
      intro e n w hw'
      obtain ⟨i, hi⟩ := rhs_some hw'
      have hi' : s0C.nameIndex.find n = some i := by rw [hs0D] at hi; exact hi
      have hid : d.nameIndex.find n = some i := by rw [hd]; show sE.nameIndex.find n = some i; rw [hidx]; exact hi'
      have hc0 : s0D.cell = s0C.cell := by rw [hs0D]
      by_cases hb : (s0D.cell i).spec = .input ∨ (s0D.cell i).spec = .constant
      · rw [rhs_base hi hb] at hw'
        rw [rhs_base hid (by rw [hd]; show (sE.cell i).spec = _ ∨ (sE.cell i).spec = _; rw [hspecE, ← hc0]; exact hb), hd]
        rw [hc0] at hw'; exact hw'
      · by_cases hcz : (s0D.cell i).count = 0
        · have hfar : Same (sD.cell i) (sE.cell i) := by
            apply hF.far
            intro r hr'
            cases hu : U sD r with
            | false => rfl
            | true =>
                have : 0 < nU s0D i := by
                  unfold nU
                  refine List.length_pos_of_mem (List.mem_filter.mpr ⟨?_, ?_⟩) (a := r)
                  · rw [← stat_relations hevD.stat]; exact hr'
                  · have : U s0D r = U sD r := by unfold U; rw [stat_rel hevD.stat]
                    rw [this]; exact hu
                rw [hpD0.start.cnt] at hcz
                omega
          have hterm : (d.cell i).term = (s0D.cell i).term := by
            rw [hd]; show (sE.cell i).term = _
            rw [hfar.2.2, stat_term hevD.stat]
          have hdi : (d.cell i).spec = (s0D.cell i).spec ∧ (d.cell i).count = (s0D.cell i).count ∧ (d.cell i).input = (s0D.cell i).input ∧
              (d.cell i).calculator = (s0D.cell i).calculator := by
            rw [hd, hc0]
            exact ⟨hspecE i, by show (sE.cell i).count = _; rw [hfree, ← hc0, hcz], hinE i, hcalcE i⟩
          have hst' : ∀ j, (d.cell j).state = (s0D.cell j).state ∧ (d.cell j).contributing = (s0D.cell j).contributing := by
            intro j; rw [hd, hc0]; exact ⟨rfl, rfl⟩
          unfold rhs at hw' ⊢
          simp only [hi, hid, hdi.1, hdi.2.1, hdi.2.2.1, hdi.2.2.2, hterm, (hst' _).1, (hst' _).2] at hw' ⊢
          exact hw'
        · unfold rhs at hw'
          simp only [hi, if_neg hb, hcz, ne_eq, not_false_eq_true, if_true] at hw'
          cases hw'
    have hdstat : sE.stat = d.stat := by rw [hd]; rfl
    have hevE : Ev d sE := by
      refine hevD.transfer hdstat ?_ ?_ ?_ ?_ hrhs ?_
      · rw [hd, hs0D]; exact hidx
      · rw [hidx, hsD]; exact (stat_nameIndex h4.stat).symm
      · intro i; rw [hd, hs0D]; exact ⟨hspecE i, hinE i, rfl, rfl⟩
      · intro i
        have h := hflc i
        have a1 := congrArg Cell.state h; have a2 := congrArg Cell.contributing h
        have a3 := congrArg Cell.evaluated h; have a4 := congrArg Cell.dirty h
        exact ⟨a1, a2, a3, a4⟩
      · intro b x hb
        have : d.condContributing = s0D.condContributing := by
          rw [hd]; show sE.condContributing = _
          rw [fl_condContributing hF.fl, stat_cond hevD.stat]
        rw [this]; exact hb
    have hccd : d.condContributing = sC.accumulate := by
      rw [hd]; show sE.condContributing = _
      rw [fl_condContributing hF.fl, hsD]
    have hC0 : ∀ i, (s0C.cell i).fl = ((startUpdate s).cell i).fl := fl_cell h6
    have hdir : Directed s d ch := by
      constructor
      · rw [hd]; show sE.nameIndex = _
        rw [hidx]; have := congrArg Sheet.nameIndex h6; exact this
      · rw [hd]; show sE.outputIndex = _
        rw [houtI]; have := fl_out h6; exact this
      · intro i
        have h := hC0 i
        have a1 := congrArg Cell.spec h; have a2 := congrArg Cell.name h; have a3 := congrArg Cell.calculator h
        have a4 := congrArg Cell.input h; have a5 := congrArg Cell.linked h; have a6 := congrArg Cell.state h
        have a7 := congrArg Cell.contributing h
        rw [hd]
        exact ⟨(hspecE i).trans a1, (hnameE i).trans a2, (hcalcE i).trans a3, (hinE i).trans a4, (hlinkE i).trans a5, a6, a7⟩
      · intro i; rw [hd]; exact hfree i
      · intro r hr'
        obtain ⟨t, g1, g2, -⟩ := hF.app r (by rw [hnrel]; exact hr'.1) ((hactD r hr'.1).mpr hr') (hfin r (by rw [hnrel]; exact hr'.1))
        refine ⟨t, by rw [← hterms]; exact g1, fun p n i hp hi => ?_⟩
        rw [hd]; exact g2 p n i hp (by rw [hout]; exact hi)
      · intro i x hx
        rw [hd] at hx
        obtain ⟨r, t, p, n, g1, g2, -, g4, g5, g6, g7⟩ := hF.trm i x hx
        rw [hnrel] at g1
        exact ⟨r, t, p, n, (hactD r g1).mp g2, by rw [← hterms]; exact g4, g5, by rw [← hout]; exact g6, g7⟩
    have hmem : ∀ j, j ∈ flowCells sD ↔ ∃ r ∈ (s.cell j).relations, Active s r := by
      intro j
      rw [mem_flowCells hpD.rel, hrels]
      constructor
      · rintro ⟨r, g1, g2⟩
        have : r < s.nrel := ((hr.rels j r).mp g1).1
        exact ⟨r, g1, (hactD r this).mp g2⟩
      · rintro ⟨r, g1, g2⟩; exact ⟨r, g1, (hactD r g2.1).mpr g2⟩
    refine ⟨pa, sE, d, ch, rk, hrun, hdwf, hdir, ?_, hevE, ?_, ?_, ?_, ?_, ?_, ?_, ?_, ?_, ?_⟩
    · intro r t hr' ht k' t' hk' ht'
      obtain ⟨t1, g1, -, g3⟩ := hF.app r (by rw [hnrel]; exact hr'.1) ((hactD r hr'.1).mpr hr') (hfin r (by rw [hnrel]; exact hr'.1))
      rw [hterms, ht] at g1; cases g1
      obtain ⟨n, hn, i, hi, -, ho⟩ := g3 k' t' hk' (by rw [hterms]; exact ht')
      refine ⟨n, hn, i, by rw [← hout]; exact hi, fun n' hn' o ho' => ?_⟩
      obtain ⟨e1, e2⟩ := ho n' hn' o (by rw [hout]; exact ho')
      rw [hpriD, hpriD] at e2
      rw [hd]
      exact ⟨e1, e2⟩
    · have := congrArg Sheet.getStack hF.fl
      refine Eq.trans this ?_
      show sD.getStack = []
      rw [hsD]; exact h5
    · intro n i j hn hj
      refine ⟨fun h => absurd h.2 (by simp), fun _ => ?_⟩
      have hj' : (s.cell i).input = some j := by rw [← (hdir.cell i).2.2.2.1]; exact hj
      have hn' : s.nameIndex.find n = some i := by rw [← hdir.nameIndex]; exact hn
      have hspj := (input_spec hw hn' hj').2
      have a1 := congrArg Cell.state (hflc j)
      have a1' : (sE.cell j).state = (sD.cell j).state := a1
      rw [a1', hsD, hd]
      show (sC.cell j).state = (s0C.cell j).state
      rw [h9 j hspj]
      have a6 := congrArg Cell.state (hC0 j)
      exact a6.symm
    · have := congrArg Sheet.invariants h6
      rw [hinvI]; exact this
    · have a := congrArg Sheet.hasOutput hF.fl; refine Eq.trans a ?_
      have b := congrArg Sheet.hasOutput hevD.stat; refine Eq.trans b ?_
      rw [hs0D]
      have c := congrArg Sheet.hasOutput h6; exact c
    · intro i
      have a := congrArg Cell.invariant (hflc i); refine Eq.trans a ?_
      have b := congrArg Cell.invariant (stat_cell hevD.stat i); refine Eq.trans b ?_
      rw [hs0D]
      have c := congrArg Cell.invariant (hC0 i); exact c
    · intro r hr'
      rw [hccd]
      exact h11 r (List.mem_range.mpr hr')
    · intro e
      refine (h7 e).trans ?_
      have : EnvLe (rhs s0C e) (rhs s0D e) := by rw [hs0D]; exact EnvLe.refl _
      exact this.trans (hrhs e)
    · intro i hi htop
      rw [hd]
      have := flow_top hpD.rel hPD hpD.start hsrt ((hmem i).mpr hi) (fun j hj hne => by
        rw [hpriD, hpriD]; exact htop j hne ((hmem j).mp hj)) hrun
      exact this
    · intro k
      have hinD : ∀ i, (sD.cell i).input = (s.cell i).input := by
        intro i; rw [stat_input hevD.stat, hs0D]; exact fl_input h6 i
      rw [flow_bits hrun, bitsOf_testBit]
      simp only [List.mem_filterMap, (hsrt _ _).1.mem_iff, hmem, hinD]

end Verif.Adam
