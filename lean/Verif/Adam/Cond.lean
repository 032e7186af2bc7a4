import Verif.Adam.FlowLoop
/-! The first half of `update`: the conditionals, and the passage from the sheet before `flow` to the sheet after it. -/
namespace Verif.Adam
variable {N V : Type} [DecidableEq N] [DecidableEq V] [Values V]
variable {s0 s : Sheet N V}

/-- The snapshot may be replaced by one whose equations have the same values or more. -/
theorem Ev.transfer (h : Ev s0 s) {s0' s' : Sheet N V} (hstat : s'.stat = s0'.stat) (hname : s0'.nameIndex = s0.nameIndex)
    (hname' : s'.nameIndex = s.nameIndex)
    (h0 : ∀ i, (s0'.cell i).spec = (s0.cell i).spec ∧ (s0'.cell i).input = (s0.cell i).input ∧ (s0'.cell i).state = (s0.cell i).state ∧
      (s0'.cell i).contributing = (s0.cell i).contributing)
    (h1 : ∀ i, (s'.cell i).state = (s.cell i).state ∧ (s'.cell i).contributing = (s.cell i).contributing ∧
      (s'.cell i).evaluated = (s.cell i).evaluated ∧ (s'.cell i).dirty = (s.cell i).dirty)
    (hrhs : ∀ e, EnvLe (rhs s0 e) (rhs s0' e)) (hcond : ∀ b x, Between b x s0.condContributing → Between b x s0'.condContributing) :
    Ev s0' s' where
  stat := hstat
  base := fun i hi => by
    rw [(h0 i).1] at hi
    obtain ⟨a, b, c⟩ := h.base i hi
    exact ⟨by rw [(h1 i).1, a, (h0 i).2.2.1], by rw [(h1 i).2.1, b, (h0 i).2.2.2], by rw [(h1 i).2.2.1, c]⟩
  inContrib := fun j hj => by
    rw [(h0 j).1] at hj
    rw [(h1 j).2.1, h.inContrib j hj, (h0 j).2.2.2]
  inState := fun n i j hn hj he => by
    rw [hname] at hn; rw [(h0 i).2.1] at hj; rw [(h1 i).2.2.1] at he
    rw [(h1 j).1, h.inState n i j hn hj he, (h0 j).2.2.1]
  fresh := fun n i hn he => by
    rw [hname] at hn; rw [(h1 i).2.2.1] at he
    rw [(h1 i).1, h.fresh n i hn he, (h0 i).2.2.1]
  memo := fun n i hn hb he => by
    rw [hname] at hn; rw [(h0 i).1] at hb; rw [(h1 i).2.2.1] at he
    obtain ⟨L, v, b, a1, a2, a3, a4⟩ := h.memo n i hn hb he
    refine ⟨L, v, b, ?_, by rw [(h1 i).1]; exact a2, by rw [(h1 i).2.1]; exact hcond _ _ a3, by rw [(h1 i).2.2.2, (h0 i).2.2.1]; exact a4⟩
    refine hrhs _ n _ (rhs_mono s0 ?_ n _ a1)
    intro m w hw
    have : isEval s' m = isEval s m := isEval_congr hname' (fun i => (h1 i).2.2.1) m
    unfold restr at hw ⊢
    rw [this]
    split at hw
    · rename_i he; rw [if_pos he]; exact den_le_den hrhs L m w hw
    · cases hw

/-- At the start only input and constant cells are evaluated. -/
theorem Ev.start (hev : ∀ i, (s.cell i).evaluated = decide ((s.cell i).spec = .input ∨ (s.cell i).spec = .constant)) : Ev s s where
  stat := rfl
  base := fun i hi => ⟨rfl, rfl, by rw [hev]; simpa using hi⟩
  inContrib := fun _ _ => rfl
  inState := fun _ _ _ _ _ _ => rfl
  fresh := fun _ _ _ _ => rfl
  memo := fun n i _ hb he => by rw [hev] at he; exact absurd (by simpa using he) hb

/-! ### Switching a relation off -/

theorem decrEdges_cell : ∀ (l : List Nat) (s : Sheet N V), l.Nodup → ∀ i, (decrEdges l s).cell i =
    if i ∈ l then { s.cell i with count := decr (s.cell i).count } else s.cell i
  | [], s, _, i => by simp [decrEdges]
  | a :: l, s, hnd, i => by
      rw [List.nodup_cons] at hnd
      have ih := decrEdges_cell l (s.modCell a fun c => { c with count := decr c.count }) hnd.2 i
      simp only [decrEdges, List.foldl_cons] at ih ⊢
      rw [ih]
      by_cases hi : i = a
      · subst hi; simp [hnd.1]
      · simp [hi, modCell_other _ _ hi]

theorem decrEdges_rest : ∀ (l : List Nat) (s : Sheet N V), decrEdges l s = { s with cell := (decrEdges l s).cell }
  | [], s => rfl
  | a :: l, s => by
      have ih := decrEdges_rest l (s.modCell a fun c => { c with count := decr c.count })
      simp only [decrEdges, List.foldl_cons] at ih ⊢
      rw [ih]
      rfl

/-- models: source/adam.cpp:1176-1182, both statements. -/
def off (r : Nat) (s : Sheet N V) : Sheet N V := (decrEdges (s.rel r).edges s).modRel r fun rl => { rl with resolved := true }

theorem off_rest (r : Nat) (s : Sheet N V) : off r s = { s with cell := (off r s).cell, rel := (off r s).rel } := by
  unfold off Sheet.modRel
  rw [decrEdges_rest]

theorem off_cell (r : Nat) (s : Sheet N V) (hnd : (s.rel r).edges.Nodup) (i : Nat) : (off r s).cell i =
    if i ∈ (s.rel r).edges then { s.cell i with count := decr (s.cell i).count } else s.cell i := by
  show (decrEdges (s.rel r).edges s).cell i = _
  exact decrEdges_cell _ _ hnd i

theorem off_rel (r : Nat) (s : Sheet N V) (x : Nat) : (off r s).rel x = if x = r then { s.rel x with resolved := true } else s.rel x := by
  unfold off
  rw [decrEdges_rest]
  rfl

theorem off_fl (r : Nat) (s : Sheet N V) (hnd : (s.rel r).edges.Nodup) : (off r s).fl = s.fl := by
  rw [off_rest]
  unfold Sheet.fl
  congr 1
  · funext i
    dsimp only
    rw [off_cell r s hnd]
    split <;> rfl
  · funext x
    dsimp only
    rw [off_rel]
    split <;> rfl

theorem off_stat (r : Nat) {s s0 : Sheet N V} (h : s.stat = s0.stat) (hnd : (s0.rel r).edges.Nodup) : (off r s).stat = (off r s0).stat := by
  have hrel : s.rel = s0.rel := by have := congrArg Sheet.rel h; exact this
  rw [off_rest r s, off_rest r s0]
  have hcell : ∀ i, ((off r s).cell i).stat = ((off r s0).cell i).stat := by
    intro i
    rw [off_cell r s (by rw [hrel]; exact hnd), off_cell r s0 hnd, hrel]
    have := stat_cell h i
    split
    · have hc := stat_count h i
      rw [hc]
      have h2 := congrArg (fun c : Cell N V => { c with count := decr (s0.cell i).count }) this
      exact h2
    · exact this
  have hr : (off r s).rel = (off r s0).rel := by funext x; rw [off_rel, off_rel, hrel]
  unfold Sheet.stat at h ⊢
  injection h with e1 e2 e3 e4 e5 e6 e7 e8 e9 e10 e11 e12 e13 e14 e15 e16 e17 e18 e19
  simp only [hr]
  congr 1
  funext i
  exact hcell i

/-- The relations are consistent with the counts, before `flow`. -/
structure Pre (s0 : Sheet N V) : Prop where
  rel : RelOk s0
  start : FStart s0

theorem RelOk.fl {s s' : Sheet N V} (h : RelOk s) (hf : s'.fl = s.fl) : RelOk s' := by
  have hin := fl_input hf; have hre := fl_relations hf; have ho := fl_out hf; have hn := fl_nrel hf
  have ht := fl_terms hf; have he := fl_edges hf
  have hi : ∀ i, (s'.cell i).initialCount = (s.cell i).initialCount := by
    intro i; have := congrArg Cell.initialCount (fl_cell hf i); exact this
  constructor
  · rw [ho]; exact h.inj
  · intro r hr t ht' n hn'
    rw [hn] at hr; rw [ht] at ht'; rw [ho]
    obtain ⟨o, a, b⟩ := h.names r hr t ht' n hn'
    exact ⟨o, a, by rw [hin]; exact b⟩
  · intro r hr o; rw [hn] at hr; rw [he, ht, ho]; exact h.edges r hr o
  · intro r hr; rw [hn] at hr; rw [he]; exact h.edgesNodup r hr
  · intro o r; rw [hre, hn, he]; exact h.rels o r
  · intro o; rw [hre]; exact h.relsNodup o
  · intro o; rw [hi, hre]; exact h.initial o

theorem Pre.off (h : Pre s0) {r : Nat} (hr : r < s0.nrel) (hu : U s0 r = true) : Pre (off r s0) := by
  have hnd := h.rel.edgesNodup r hr
  have hfl := off_fl r s0 hnd
  have hU : U (Verif.Adam.off r s0) r = false := by simp [U, off_rel]
  have hU' : ∀ x, x ≠ r → U (Verif.Adam.off r s0) x = U s0 x := by intro x hx; simp [U, off_rel, hx]
  refine ⟨h.rel.fl hfl, ?_, ?_, ?_⟩
  · intro i
    rw [off_cell r s0 hnd]
    split
    · rename_i hi
      have := nU_drop (fl_relations hfl i) (h.rel.relsNodup i) ((h.rel.rels i r).mpr ⟨hr, hi⟩) hu hU hU'
      simp only [h.start.cnt i]
      rw [decr_pos (by omega)]; omega
    · rename_i hi
      rw [h.start.cnt i]
      refine (nU_congr (fl_relations hfl i) fun x hx => hU' x ?_).symm
      rintro rfl; exact hi ((h.rel.rels i x).mp hx).2
  · intro i hi
    rw [fl_relations hfl] at hi
    rw [off_cell r s0 hnd]
    split <;> exact h.start.res i hi
  · intro i
    rw [off_cell r s0 hnd]
    split <;> exact h.start.term i

/-- Cells which have a value before have the same value after. -/
theorem off_rhs (h : Pre s0) {r : Nat} (hr : r < s0.nrel) (hu : U s0 r = true) (e : Env N V) : EnvLe (rhs s0 e) (rhs (off r s0) e) := by
  have hnd := h.rel.edgesNodup r hr
  intro n w hw
  obtain ⟨i, hi⟩ := rhs_some hw
  have hname : (off r s0).nameIndex = s0.nameIndex := by rw [off_rest]
  have hstate : ∀ j, ((off r s0).cell j).state = (s0.cell j).state := by intro j; rw [off_cell r s0 hnd]; split <;> rfl
  have hcon : ∀ j, ((off r s0).cell j).contributing = (s0.cell j).contributing := by intro j; rw [off_cell r s0 hnd]; split <;> rfl
  have hspec : ∀ j, ((off r s0).cell j).spec = (s0.cell j).spec := by intro j; rw [off_cell r s0 hnd]; split <;> rfl
  by_cases hb : (s0.cell i).spec = .input ∨ (s0.cell i).spec = .constant
  · rw [rhs_base hi hb] at hw
    rw [rhs_base (by rw [hname]; exact hi) (by rw [hspec]; exact hb), hstate, hcon]
    exact hw
  · by_cases hc : (s0.cell i).count = 0
    · have hne : i ∉ (s0.rel r).edges := by
        intro he
        rw [h.start.cnt] at hc
        have : 0 < nU s0 i := List.length_pos_of_mem (List.mem_filter.mpr ⟨(h.rel.rels i r).mpr ⟨hr, he⟩, hu⟩)
        omega
      have hci : (off r s0).cell i = s0.cell i := by rw [off_cell r s0 hnd, if_neg hne]
      unfold rhs at hw ⊢
      simp only [hname, hi, hci] at hw ⊢
      simp only [hstate, hcon]
      exact hw
    · unfold rhs at hw
      simp only [hi, if_neg hb, hc, ne_eq, not_false_eq_true, if_true] at hw
      cases hw


theorem WF.congr {s s' : Sheet N V} (h : WF s) (hmode : s'.initMode = s.initMode) (hname : s'.nameIndex = s.nameIndex)
    (hin : s'.inputIndex = s.inputIndex) (hout : s'.outputIndex = s.outputIndex) (hinv : s'.invariants = s.invariants)
    (hsize : s'.size = s.size)
    (hc : ∀ i, (s'.cell i).spec = (s.cell i).spec ∧ (s'.cell i).name = (s.cell i).name ∧ (s'.cell i).input = (s.cell i).input ∧
      (s'.cell i).calculator = (s.cell i).calculator)
    (hev : ∀ i, ((s.cell i).spec = .input ∨ (s.cell i).spec = .constant) → (s'.cell i).evaluated = true) : WF s' := by
  have h1 := fun i => (hc i).1
  have h2 := fun i => (hc i).2.1
  have h3 := fun i => (hc i).2.2.1
  have h4 := fun i => (hc i).2.2.2
  constructor
  · rw [hmode]; exact h.initMode
  · intro n i; rw [hname, hsize, h2]; exact h.name n i
  · intro n i; rw [hname, h1]; exact h.spec n i
  · intro n i; rw [hname, h1, h3, hsize, hin]; intro a b
    obtain ⟨j, e1, e2, e3, e4, e5⟩ := h.iface n i a b
    exact ⟨j, e1, e2, by rw [h1]; exact e3, e4, by rw [h2]; exact e5⟩
  · intro i; rw [h1, h3]; exact h.noInput i
  · intro n n' i i' j; rw [hname, h3, h3]; exact h.ifaceInj n n' i i' j
  · intro n i; rw [hname, h1, h4]; exact h.calcExpr n i
  · rw [hname, hsize]
    have := h.weights
    simpa only [h1] using this
  · intro n i; rw [hout, hname, h1]; exact h.output n i
  · rw [hname]; exact h.nodup
  · rw [hout]; exact h.outNodup
  · intro i; rw [hinv, hname, h1]; exact h.invs i
  · intro i; rw [h1]; exact hev i

theorem WF.off (h : WF s0) (r : Nat) (hnd : (s0.rel r).edges.Nodup) : WF (off r s0) := by
  refine h.congr ?_ ?_ ?_ ?_ ?_ ?_ ?_ ?_
  · rw [off_rest]
  · rw [off_rest]
  · rw [off_rest]
  · rw [off_rest]
  · rw [off_rest]
  · rw [off_rest]
  · intro i; rw [off_cell r s0 hnd]; split <;> exact ⟨rfl, rfl, rfl, rfl⟩
  · intro i hi; rw [off_cell r s0 hnd]; split <;> exact h.base i hi

/-- The value of the conditional of a relation. -/
def CondVal (s0 : Sheet N V) (r : Nat) (bl : Bool) : Prop :=
  ∃ p L v b, (s0.rel r).cond = some p ∧ p.eval none (den s0 L) none none = some (v, b) ∧ Values.asBool v = some bl

/-- Every conditional has a value without going through a relation. -/
def CondOk (s0 : Sheet N V) : Prop := ∀ r, r < s0.nrel → (s0.rel r).cond ≠ none → ∃ bl, CondVal s0 r bl

/-- The bits read by the conditional of `r` are in `x`. -/
def CondBits (s0 : Sheet N V) (r : Nat) (x : Bits) : Prop :=
  ∀ p L v b, (s0.rel r).cond = some p → p.eval none (den s0 L) none none = some (v, b) → ∀ k, b.testBit k = true → x.testBit k = true

theorem peval_det {s0 : Sheet N V} {p : Prog N V} {L L' : Nat} {w w' : V × Bits} (h : p.eval none (den s0 L) none none = some w)
    (h' : p.eval none (den s0 L') none none = some w') : w = w' := by
  have h1 := Prog.eval_mono (x := none) (den_mono s0 (Nat.le_max_left L L')) p (Le.refl none) (Le.refl none) w h
  have h2 := Prog.eval_mono (x := none) (den_mono s0 (Nat.le_max_right L L')) p (Le.refl none) (Le.refl none) w' h'
  rw [h1] at h2
  exact Option.some.inj h2

theorem CondVal.mono {s0 s0' : Sheet N V} {r : Nat} {bl : Bool} (h : CondVal s0 r bl) (hrhs : ∀ e, EnvLe (rhs s0 e) (rhs s0' e))
    (hc : (s0'.rel r).cond = (s0.rel r).cond) : CondVal s0' r bl := by
  obtain ⟨p, L, v, b, h1, h2, h3⟩ := h
  exact ⟨p, L, v, b, by rw [hc]; exact h1, Prog.eval_mono (den_le_den hrhs L) p (Le.refl _) (Le.refl _) _ h2, h3⟩

theorem CondVal.det {s0 : Sheet N V} {r : Nat} {bl bl' : Bool} (h : CondVal s0 r bl) (h' : CondVal s0 r bl') : bl = bl' := by
  obtain ⟨p, L, v, b, h1, h2, h3⟩ := h
  obtain ⟨p', L', v', b', h1', h2', h3'⟩ := h'
  rw [h1] at h1'; cases h1'
  have := peval_det h2 h2'
  cases this
  rw [h3] at h3'; exact Option.some.inj h3'

theorem fl_cond {s s' : Sheet N V} (h : s.fl = s'.fl) (r : Nat) : (s.rel r).cond = (s'.rel r).cond := by
  have := congrArg Rel.cond (congrFun (congrArg Sheet.rel h) r); exact this

theorem fl_condContributing {s s' : Sheet N V} (h : s.fl = s'.fl) : s.condContributing = s'.condContributing :=
  by have := congrArg Sheet.condContributing h; exact this

theorem conditionals_ok : ∀ (l : List Nat) (s0 s : Sheet N V), WF s0 → Pre s0 → Ev s0 s → s.getStack = [] → s0.condContributing = 0 →
    l.Nodup → (∀ r ∈ l, r < s0.nrel ∧ U s0 r = true) →
    (∀ r ∈ l, (s0.rel r).cond ≠ none → ∃ bl, CondVal s0 r bl) →
    ∃ s0' s', conditionals l s = (.ok (), s') ∧ WF s0' ∧ Pre s0' ∧ Ev s0' s' ∧ s'.getStack = [] ∧ s0'.fl = s0.fl ∧
      (∀ e, EnvLe (rhs s0 e) (rhs s0' e)) ∧ (∀ r, U s0' r = true ↔ U s0 r = true ∧ ¬ (r ∈ l ∧ CondVal s0 r false)) ∧
      (∀ j, (s0.cell j).spec = .interfaceInput → (s'.cell j).state = (s.cell j).state) ∧
      (∀ k, s.accumulate.testBit k = true → s'.accumulate.testBit k = true) ∧
      (∀ r ∈ l, CondBits s0 r s'.accumulate) ∧ (∀ i, (s0'.cell i).priority = (s0.cell i).priority ∧ (s0'.cell i).resolved = (s0.cell i).resolved ∧ s0'.priorityLow = s0.priorityLow) := by
  intro l
  induction l with
  | nil =>
      intro s0 s hw hp hs hst _ _ _ _
      exact ⟨s0, s, rfl, hw, hp, hs, hst, rfl, fun e => EnvLe.refl _, by simp, fun _ _ => rfl, fun _ h => h, by simp, fun _ => ⟨rfl, rfl, rfl⟩⟩
  | cons r l ih =>
      intro s0 s hw hp hs hst hcc hnd hl hcond
      rw [List.nodup_cons] at hnd
      obtain ⟨hr, hu⟩ := hl r (by simp)
      have hrel : s.rel = s0.rel := by have := congrArg Sheet.rel hs.stat; exact this
      unfold conditionals
      simp only [bind_gets, hrel]
      cases hc : (s0.rel r).cond with
      | none =>
          obtain ⟨s0', s', h1, h2, h3, h4, h5, h6, h7, h8, h9, h10, h11, h12⟩ := ih s0 s hw hp hs hst hcc hnd.2
            (fun x hx => hl x (by simp [hx])) (fun x hx => hcond x (by simp [hx]))
          refine ⟨s0', s', h1, h2, h3, h4, h5, h6, h7, ?_, h9, h10, ?_, h12⟩
          · intro x
            rw [h8]
            by_cases hx : x = r
            · subst hx
              have : ¬ CondVal s0 x false := by rintro ⟨p, L, v, b, hp', _⟩; rw [hc] at hp'; cases hp'
              simp [this]
            · simp [hx]
          · intro x hx
            rcases List.mem_cons.mp hx with rfl | hx
            · intro p L v b hp'; rw [hc] at hp'; cases hp'
            · exact h11 x hx
      | some p =>
          simp only
          obtain ⟨bl, p', L, v, b, hp', hpv, hbl⟩ := hcond r (by simp) (by rw [hc]; simp)
          rw [hc] at hp'; cases hp'
          have hsz : s.size = s0.size := stat_size hs.stat
          have hans : Answers s0 (get s.size) L := get_answers hw 0 (fun i hi => by rw [hp.start.term i] at hi; cases hi) L _ (by
            rw [hsz]; exact wt_le_size hw L)
          obtain ⟨s1, hr1, hpost, hst1, -⟩ := run_plain hans p s v b hs (by intro y fl rest h; rw [hst] at h; cases h) hpv
          have hev1 : evaluate p s = (.ok v, s1) := by unfold evaluate; rw [bind_gets]; exact hr1
          rw [bind_ok hev1]
          obtain ⟨x, hx, hbx⟩ := hpost.acc
          have hb1 : ∀ k, b.testBit k = true → s1.accumulate.testBit k = true := by
            intro k hk
            rw [hx, Nat.testBit_or, ((hbx k).1 hk)]; simp
          have hmono1 : ∀ k, s.accumulate.testBit k = true → s1.accumulate.testBit k = true := by
            intro k hk; rw [hx, Nat.testBit_or, hk]; rfl
          have hval : ∀ bl', CondVal s0 r bl' → bl' = bl := fun bl' h => h.det ⟨p, L, v, b, hc, hpv, hbl⟩
          simp only [hbl]
          cases bl with
          | true =>
              obtain ⟨s0', s', h1, h2, h3, h4, h5, h6, h7, h8, h9, h10, h11, h12⟩ := ih s0 s1 hw hp hpost.ev (hst1.trans hst) hcc hnd.2
                (fun x hx => hl x (by simp [hx])) (fun x hx => hcond x (by simp [hx]))
              refine ⟨s0', s', h1, h2, h3, h4, h5, h6, h7, ?_, ?_, fun k hk => h10 k (hmono1 k hk), ?_, h12⟩
              · intro y
                rw [h8]
                by_cases hy : y = r
                · subst hy
                  have : ¬ CondVal s0 y false := fun h => by have := hval false h; cases this
                  simp [this]
                · simp [hy]
              · intro j hj; rw [h9 j hj, hpost.inp j hj]
              · intro y hy
                rcases List.mem_cons.mp hy with rfl | hy
                · intro p' L' v' b' hp' hpv' k hk
                  rw [hc] at hp'; cases hp'
                  have := peval_det hpv hpv'
                  cases this
                  exact h10 k (hb1 k hk)
                · exact h11 y hy
          | false =>
              simp only [bind_modify]
              have hnde := hp.rel.edgesNodup r hr
              have hrel1 : s1.rel = s0.rel := by have := congrArg Sheet.rel hpost.ev.stat; exact this
              have hoff : (decrEdges (s0.rel r).edges s1).modRel r (fun rl => { rl with resolved := true }) = off r s1 := by
                unfold off; rw [hrel1]
              rw [hoff]
              have hfl := off_fl r s0 hnde
              have hrhs : ∀ e, EnvLe (rhs s0 e) (rhs (off r s0) e) := off_rhs hp hr hu
              have hc1 : ∀ i, (off r s1).cell i = if i ∈ (s0.rel r).edges then { s1.cell i with count := decr (s1.cell i).count } else s1.cell i := by
                intro i; rw [off_cell r s1 (by rw [hrel1]; exact hnde), hrel1]
              have hev2 : Ev (off r s0) (off r s1) := by
                refine hpost.ev.transfer (off_stat r hpost.ev.stat hnde) (by rw [off_rest]) (by rw [off_rest r s1]) ?_ ?_ hrhs ?_
                · intro i; rw [off_cell r s0 hnde]; split <;> exact ⟨rfl, rfl, rfl, rfl⟩
                · intro i; rw [hc1]; split <;> exact ⟨rfl, rfl, rfl, rfl⟩
                · intro b x h; rw [fl_condContributing hfl]; exact h
              have hUoff : ∀ x, U (off r s0) x = true ↔ U s0 x = true ∧ x ≠ r := by
                intro x
                by_cases hx : x = r
                · subst hx; simp [U, off_rel]
                · simp [U, off_rel, hx]
              obtain ⟨s0', s', h1, h2, h3, h4, h5, h6, h7, h8, h9, h10, h11, h12⟩ := ih (off r s0) (off r s1) (hw.off r hnde) (hp.off hr hu) hev2
                (by rw [off_rest]; exact hst1.trans hst) (by rw [fl_condContributing hfl]; exact hcc) hnd.2
                (fun x hx => by
                  obtain ⟨a1, a2⟩ := hl x (by simp [hx])
                  exact ⟨by rw [fl_nrel hfl]; exact a1, (hUoff x).mpr ⟨a2, by rintro rfl; exact hnd.1 hx⟩⟩)
                (fun x hx hxc => by
                  rw [fl_cond hfl] at hxc
                  obtain ⟨bl, h⟩ := hcond x (by simp [hx]) hxc
                  exact ⟨bl, h.mono hrhs (fl_cond hfl x)⟩)
              have hacc : (off r s1).accumulate = s1.accumulate := by rw [off_rest]
              refine ⟨s0', s', h1, h2, h3, h4, h5, h6.trans hfl, fun e => (hrhs e).trans (h7 e), ?_, ?_, ?_, ?_, fun i => by
                rw [(h12 i).1, (h12 i).2.1, (h12 i).2.2, off_cell r s0 hnde, off_rest]; split <;> exact ⟨rfl, rfl, rfl⟩⟩
              · intro y
                rw [h8, hUoff]
                by_cases hy : y = r
                · subst hy
                  have : CondVal s0 y false := ⟨p, L, v, b, hc, hpv, hbl⟩
                  simp [this]
                · have hiff : y ∈ l → (CondVal (off r s0) y false ↔ CondVal s0 y false) := by
                    intro hyl
                    constructor
                    · intro h
                      by_cases hyc : (s0.rel y).cond = none
                      · obtain ⟨q, _, _, _, hq, _⟩ := h; rw [fl_cond hfl, hyc] at hq; cases hq
                      · obtain ⟨bl, hb⟩ := hcond y (by simp [hyl]) hyc
                        have := (hb.mono hrhs (fl_cond hfl y)).det h
                        subst this; exact hb
                    · intro h; exact h.mono hrhs (fl_cond hfl y)
                  constructor
                  · rintro ⟨⟨a1, a2⟩, a3⟩
                    refine ⟨a1, fun ⟨a4, a5⟩ => a3 ?_⟩
                    have hyl := (List.mem_cons.mp a4).resolve_left hy
                    exact ⟨hyl, (hiff hyl).mpr a5⟩
                  · rintro ⟨a1, a3⟩
                    exact ⟨⟨a1, hy⟩, fun ⟨a4, a5⟩ => a3 ⟨by simp [a4], (hiff a4).mp a5⟩⟩
              · intro j hj
                have hj' : ((off r s0).cell j).spec = .interfaceInput := by
                  rw [off_cell r s0 hnde]; split <;> exact hj
                rw [h9 j hj', hc1, ← hpost.inp j hj]
                split <;> rfl
              · intro k hk; exact h10 k (by rw [hacc]; exact hmono1 k hk)
              · intro y hy
                rcases List.mem_cons.mp hy with rfl | hy
                · intro p' L' v' b' hp' hpv' k hk
                  rw [hc] at hp'; cases hp'
                  have := peval_det hpv hpv'
                  cases this
                  exact h10 k (by rw [hacc]; exact hb1 k hk)
                · intro p' L' v' b' hp' hpv'
                  exact h11 y hy p' L' v' b' (by rw [fl_cond hfl]; exact hp')
                    (Prog.eval_mono (den_le_den hrhs L') p' (Le.refl _) (Le.refl _) _ hpv')

end Verif.Adam
