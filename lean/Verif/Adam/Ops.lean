import Verif.Adam.Reach
/-! Every operation of a client keeps a sheet in order. -/
namespace Verif.Adam
variable {N V : Type} [DecidableEq N] [DecidableEq V] [Values V]
variable {s s' : Sheet N V}

/-- A sheet in order, between two calls of the client. -/
structure Good (s : Sheet N V) : Prop where
  fit : Fit s
  stack : s.getStack = []
  base : ∀ i, ((s.cell i).spec = .input ∨ (s.cell i).spec = .constant) → (s.cell i).contributing = 0
  own : ∀ i, (s.cell i).spec = .interfaceInput → (s.cell i).contributing = Bits.single i

/-! ### Evaluation of initializers -/

theorem getInit_acc (n : N) (s : Sheet N V) : ∃ r a, getInit n s = (r, { s with accumulate := a }) := by
  unfold getInit
  simp only [bind_gets, id]
  cases s.inputIndex.find n with
  | some i => exact ⟨_, _, rfl⟩
  | none =>
      dsimp only
      cases s.nameIndex.find n with
      | none => exact ⟨_, s.accumulate, rfl⟩
      | some i =>
          dsimp only
          split
          · exact ⟨_, s.accumulate, rfl⟩
          · exact ⟨_, _, rfl⟩

theorem get_init {f : Nat} {n : N} (h : s.initMode = true) : get f n s = getInit n s := by
  cases f <;> (unfold get; simp [h])

theorem run_init {f : Nat} (p : Prog N V) : ∀ s : Sheet N V, s.initMode = true → ∃ r a, p.run (get f) s = (r, { s with accumulate := a }) := by
  induction p with
  | ret v => intro s _; exact ⟨_, s.accumulate, rfl⟩
  | fail => intro s _; exact ⟨_, s.accumulate, rfl⟩
  | ask n k ih =>
      intro s hs
      obtain ⟨r, a, h⟩ := getInit_acc n s
      have h' : get f n s = (r, { s with accumulate := a }) := (get_init hs).trans h
      unfold Prog.run
      cases r with
      | ok v =>
          rw [bind_ok h']
          obtain ⟨r, b, h2⟩ := ih v { s with accumulate := a } hs
          exact ⟨r, b, h2⟩
      | error e => rw [bind_err h']; exact ⟨_, a, rfl⟩

theorem evaluate_init (p : Prog N V) (hs : s.initMode = true) : ∃ r a, evaluate p s = (r, { s with accumulate := a }) := by
  unfold evaluate
  simp only [bind_gets]
  exact run_init p s hs

theorem insertName_ok {n : N} (h : insertName n s = (.ok (), s')) :
    s.nameIndex.find n = none ∧ s' = { s with nameIndex := s.nameIndex ++ [(n, s.size - 1)] } := by
  unfold insertName at h
  simp only [bind_gets, id] at h
  split at h
  · cases h
  · rename_i hn
    have hn' : s.nameIndex.find n = none := by simpa using hn
    refine ⟨hn', ?_⟩
    have := (Prod.mk.inj h).2
    rw [← this]
    dsimp only
    rw [insert_new hn']

/-- The free room for a new cell. -/
theorem Good.named (hg : Good s) {n : N} {c : Cell N V} (hnew : s.nameIndex.find n = none) (hsize : s'.size = s.size + 1)
    (hcell : ∀ i, s'.cell i = if i = s.size then c else s.cell i) (hname : s'.nameIndex = s.nameIndex ++ [(n, s.size)])
    (hin : s'.inputIndex = if c.spec = .input then s.inputIndex ++ [(n, s.size)] else s.inputIndex)
    (hout : s'.outputIndex = if c.spec = .output ∨ c.spec = .invariant then s.outputIndex ++ [(n, s.size)] else s.outputIndex)
    (hinv : s'.invariants = if c.spec = .invariant then s.invariants ++ [s.size] else s.invariants) (hrel : s'.rel = s.rel)
    (hnrel : s'.nrel = s.nrel) (hlow : s'.priorityLow = s.priorityLow) (hhigh : s'.priorityHigh = s.priorityHigh)
    (hmode : s'.initMode = false) (hstack : s'.getStack = []) (hcn : c.name = n) (hspec : c.spec ≠ .interfaceInput ∧ c.spec ≠ .interfaceOutput)
    (hrels : c.relations = []) (hcount : c.initialCount = 0) (hprio : c.priority = 0)
    (hbase : c.spec = .input ∨ c.spec = .constant → c.evaluated = true ∧ c.contributing = 0)
    (hcalc : c.spec = .output ∨ c.spec = .logic ∨ c.spec = .invariant → ∃ p, c.calculator = .expr p) (hnoin : c.input = none) : Good s' := by
  refine ⟨hg.fit.named hnew hsize hcell hname ?_ ?_ hinv hrel hnrel hlow (by omega) hmode hcn hspec.1 hrels hcount hprio
    (fun h => (hbase h).1) hcalc (fun h => absurd h hspec.2) (fun _ => hnoin) ?_, hstack, ?_, ?_⟩
  · rw [hin, hnoin]
  · rw [hout]; simp only [hspec.2, false_or]
  · rw [if_neg hspec.2]
    have := hg.fit.wf.weights
    omega
  · intro i hi
    rw [hcell] at hi ⊢
    split
    · rename_i h; rw [if_pos h] at hi; exact (hbase hi).2
    · rename_i h; rw [if_neg h] at hi; exact hg.base i hi
  · intro i hi
    rw [hcell] at hi ⊢
    split
    · rename_i h; rw [if_pos h] at hi; exact absurd hi hspec.1
    · rename_i h; rw [if_neg h] at hi; exact hg.own i hi

theorem noOut (hg : Good s) {n : N} (hnew : s.nameIndex.find n = none) : s.outputIndex.find n = none := by
  cases h : s.outputIndex.find n with
  | none => rfl
  | some i => rw [out_named hg.fit h] at hnew; cases hnew
theorem noIn (hg : Good s) {n : N} (hnew : s.nameIndex.find n = none) : s.inputIndex.find n = none := by
  cases h : s.inputIndex.find n with
  | none => rfl
  | some i => obtain ⟨j, h', _⟩ := (hg.fit.inp n i).mp h; rw [h'] at hnew; cases hnew

theorem addOutput_good (hg : Good s) {n : N} {p : Prog N V} (h : addOutput n p s = (.ok (), s')) : Good s' := by
  unfold addOutput pushCell at h
  simp only [bind_gets, bind_modify] at h
  rw [bind_run] at h
  split at h
  · rename_i hx
    obtain ⟨h1, h2⟩ := insertName_ok hx
    have := (Prod.mk.inj h).2
    subst this h2
    refine hg.named (c := mkCell .output n (.expr p) false false false Values.empty 0 0 none) (n := n) h1 rfl (fun i => rfl) rfl rfl ?_ rfl rfl rfl rfl rfl
      hg.fit.wf.initMode hg.stack rfl (by simp [mkCell]) rfl rfl rfl (by simp [mkCell]) (fun _ => ⟨p, rfl⟩) rfl
    exact insert_new (noOut hg h1) _
  · cases h

theorem addLogic_good (hg : Good s) {n : N} {p : Prog N V} (h : addLogic n p s = (.ok (), s')) : Good s' := by
  unfold addLogic pushCell at h
  simp only [bind_modify] at h
  obtain ⟨h1, h2⟩ := insertName_ok h
  subst h2
  exact hg.named (c := mkCell .logic n (.expr p) false false false Values.empty 0 0 none) (n := n) h1 rfl (fun i => rfl) rfl rfl rfl rfl rfl rfl rfl rfl
    hg.fit.wf.initMode hg.stack rfl (by simp [mkCell]) rfl rfl rfl (by simp [mkCell]) (fun _ => ⟨p, rfl⟩) rfl

theorem addInvariant_good (hg : Good s) {n : N} {p : Prog N V} (h : addInvariant n p s = (.ok (), s')) : Good s' := by
  unfold addInvariant pushCell at h
  simp only [bind_gets, bind_modify] at h
  rw [bind_run] at h
  split at h
  · rename_i hx
    obtain ⟨h1, h2⟩ := insertName_ok hx
    have := (Prod.mk.inj h).2
    subst this h2
    refine hg.named (c := mkCell .invariant n (.expr p) false false false Values.empty 0 0 none) (n := n) h1 rfl (fun i => rfl) rfl rfl ?_ rfl rfl rfl rfl rfl
      hg.fit.wf.initMode hg.stack rfl (by simp [mkCell]) rfl rfl rfl (by simp [mkCell]) (fun _ => ⟨p, rfl⟩) rfl
    exact insert_new (noOut hg h1) _
  · cases h

theorem addConstantValue_good (hg : Good s) {n : N} {v : V} (h : addConstantValue n v s = (.ok (), s')) : Good s' := by
  unfold addConstantValue pushCell at h
  simp only [bind_modify] at h
  obtain ⟨h1, h2⟩ := insertName_ok h
  subst h2
  exact hg.named (c := mkCell .constant n .none false true true v 0 0 none) (n := n) h1 rfl (fun i => rfl) rfl rfl rfl rfl rfl rfl rfl rfl
    hg.fit.wf.initMode hg.stack rfl (by simp [mkCell]) rfl rfl rfl (by simp [mkCell]) (by simp [mkCell]) rfl

/-- Leaving initialize mode. -/
theorem inInitMode_ok {α : Type} {x : M N V α} {a : α} (h : inInitMode x s = (.ok a, s')) :
    ∃ s1, x { s with initMode := true } = (.ok a, s1) ∧ s' = { s1 with initMode := s.initMode } := by
  unfold inInitMode at h
  cases hx : x { s with initMode := true } with
  | mk r s1 =>
      rw [hx] at h
      obtain ⟨h1, h2⟩ := Prod.mk.inj h
      exact ⟨s1, by rw [h1], h2.symm⟩

theorem addConstant_good (hg : Good s) {n : N} {p : Prog N V} (h : addConstant n p s = (.ok (), s')) : Good s' := by
  obtain ⟨s1, h1, h2⟩ := inInitMode_ok h
  obtain ⟨r, a, hr⟩ := evaluate_init p (s := { s with initMode := true }) rfl
  cases r with
  | error e => rw [bind_err hr] at h1; cases h1
  | ok v =>
      rw [bind_ok hr] at h1
      unfold addConstantValue pushCell at h1
      simp only [bind_modify] at h1
      obtain ⟨g1, g2⟩ := insertName_ok h1
      subst g2 h2
      exact hg.named (c := mkCell .constant n .none false true true v 0 0 none) (n := n) g1 rfl (fun i => rfl) rfl rfl rfl rfl rfl rfl rfl rfl
        hg.fit.wf.initMode hg.stack rfl (by simp [mkCell]) rfl rfl rfl (by simp [mkCell]) (by simp [mkCell]) rfl

theorem addInput_good (hg : Good s) {n : N} {init : Option (Prog N V)} (h : addInput n init s = (.ok (), s')) : Good s' := by
  obtain ⟨s1, h1, h2⟩ := inInitMode_ok h
  obtain ⟨v, a, hv⟩ : ∃ v a, (do
      let k ← gets (·.size)
      pushCell (mkCell .input n .none false true true v 0 (Bits.single k) none)
      modify fun s => { s with inputIndex := s.inputIndex.insert n k }
      insertName n : M N V Unit) { s with initMode := true, accumulate := a } = (.ok (), s1) := by
    cases init with
    | none => exact ⟨Values.empty, s.accumulate, h1⟩
    | some p =>
        obtain ⟨r, a, hr⟩ := evaluate_init p (s := { s with initMode := true }) rfl
        dsimp only at h1
        cases r with
        | error e => rw [bind_err hr] at h1; cases h1
        | ok v => rw [bind_ok hr] at h1; exact ⟨v, a, h1⟩
  unfold pushCell at hv
  simp only [bind_gets, bind_modify] at hv
  obtain ⟨g1, g2⟩ := insertName_ok hv
  subst g2 h2
  refine hg.named (c := mkCell .input n .none false true true v 0 (Bits.single s.size) none) (n := n) g1 rfl (fun i => rfl) rfl ?_ rfl rfl rfl rfl rfl rfl
    hg.fit.wf.initMode hg.stack rfl (by simp [mkCell]) rfl rfl rfl (by simp [mkCell]) (by simp [mkCell]) rfl
  exact insert_new (noIn hg g1) _

def initTo (i : Nat) (v : V) (s : Sheet N V) : Sheet N V :=
  { (s.modCell i fun c => { c with state := v, priority := s.priorityHigh + 1, initContributing := c.initContributing ||| s.accumulate }) with
    priorityHigh := s.priorityHigh + 1 }

theorem initializeOne_ok {i : Nat} (hm : s.initMode = true) (h : initializeOne i s = (.ok (), s')) :
    ∃ v a b, s' = { (s.modCell i fun c => { c with state := v, priority := s.priorityHigh + 1, initContributing := b }) with
      accumulate := a, priorityHigh := s.priorityHigh + 1 } := by
  unfold initializeOne at h
  simp only [bind_gets, bind_modify] at h
  have key : ∀ (r : Except (Err N) V) (a : Bits), (match r with
      | .ok v => (modify (initTo i v) : M N V Unit) { s with accumulate := a }
      | .error e => (.error e, { s with accumulate := a })) = (.ok (), s') →
      ∃ v a b, s' = { (s.modCell i fun c => { c with state := v, priority := s.priorityHigh + 1, initContributing := b }) with
        accumulate := a, priorityHigh := s.priorityHigh + 1 } := by
    intro r a hr
    cases r with
    | error e => cases hr
    | ok v =>
        refine ⟨v, a, (s.cell i).initContributing ||| a, ?_⟩
        have := (Prod.mk.inj hr).2
        rw [← this]
        unfold initTo Sheet.modCell
        dsimp only
        congr 1
        funext j
        split
        · rename_i hj; subst hj; rfl
        · rfl
  cases hc : (s.cell i).calculator with
  | none => rw [hc] at h; cases h
  | expr p =>
      rw [hc] at h
      obtain ⟨r, a, hr⟩ := evaluate_init p (s := { s with accumulate := 0 }) hm
      apply key r a
      cases r with
      | ok v => dsimp only at h; rw [bind_ok hr] at h; exact h
      | error e => dsimp only at h; rw [bind_err hr] at h; cases h
  | self =>
      rw [hc] at h
      obtain ⟨r, a, hr⟩ := getInit_acc (s.cell i).name { s with accumulate := 0 }
      have hr' : lookup (s.cell i).name { s with accumulate := 0 } = (r, { s with accumulate := a }) := by
        unfold lookup
        simp only [bind_gets]
        exact (get_init (s := { s with accumulate := 0 }) hm).trans hr
      apply key r a
      cases r with
      | ok v => dsimp only at h; rw [bind_ok hr'] at h; exact h
      | error e => dsimp only at h; rw [bind_err hr'] at h; cases h

/-- Two new cells: the input half and the output half of an interface cell. -/
theorem Good.iface (hg : Good s) {n : N} {ci co : Cell N V} (hnew : s.nameIndex.find n = none) (hsize : s'.size = s.size + 2)
    (hcell : ∀ i, s'.cell i = if i = s.size + 1 then co else if i = s.size then ci else s.cell i)
    (hname : s'.nameIndex = s.nameIndex ++ [(n, s.size + 1)]) (hin : s'.inputIndex = s.inputIndex ++ [(n, s.size)])
    (hout : s'.outputIndex = s.outputIndex ++ [(n, s.size + 1)]) (hinv : s'.invariants = s.invariants) (hrel : s'.rel = s.rel)
    (hnrel : s'.nrel = s.nrel) (hlow : s'.priorityLow = s.priorityLow) (hhigh : s.priorityHigh ≤ s'.priorityHigh)
    (hmode : s'.initMode = false) (hstack : s'.getStack = [])
    (hci : ci.spec = .interfaceInput ∧ ci.name = n ∧ ci.relations = [] ∧ ci.initialCount = 0 ∧ ci.priority ≤ s'.priorityHigh ∧ ci.input = none ∧
      ci.contributing = Bits.single s.size)
    (hco : co.spec = .interfaceOutput ∧ co.name = n ∧ co.relations = [] ∧ co.initialCount = 0 ∧ co.priority = 0 ∧ co.input = some s.size) :
    Good s' := by
  obtain ⟨m, hm⟩ : ∃ m : Sheet N V, m = { s with size := s.size + 1, cell := fun i => if i = s.size then ci else s.cell i,
                                                   priorityHigh := s'.priorityHigh } := ⟨_, rfl⟩
  have hfm : Fit m := by
    apply hg.fit.anon (c := ci) (s' := m) <;> (try rw [hm])
    · intro i; rfl
    · exact hhigh
    · exact hg.fit.wf.initMode
    · exact hci.1
    · exact hci.2.2.1
    · exact hci.2.2.2.1
    · exact hci.2.2.2.2.1
    · exact hci.2.2.2.2.2.1
  have hms : m.size = s.size + 1 := by rw [hm]
  have hmc : ∀ i, m.cell i = if i = s.size then ci else s.cell i := by intro i; rw [hm]
  have hfs : Fit s' := by
    refine hfm.named (n := n) (c := co) ?_ ?_ ?_ ?_ ?_ ?_ ?_ ?_ ?_ ?_ ?_ hmode hco.2.1 ?_ hco.2.2.1 hco.2.2.2.1 hco.2.2.2.2.1 ?_ ?_ ?_ ?_ ?_
    · rw [hm]; exact hnew
    · rw [hms, hsize]
    · intro i; rw [hms, hcell, hmc]
    · rw [hms, hname, hm]
    · rw [if_neg (by rw [hco.1]; simp), hco.2.2.2.2.2, hin, hm]
    · rw [if_pos (Or.inr (Or.inl hco.1)), hms, hout, hm]
    · rw [if_neg (by rw [hco.1]; simp), hinv, hm]
    · rw [hrel, hm]
    · rw [hnrel, hm]
    · rw [hlow, hm]
    · rw [hm]; exact Int.le_refl _
    · rw [hco.1]; simp
    · rw [hco.1]; simp
    · rw [hco.1]; simp
    · intro _
      refine ⟨s.size, hco.2.2.2.2.2, by omega, ?_, ?_, ?_⟩
      · rw [hmc, if_pos rfl]; exact hci.1
      · rw [hmc, if_pos rfl]; exact hci.2.1
      · intro x i hx
        have hx' : s.nameIndex.find x = some i := by rw [hm] at hx; exact hx
        have hlt := named_lt hg.fit hx'
        rw [hmc, if_neg (by omega)]
        intro hi
        obtain ⟨j, h1, h2, _⟩ := hg.fit.wf.iface x i hx' (input_spec hg.fit.wf hx' hi).1
        rw [hi] at h1; cases h1; omega
    · intro h; exact absurd hco.1 h
    · rw [if_pos hco.1, hms]
      have : m.nameIndex.map (fun e => if (m.cell e.2).spec = .interfaceOutput then 2 else 1) =
          s.nameIndex.map (fun e => if (s.cell e.2).spec = .interfaceOutput then 2 else 1) := by
        rw [show m.nameIndex = s.nameIndex by rw [hm]]
        apply List.map_congr_left
        intro e he
        have := named_lt hg.fit (mem_find hg.fit.wf.nodup he)
        rw [hmc e.2, if_neg (show ¬ e.2 = s.size by omega)]
      rw [this]
      have := hg.fit.wf.weights
      omega
  refine ⟨hfs, hstack, ?_, ?_⟩
  · intro i hi
    rw [hcell] at hi ⊢
    split
    · rename_i h; rw [if_pos h, hco.1] at hi; simp at hi
    · rename_i h
      rw [if_neg h] at hi
      split
      · rename_i h'; rw [if_pos h', hci.1] at hi; simp at hi
      · rename_i h'; rw [if_neg h'] at hi; exact hg.base i hi
  · intro i hi
    rw [hcell] at hi ⊢
    split
    · rename_i h; rw [if_pos h, hco.1] at hi; simp at hi
    · rename_i h
      rw [if_neg h] at hi
      split
      · rename_i h'; rw [h']; exact hci.2.2.2.2.2.2
      · rename_i h'; rw [if_neg h'] at hi; exact hg.own i hi

theorem addInterfaceValue_good (hg : Good s) {n : N} {v : V} (h : addInterfaceValue n v s = (.ok (), s')) : Good s' := by
  unfold addInterfaceValue pushCell at h
  simp only [bind_gets, bind_modify] at h
  obtain ⟨h1, h2⟩ := insertName_ok h
  subst h2
  refine hg.iface (ci := { mkCell .interfaceInput n .none true true true v (Bits.single s.size) 0 none with priority := s.priorityHigh + 1 })
    (co := mkCell .interfaceOutput n .self false false false Values.empty 0 0 (some s.size)) (n := n) h1 rfl (fun i => ?_) rfl ?_ ?_ rfl rfl rfl rfl ?_
    hg.fit.wf.initMode hg.stack ⟨rfl, rfl, rfl, rfl, ?_, rfl, rfl⟩ ⟨rfl, rfl, rfl, rfl, rfl, rfl⟩
  · simp only [Sheet.modCell]
    by_cases hi : i = s.size + 1
    · simp [hi]
    · by_cases hi' : i = s.size
      · simp [hi', mkCell]
      · simp [hi, hi']
  · exact insert_new (noIn hg h1) _
  · exact insert_new (noOut hg h1) _
  · simp only [Sheet.modCell]; omega
  · simp only [Sheet.modCell]; omega

/-- What a successful `add_interface` leaves. -/
theorem addInterface_form (hg : Good s) {n : N} {linked : Bool} {init expr : Option (Prog N V)}
    (h : addInterface n linked init expr s = (.ok (), s')) : ∃ v a b ph pr, s.priorityHigh ≤ ph ∧ pr ≤ ph ∧ s.nameIndex.find n = none ∧ s' =
      { s with size := s.size + 2, accumulate := a, priorityHigh := ph, nameIndex := s.nameIndex ++ [(n, s.size + 1)],
               inputIndex := s.inputIndex ++ [(n, s.size)], outputIndex := s.outputIndex ++ [(n, s.size + 1)],
               cell := fun j => if j = s.size + 1 then mkCell .interfaceOutput n (Calc.ofExpr expr) false false false Values.empty 0 0 (some s.size)
                 else if j = s.size then { mkCell .interfaceInput n (Calc.ofInit init) linked true true Values.empty (Bits.single s.size) 0 none with
                   state := v, priority := pr, initContributing := b }
                 else s.cell j } := by
  obtain ⟨s1, h1, h2⟩ := inInitMode_ok h
  unfold pushCell at h1
  simp only [bind_gets, bind_modify] at h1
  obtain ⟨ci, hci⟩ : ∃ ci : Cell N V, ci = mkCell .interfaceInput n (Calc.ofInit init) linked true true
    Values.empty (Bits.single s.size) 0 none := ⟨_, rfl⟩
  obtain ⟨co, hco⟩ : ∃ co : Cell N V, co = mkCell .interfaceOutput n (Calc.ofExpr expr) false false false
    Values.empty 0 0 (some s.size) := ⟨_, rfl⟩
  rw [← hci, ← hco] at h1
  -- the initializer changes the value, the priority and the initial contributors of the input half
  have key : ∃ v a b ph pr, s.priorityHigh ≤ ph ∧ pr ≤ ph ∧ (do
      modify fun s => { s with outputIndex := s.outputIndex.insert n (s.size - 1) }
      insertName n : M N V Unit)
      { s with initMode := true, size := s.size + 2, accumulate := a, priorityHigh := ph,
               inputIndex := s.inputIndex.insert n s.size,
               cell := fun j => if j = s.size + 1 then co else if j = s.size then { ci with state := v, priority := pr, initContributing := b }
                 else s.cell j } = (.ok (), s1) := by
    cases init with
    | none =>
        refine ⟨Values.empty, s.accumulate, 0, s.priorityHigh, 0, Int.le_refl _, hg.fit.prio.high, ?_⟩
        simp only [Option.isSome_none, Bool.false_eq_true, if_false, bind_modify] at h1
        simp only [bind_modify]
        rw [← h1, hci]
        rfl
    | some p =>
        simp only [Option.isSome_some, if_true] at h1
        cases hi : initializeOne s.size { s with initMode := true, size := s.size + 1, inputIndex := s.inputIndex.insert n s.size,
                                                  cell := fun j => if j = s.size then ci else s.cell j } with
        | mk r s2 =>
            cases r with
            | error e => rw [bind_err hi] at h1; cases h1
            | ok u =>
                rw [bind_ok hi] at h1
                obtain ⟨v, a, b, hs2⟩ := initializeOne_ok rfl hi
                refine ⟨v, a, b, s.priorityHigh + 1, s.priorityHigh + 1, by omega, Int.le_refl _, ?_⟩
                simp only [bind_modify] at h1 ⊢
                rw [← h1, hs2]
                unfold Sheet.modCell
                dsimp only
                congr 2
                funext j
                by_cases hj : j = s.size + 1
                · simp [hj]
                · by_cases hj' : j = s.size
                  · simp [hj']
                  · simp [hj, hj']
  obtain ⟨v, a, b, ph, pr, hph, hpr, hk⟩ := key
  simp only [bind_modify] at hk
  obtain ⟨g1, g2⟩ := insertName_ok hk
  subst g2 h2
  refine ⟨v, a, b, ph, pr, hph, hpr, g1, ?_⟩
  rw [hci, hco]
  dsimp only
  rw [insert_new (noIn hg g1), insert_new (noOut hg g1)]
  rfl

theorem addInterface_good (hg : Good s) {n : N} {linked : Bool} {init expr : Option (Prog N V)}
    (h : addInterface n linked init expr s = (.ok (), s')) : Good s' := by
  obtain ⟨v, a, b, ph, pr, hph, hpr, g1, hs⟩ := addInterface_form hg h
  subst hs
  exact hg.iface (ci := { mkCell .interfaceInput n (Calc.ofInit init) linked true true Values.empty (Bits.single s.size) 0 none with
      state := v, priority := pr, initContributing := b })
    (co := mkCell .interfaceOutput n (Calc.ofExpr expr) false false false Values.empty 0 0 (some s.size)) (n := n) g1 rfl (fun i => rfl) rfl rfl rfl rfl
    rfl rfl rfl hph hg.fit.wf.initMode hg.stack ⟨rfl, rfl, rfl, rfl, hpr, rfl, rfl⟩ ⟨rfl, rfl, rfl, rfl, rfl, rfl⟩

/-! ### Values and priorities -/

/-- Changes of values and priorities. -/
structure Soft (s s' : Sheet N V) : Prop where
  size : s'.size = s.size
  nameIndex : s'.nameIndex = s.nameIndex
  inputIndex : s'.inputIndex = s.inputIndex
  outputIndex : s'.outputIndex = s.outputIndex
  invariants : s'.invariants = s.invariants
  rel : s'.rel = s.rel
  nrel : s'.nrel = s.nrel
  initMode : s'.initMode = s.initMode
  stack : s'.getStack = s.getStack
  cell : ∀ i, (s'.cell i).spec = (s.cell i).spec ∧ (s'.cell i).name = (s.cell i).name ∧ (s'.cell i).input = (s.cell i).input ∧
    (s'.cell i).calculator = (s.cell i).calculator ∧ (s'.cell i).relations = (s.cell i).relations ∧
    (s'.cell i).initialCount = (s.cell i).initialCount ∧ (s'.cell i).contributing = (s.cell i).contributing ∧
    (s'.cell i).evaluated = (s.cell i).evaluated
  low : s'.priorityLow = s.priorityLow
  high : s.priorityHigh ≤ s'.priorityHigh
  prio : ∀ i, (s'.cell i).priority = (s.cell i).priority ∨ (s'.cell i).priority ≤ s'.priorityHigh

theorem Soft.refl (s : Sheet N V) : Soft s s :=
  ⟨rfl, rfl, rfl, rfl, rfl, rfl, rfl, rfl, rfl, fun _ => ⟨rfl, rfl, rfl, rfl, rfl, rfl, rfl, rfl⟩, rfl, Int.le_refl _, fun _ => Or.inl rfl⟩

theorem Soft.trans {a b c : Sheet N V} (h : Soft a b) (h' : Soft b c) : Soft a c := by
  refine ⟨h'.size.trans h.size, h'.nameIndex.trans h.nameIndex, h'.inputIndex.trans h.inputIndex, h'.outputIndex.trans h.outputIndex,
    h'.invariants.trans h.invariants, h'.rel.trans h.rel, h'.nrel.trans h.nrel, h'.initMode.trans h.initMode, h'.stack.trans h.stack,
    fun i => ?_, h'.low.trans h.low, Int.le_trans h.high h'.high, fun i => ?_⟩
  · obtain ⟨a1, a2, a3, a4, a5, a6, a7, a8⟩ := h.cell i
    obtain ⟨b1, b2, b3, b4, b5, b6, b7, b8⟩ := h'.cell i
    exact ⟨b1.trans a1, b2.trans a2, b3.trans a3, b4.trans a4, b5.trans a5, b6.trans a6, b7.trans a7, b8.trans a8⟩
  · have := h'.high
    rcases h'.prio i with h1 | h1 <;> rcases h.prio i with h2 | h2
    · exact Or.inl (h1.trans h2)
    · right; omega
    · exact Or.inr h1
    · exact Or.inr h1

theorem Soft.good (h : Soft s s') (hg : Good s) : Good s' := by
  have c := h.cell
  have c1 := fun i => (c i).1
  have c3 := fun i => (c i).2.2.1
  have c5 := fun i => (c i).2.2.2.2.1
  have c6 := fun i => (c i).2.2.2.2.2.1
  have c7 := fun i => (c i).2.2.2.2.2.2.1
  have hr := hg.fit.rel
  refine ⟨⟨?_, ⟨?_, ?_, ?_, ?_, ?_, ?_, ?_⟩, ⟨?_, ?_, ?_⟩, ?_⟩, ?_, ?_, ?_⟩
  · exact hg.fit.wf.congr h.initMode h.nameIndex h.inputIndex h.outputIndex h.invariants h.size
      (fun i => ⟨c1 i, (c i).2.1, c3 i, (c i).2.2.2.1⟩) (fun i hi => by rw [(c i).2.2.2.2.2.2.2]; exact hg.fit.wf.base i hi)
  · rw [h.outputIndex]; exact hr.inj
  · intro r; rw [h.nrel, h.rel, h.outputIndex]
    intro a t ht n hn
    obtain ⟨o, b, c⟩ := hr.names r a t ht n hn
    exact ⟨o, b, by rw [c3]; exact c⟩
  · rw [h.nrel, h.rel, h.outputIndex]; exact hr.edges
  · rw [h.nrel, h.rel]; exact hr.edgesNodup
  · intro o r; rw [c5, h.nrel, h.rel]; exact hr.rels o r
  · intro o; rw [c5]; exact hr.relsNodup o
  · intro o; rw [c5, c6]; exact hr.initial o
  · rw [h.low]; exact hg.fit.prio.low
  · have := hg.fit.prio.high; have := h.high; omega
  · intro i
    have := hg.fit.prio.le i
    have := h.high
    rcases h.prio i with h1 | h1 <;> omega
  · intro n j; rw [h.inputIndex, h.nameIndex]; simp only [c1, c3]; exact hg.fit.inp n j
  · rw [h.stack]; exact hg.stack
  · intro i; rw [c1, c7]; exact hg.base i
  · intro i; rw [c1, c7]; exact hg.own i

/-- A new value and a new priority for a cell. -/
theorem Soft.modCell (s : Sheet N V) (i : Nat) (v : V) (pr ph : Int) (b x y : Bits) (hpr : pr ≤ ph) (hph : s.priorityHigh ≤ ph) :
    Soft s { (s.modCell i fun c => { c with state := v, priority := pr, initContributing := b }) with
      priorityHigh := ph, initDirty := x, accumulate := y } := by
  refine ⟨rfl, rfl, rfl, rfl, rfl, rfl, rfl, rfl, rfl, fun j => ?_, rfl, hph, fun j => ?_⟩
  · simp only [Sheet.modCell]; split <;> exact ⟨rfl, rfl, rfl, rfl, rfl, rfl, rfl, rfl⟩
  · simp only [Sheet.modCell]; split
    · exact Or.inr hpr
    · exact Or.inl rfl

theorem modCell_eq (s : Sheet N V) (i : Nat) (f g : Cell N V → Cell N V) (h : f (s.cell i) = g (s.cell i)) : s.modCell i f = s.modCell i g := by
  unfold Sheet.modCell
  congr 1
  funext j
  split
  · rename_i hj; subst hj; exact h
  · rfl

theorem set_soft {n : N} {v : V} (h : set n v s = (.ok (), s')) : Soft s s' := by
  unfold set at h
  simp only [bind_gets, id] at h
  cases hi : s.inputIndex.find n with
  | none => rw [hi] at h; cases h
  | some i =>
    rw [hi] at h
    have := (Prod.mk.inj h).2
    subst this
    have key := Soft.modCell s i v (s.priorityHigh + 1) (s.priorityHigh + 1) (s.cell i).initContributing
    dsimp only
    have he : ({ s with priorityHigh := s.priorityHigh + 1 } : Sheet N V).modCell i (fun c => { c with state := v, priority := s.priorityHigh + 1 }) =
        { (s.modCell i fun c => { c with state := v, priority := s.priorityHigh + 1, initContributing := (s.cell i).initContributing }) with
          priorityHigh := s.priorityHigh + 1 } := by
      unfold Sheet.modCell
      dsimp only
      congr 1
      funext j
      split
      · rename_i hj; subst hj; rfl
      · rfl
    rw [he]
    split
    · exact key _ _ (Int.le_refl _) (by omega)
    · exact key _ _ (Int.le_refl _) (by omega)

theorem set_error {n : N} {v : V} {e : Err N} (h : set n v s = (.error e, s')) : s' = s := by
  unfold set at h
  simp only [bind_gets, id] at h
  cases hi : s.inputIndex.find n with
  | none => rw [hi] at h; exact (Prod.mk.inj h).2.symm
  | some i => rw [hi] at h; cases h

theorem raise_soft (i : Nat) (s : Sheet N V) : ∃ s', raise i s = (.ok (), s') ∧ Soft s s' := by
  refine ⟨_, rfl, ?_⟩
  have key := Soft.modCell s i (s.cell i).state (s.priorityHigh + 1) (s.priorityHigh + 1) (s.cell i).initContributing s.initDirty s.accumulate
    (Int.le_refl _) (by omega)
  dsimp only at key ⊢
  rw [modCell_eq s i (fun c => { c with priority := s.priorityHigh + 1 })
    (fun c => { c with state := (s.cell i).state, priority := s.priorityHigh + 1, initContributing := (s.cell i).initContributing }) rfl]
  exact key

theorem raiseAll_soft : ∀ (l : List Nat) (s : Sheet N V), ∃ s', raiseAll l s = (.ok (), s') ∧ Soft s s'
  | [], s => ⟨s, rfl, Soft.refl s⟩
  | i :: l, s => by
      obtain ⟨s1, h1, h2⟩ := raise_soft i s
      obtain ⟨s2, g1, g2⟩ := raiseAll_soft l s1
      exact ⟨s2, by unfold raiseAll; rw [bind_ok h1]; exact g1, h2.trans g2⟩

theorem touch_soft (srt : Sorter) (ns : List N) (s : Sheet N V) : ∃ s', touch srt ns s = (.ok (), s') ∧ Soft s s' := by
  unfold touch
  simp only [bind_gets]
  exact raiseAll_soft _ s

theorem Soft.mode {s s' : Sheet N V} (h : Soft { s with initMode := true } s') : Soft s { s' with initMode := s.initMode } := by
  obtain ⟨a1, a2, a3, a4, a5, a6, a7, a8, a9, a10, a11, a12, a13⟩ := h
  exact ⟨a1, a2, a3, a4, a5, a6, a7, rfl, a9, a10, a11, a12, a13⟩

theorem reinitLoop_soft : ∀ (l : List Nat) (s s' : Sheet N V), s.initMode = true → reinitLoop l s = (.ok (), s') → Soft s s'
  | [], s, s', _, h => by
      have := (Prod.mk.inj h).2
      subst this
      exact Soft.refl s
  | i :: l, s, s', hm, h => by
      unfold reinitLoop at h
      simp only [bind_gets, id] at h
      cases hj : (s.cell i).input with
      | none => rw [hj] at h; exact reinitLoop_soft l s s' hm h
      | some j =>
        rw [hj] at h
        simp only [ite_run] at h
        split at h
        · exact reinitLoop_soft l s s' hm h
        · cases hx : initializeOne j s with
          | mk r s1 =>
              cases r with
              | error e => rw [bind_err hx] at h; cases h
              | ok u =>
                  rw [bind_ok hx] at h
                  obtain ⟨v, a, b, hs1⟩ := initializeOne_ok hm hx
                  have key : Soft s s1 := by
                    rw [hs1]
                    exact Soft.modCell s j v (s.priorityHigh + 1) (s.priorityHigh + 1) b s.initDirty a (Int.le_refl _) (by omega)
                  exact key.trans (reinitLoop_soft l s1 s' (by rw [key.initMode]; exact hm) h)

theorem reinitialize_good (hg : Good s) {ord : List Nat} (h : reinitialize ord s = (.ok (), s')) : Good s' := by
  obtain ⟨s1, h1, h2⟩ := inInitMode_ok h
  cases hx : reinitLoop ord { s with initMode := true } with
  | mk r s2 =>
      cases r with
      | error e => rw [bind_err hx] at h1; cases h1
      | ok u =>
          rw [bind_ok hx] at h1
          have h3 := reinitLoop_soft ord _ s2 rfl hx
          have := (Prod.mk.inj h1).2
          subst h2 this
          have h4 : Soft s { s2 with initMode := s.initMode } := h3.mode
          obtain ⟨a1, a2, a3, a4, a5, a6, a7, a8, a9, a10, a11, a12, a13⟩ := h4
          exact Soft.good (s := s) ⟨a1, a2, a3, a4, a5, a6, a7, rfl, a9, a10, a11, a12, a13⟩ hg

/-! ### Relations -/

/-- The sheet while the cells of the last relation are attached: `l` is the list of the names left. -/
structure Attaching (s0 s : Sheet N V) (r : Nat) (terms : List (RelTerm N V)) (done : List Nat) : Prop where
  rest : { s with cell := s0.cell, rel := s0.rel, nrel := s0.nrel } = s0
  nrel : s.nrel = r + 1
  other : ∀ r', r' ≠ r → s.rel r' = s0.rel r'
  terms : (s.rel r).terms = terms
  edges : (s.rel r).edges = done
  nodup : done.Nodup
  cell : ∀ o, s.cell o = { s0.cell o with
    relations := if o ∈ done then (s0.cell o).relations ++ [r] else (s0.cell o).relations
    initialCount := if o ∈ done then (s0.cell o).initialCount + 1 else (s0.cell o).initialCount }

theorem attach_ok {s0 : Sheet N V} {r : Nat} {terms : List (RelTerm N V)} (hinj : ∀ n n' o, s0.outputIndex.find n = some o → s0.outputIndex.find n' = some o → n = n') :
    ∀ (l : List N) (s s' : Sheet N V) (done : List Nat), Attaching s0 s r terms done → l.Nodup →
      (∀ n ∈ l, ∀ o, s0.outputIndex.find n = some o → o ∉ done) → attach r l s = (.ok (), s') →
      ∃ done', Attaching s0 s' r terms done' ∧ (∀ o, o ∈ done' ↔ o ∈ done ∨ ∃ n ∈ l, s0.outputIndex.find n = some o) ∧
        (∀ n ∈ l, ∃ o, s0.outputIndex.find n = some o ∧ (s0.cell o).input.isSome)
  | [], s, s', done, ha, _, _, h => by
      have := (Prod.mk.inj h).2
      subst this
      exact ⟨done, ha, by simp, by simp⟩
  | n :: l, s, s', done, ha, hnd, hnew, h => by
      unfold attach at h
      simp only [bind_gets, id] at h
      have hout : s.outputIndex = s0.outputIndex := by have := congrArg Sheet.outputIndex ha.rest; exact this
      rw [hout] at h
      cases hi : s0.outputIndex.find n with
      | none => rw [hi] at h; cases h
      | some i =>
        rw [hi] at h
        simp only [ite_run] at h
        split at h
        · cases h
        · rename_i hin
          simp only [bind_modify] at h
          have hid : i ∉ done := hnew n (by simp) i hi
          have hin' : (s0.cell i).input.isSome := by
            rw [ha.cell i] at hin
            cases hx : (s0.cell i).input with
            | none => simp [hx] at hin
            | some _ => rfl
          obtain ⟨hnl, hnd'⟩ := List.nodup_cons.mp hnd
          have ha' : Attaching s0 ((s.modRel r fun rl => { rl with edges := rl.edges ++ [i] }).modCell i fun c =>
              { c with relations := c.relations ++ [r], initialCount := c.initialCount + 1 }) r terms (done ++ [i]) := by
            refine ⟨ha.rest, ha.nrel, ?_, ?_, ?_, ?_, ?_⟩
            · intro r' hr'; simp only [Sheet.modCell, Sheet.modRel, if_neg hr']; exact ha.other r' hr'
            · simp only [Sheet.modCell, Sheet.modRel, if_true]; exact ha.terms
            · simp only [Sheet.modCell, Sheet.modRel, if_true]; rw [ha.edges]
            · rw [List.nodup_append]
              refine ⟨ha.nodup, by simp, ?_⟩
              intro a ha b hb
              simp only [List.mem_singleton] at hb
              subst hb
              rintro rfl
              exact hid ha
            · intro o
              simp only [Sheet.modCell, Sheet.modRel]
              by_cases ho : o = i
              · subst ho
                rw [ha.cell o]
                simp [hid]
              · rw [if_neg ho, ha.cell o]
                simp [ho]
          obtain ⟨done', g1, g2, g3⟩ := attach_ok hinj l _ s' (done ++ [i]) ha' hnd' (by
            intro m hm o ho hmem
            rcases List.mem_append.mp hmem with h | h
            · exact hnew m (by simp [hm]) o ho h
            · simp only [List.mem_singleton] at h
              subst h
              have := hinj m n o ho hi
              subst this
              exact hnl hm) h
          refine ⟨done', g1, ?_, ?_⟩
          · intro o
            rw [g2]
            simp only [List.mem_append, List.mem_singleton, List.exists_mem_cons_iff, hi, Option.some.injEq, or_assoc]
            refine or_congr Iff.rfl (or_congr ⟨Eq.symm, Eq.symm⟩ Iff.rfl)
          · intro m hm
            rcases List.mem_cons.mp hm with rfl | hm
            · exact ⟨i, hi, hin'⟩
            · exact g3 m hm

theorem addRelation_good (hg : Good s) {cond : Option (Prog N V)} {terms : List (RelTerm N V)} (h : addRelation cond terms s = (.ok (), s')) :
    Good s' ∧ s'.nrel = s.nrel + 1 ∧ (s'.rel s.nrel).terms = terms ∧ (∀ r, r ≠ s.nrel → s'.rel r = s.rel r) := by
  unfold addRelation at h
  simp only [bind_gets, bind_modify] at h
  have hr := hg.fit.rel
  have hfree : ∀ o r, r ∈ (s.cell o).relations → r < s.nrel := fun o r h => ((hr.rels o r).mp h).1
  obtain ⟨done, h1, h2, h3⟩ := attach_ok (s0 := s) (terms := terms) hr.inj _ _ s' [] (by
    refine ⟨rfl, rfl, ?_, ?_, ?_, List.nodup_nil, ?_⟩
    · intro r' hr'; simp only [if_neg hr']
    · simp
    · simp
    · intro o; simp) (List.nodup_dedup _) (by simp) h
  have c1 : ∀ i, (s'.cell i).spec = (s.cell i).spec := by intro i; rw [h1.cell]
  have c2 : ∀ i, (s'.cell i).name = (s.cell i).name := by intro i; rw [h1.cell]
  have c3 : ∀ i, (s'.cell i).input = (s.cell i).input := by intro i; rw [h1.cell]
  have c4 : ∀ i, (s'.cell i).calculator = (s.cell i).calculator := by intro i; rw [h1.cell]
  have c5 : ∀ i, (s'.cell i).evaluated = (s.cell i).evaluated := by intro i; rw [h1.cell]
  have c6 : ∀ i, (s'.cell i).priority = (s.cell i).priority := by intro i; rw [h1.cell]
  have c7 : ∀ i, (s'.cell i).contributing = (s.cell i).contributing := by intro i; rw [h1.cell]
  have e1 : s'.initMode = s.initMode := by have := congrArg Sheet.initMode h1.rest; exact this
  have e2 : s'.nameIndex = s.nameIndex := by have := congrArg Sheet.nameIndex h1.rest; exact this
  have e3 : s'.inputIndex = s.inputIndex := by have := congrArg Sheet.inputIndex h1.rest; exact this
  have e4 : s'.outputIndex = s.outputIndex := by have := congrArg Sheet.outputIndex h1.rest; exact this
  have e5 : s'.invariants = s.invariants := by have := congrArg Sheet.invariants h1.rest; exact this
  have e6 : s'.size = s.size := by have := congrArg Sheet.size h1.rest; exact this
  have e7 : s'.priorityLow = s.priorityLow := by have := congrArg Sheet.priorityLow h1.rest; exact this
  have e8 : s'.priorityHigh = s.priorityHigh := by have := congrArg Sheet.priorityHigh h1.rest; exact this
  have e9 : s'.getStack = s.getStack := by have := congrArg Sheet.getStack h1.rest; exact this
  have hmemd : ∀ o, o ∈ done ↔ ∃ t ∈ terms, ∃ n ∈ t.names, s.outputIndex.find n = some o := by
    intro o
    rw [h2]
    simp only [List.not_mem_nil, false_or, List.mem_dedup, List.mem_flatMap]
    constructor
    · rintro ⟨n, ⟨t, ht, hn⟩, ho⟩; exact ⟨t, ht, n, hn, ho⟩
    · rintro ⟨t, ht, n, hn, ho⟩; exact ⟨n, ⟨t, ht, hn⟩, ho⟩
  have hcase : ∀ r, r < s.nrel + 1 → r = s.nrel ∨ (r ≠ s.nrel ∧ r < s.nrel) := by intro r; omega
  refine ⟨⟨⟨?_, ⟨?_, ?_, ?_, ?_, ?_, ?_, ?_⟩, ⟨?_, ?_, ?_⟩, ?_⟩, ?_, ?_, ?_⟩, h1.nrel, h1.terms, h1.other⟩
  · exact hg.fit.wf.congr e1 e2 e3 e4 e5 e6 (fun i => ⟨c1 i, c2 i, c3 i, c4 i⟩) (fun i hi => by rw [c5]; exact hg.fit.wf.base i hi)
  · rw [e4]; exact hr.inj
  · intro r hr' t ht n hn
    rw [e4]
    rw [h1.nrel] at hr'
    rcases hcase r hr' with rfl | ⟨hne, hlt⟩
    · rw [h1.terms] at ht
      obtain ⟨o, g1, g2⟩ := h3 n (by rw [List.mem_dedup, List.mem_flatMap]; exact ⟨t, ht, hn⟩)
      exact ⟨o, g1, by rw [c3]; exact g2⟩
    · rw [h1.other r hne] at ht
      obtain ⟨o, g1, g2⟩ := hr.names r hlt t ht n hn
      exact ⟨o, g1, by rw [c3]; exact g2⟩
  · intro r hr' o
    rw [e4]
    rw [h1.nrel] at hr'
    rcases hcase r hr' with rfl | ⟨hne, hlt⟩
    · rw [h1.terms, h1.edges]; exact hmemd o
    · rw [h1.other r hne]; exact hr.edges r hlt o
  · intro r hr'
    rw [h1.nrel] at hr'
    rcases hcase r hr' with rfl | ⟨hne, hlt⟩
    · rw [h1.edges]; exact h1.nodup
    · rw [h1.other r hne]; exact hr.edgesNodup r hlt
  · intro o r
    have hrel : (s'.cell o).relations = if o ∈ done then (s.cell o).relations ++ [s.nrel] else (s.cell o).relations := by rw [h1.cell]
    rw [hrel, h1.nrel]
    constructor
    · intro hm
      have hm' : r ∈ (s.cell o).relations ∨ (o ∈ done ∧ r = s.nrel) := by
        split at hm
        · rename_i ho
          rcases List.mem_append.mp hm with h | h
          · exact Or.inl h
          · exact Or.inr ⟨ho, by simpa using h⟩
        · exact Or.inl hm
      rcases hm' with h | ⟨ho, rfl⟩
      · obtain ⟨g1, g2⟩ := (hr.rels o r).mp h
        exact ⟨by omega, by rw [h1.other r (by omega)]; exact g2⟩
      · exact ⟨by omega, by rw [h1.edges]; exact ho⟩
    · rintro ⟨g1, g2⟩
      rcases hcase r g1 with rfl | ⟨hne, hlt⟩
      · rw [h1.edges] at g2
        rw [if_pos g2]; simp
      · rw [h1.other r hne] at g2
        have := (hr.rels o r).mpr ⟨hlt, g2⟩
        split
        · exact List.mem_append_left _ this
        · exact this
  · intro o
    have hrel : (s'.cell o).relations = if o ∈ done then (s.cell o).relations ++ [s.nrel] else (s.cell o).relations := by rw [h1.cell]
    rw [hrel]
    split
    · rw [List.nodup_append]
      refine ⟨hr.relsNodup o, by simp, ?_⟩
      intro a ha b hb hab
      simp only [List.mem_singleton] at hb
      have := hfree o a ha
      omega
    · exact hr.relsNodup o
  · intro o
    rw [h1.cell]
    dsimp only
    split
    · rw [List.length_append, hr.initial]; rfl
    · exact hr.initial o
  · rw [e7]; exact hg.fit.prio.low
  · rw [e8]; exact hg.fit.prio.high
  · intro i; rw [c6, e8]; exact hg.fit.prio.le i
  · intro n j; rw [e2, e3]; simp only [c1, c3]; exact hg.fit.inp n j
  · rw [e9]; exact hg.stack
  · intro i; rw [c1, c7]; exact hg.base i
  · intro i; rw [c1, c7]; exact hg.own i

end Verif.Adam
