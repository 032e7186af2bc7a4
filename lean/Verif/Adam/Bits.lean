import Verif.Adam.Props
/-! The contributors are always interface cells: their input halves. -/
namespace Verif.Adam
variable {N V : Type} [DecidableEq N] [DecidableEq V] [Values V]

/-- Bit `k` stands for the input half of an interface cell. -/
def Half (s : Sheet N V) (k : Nat) : Prop := k < s.size ∧ (s.cell k).spec = .interfaceInput

/-- The members in which the sets of contributors are: all the bits are in `H`. -/
structure BitsOk (H : Nat → Prop) (s : Sheet N V) : Prop where
  cell : ∀ i k, (s.cell i).contributing.testBit k = true → H k
  cond : ∀ k, s.condContributing.testBit k = true → H k

/-- During an update. -/
structure EvalOk (H : Nat → Prop) (s : Sheet N V) : Prop where
  bits : BitsOk H s
  acc : ∀ k, s.accumulate.testBit k = true → H k
  mode : s.initMode = false

/-- Between the calls. -/
def RestOk (s : Sheet N V) : Prop := BitsOk (Half s) s

/-- While initializers run. -/
structure InitOk (s : Sheet N V) : Prop where
  bits : RestOk s
  mode : s.initMode = true

def Pres {α : Type} (I : Sheet N V → Prop) (x : M N V α) : Prop := ∀ s, I s → I (x s).2

section
variable {I : Sheet N V → Prop} {α β : Type}

theorem Pres.bind {x : M N V α} {f : α → M N V β} (hx : Pres I x) (hf : ∀ a, Pres I (f a)) : Pres I (x >>= f) := by
  intro s h
  have h1 := hx s h
  rw [bind_run]
  cases hr : x s with
  | mk r s' =>
      rw [hr] at h1
      cases r with
      | ok a => exact hf a s' h1
      | error e => exact h1
theorem Pres.pure (a : α) : Pres I (pure a : M N V α) := fun _ h => h
theorem Pres.throw (e : Err N) : Pres I (throw e : M N V α) := fun _ h => h
theorem Pres.modify {f : Sheet N V → Sheet N V} (h : ∀ s, I s → I (f s)) : Pres I (modify f) := h
theorem Pres.ite {c : Prop} [Decidable c] {x y : M N V α} (hx : Pres I x) (hy : Pres I y) : Pres I (if c then x else y) := by
  split
  · exact hx
  · exact hy
theorem Pres.gets_bind {g : Sheet N V → α} {f : α → M N V β} (hf : ∀ a, Pres I (f a)) : Pres I (Verif.Adam.gets g >>= f) :=
  Pres.bind (fun _ h => h) hf
theorem Pres.modify_bind {g : Sheet N V → Sheet N V} {f : Unit → M N V β} (h : ∀ s, I s → I (g s)) (hf : Pres I (f ())) :
    Pres I (Verif.Adam.modify g >>= f) := (Pres.modify h).bind fun _ => hf

theorem Prog.run_pres {g : N → M N V V} (hg : ∀ n, Pres I (g n)) (p : Prog N V) : Pres I (p.run g) := by
  induction p with
  | ret v => exact Pres.pure v
  | fail => exact Pres.throw _
  | ask n k ih => exact (hg n).bind fun v => ih v

theorem Term.run_pres {g : N → M N V V} (hg : ∀ n, Pres I (g n)) (t : Term N V) : Pres I (t.run g) := by
  unfold Term.run
  refine (Prog.run_pres hg _).bind fun v => ?_
  split
  · exact Pres.pure _
  · split
    · exact Pres.throw _
    · split
      · exact Pres.throw _
      · exact Pres.pure _
end

section
variable {H : Nat → Prop}

/-- A change that does not touch the sets of contributors. -/
theorem BitsOk.congr {s s' : Sheet N V} (h : BitsOk H s) (h3 : ∀ i, (s'.cell i).contributing = (s.cell i).contributing)
    (h4 : s'.condContributing = s.condContributing) : BitsOk H s' :=
  ⟨fun i k hk => h.cell i k (by rw [← h3]; exact hk), fun k hk => h.cond k (by rw [← h4]; exact hk)⟩

theorem EvalOk.congr {s s' : Sheet N V} (h : EvalOk H s) (h3 : ∀ i, (s'.cell i).contributing = (s.cell i).contributing)
    (h4 : s'.condContributing = s.condContributing) (h5 : s'.accumulate = s.accumulate) (h6 : s'.initMode = s.initMode) : EvalOk H s' :=
  ⟨h.bits.congr h3 h4, fun k hk => h.acc k (by rw [← h5]; exact hk), by rw [h6]; exact h.mode⟩

theorem modCell_contrib (s : Sheet N V) (i : Nat) {f : Cell N V → Cell N V} (hf : ∀ c, (f c).contributing = c.contributing) (j : Nat) :
    ((s.modCell i f).cell j).contributing = (s.cell j).contributing := by
  simp only [Sheet.modCell]
  split
  · exact hf _
  · rfl

theorem BitsOk.modCell {s : Sheet N V} (h : BitsOk H s) (i : Nat) {f : Cell N V → Cell N V}
    (h2 : ∀ c, (f c).contributing = c.contributing) : BitsOk H (s.modCell i f) := h.congr (modCell_contrib s i h2) rfl

theorem EvalOk.modCell {s : Sheet N V} (h : EvalOk H s) (i : Nat) {f : Cell N V → Cell N V}
    (h2 : ∀ c, (f c).contributing = c.contributing) : EvalOk H (s.modCell i f) := h.congr (modCell_contrib s i h2) rfl rfl rfl

/-- A cell gets new contributors. -/
theorem EvalOk.setContrib {s : Sheet N V} (h : EvalOk H s) (i : Nat) {f : Cell N V → Cell N V}
    (h2 : ∀ k, (f (s.cell i)).contributing.testBit k = true → H k) : EvalOk H (s.modCell i f) := by
  refine ⟨⟨fun j k hk => ?_, h.bits.cond⟩, h.acc, h.mode⟩
  simp only [Sheet.modCell] at hk
  split at hk
  · rename_i he
    subst he
    exact h2 k hk
  · exact h.bits.cell j k hk

theorem EvalOk.setAcc {s : Sheet N V} (h : EvalOk H s) {a : Bits} (ha : ∀ k, a.testBit k = true → H k) : EvalOk H { s with accumulate := a } :=
  ⟨h.bits.congr (fun _ => rfl) rfl, ha, h.mode⟩

theorem or_bits {P : Nat → Prop} {a b : Bits} (ha : ∀ k, a.testBit k = true → P k) (hb : ∀ k, b.testBit k = true → P k) :
    ∀ k, (a ||| b).testBit k = true → P k := by
  intro k hk
  rw [Nat.testBit_or, Bool.or_eq_true] at hk
  exact hk.elim (ha k) (hb k)

theorem zero_bits {P : Nat → Prop} : ∀ k, (0 : Nat).testBit k = true → P k := by intro k hk; simp at hk

theorem calculate_pres {g : N → M N V V} (hg : ∀ n, Pres (EvalOk H) (g n)) (i : Nat) : Pres (EvalOk H) (calculate g i) := by
  unfold calculate
  refine Pres.gets_bind fun c => Pres.ite (Pres.pure _) (Pres.ite (Pres.throw _) ?_)
  have hj : ∀ r : V, Pres (N := N) (V := V) (EvalOk H) (modify fun s => s.modCell i fun c =>
      { c with dirty := decide (r ≠ c.state), state := r, evaluated := true }) :=
    fun r => Pres.modify fun s h => h.modCell i fun _ => rfl
  dsimp only
  split
  · exact (Pres.throw _).bind hj
  · exact (Prog.run_pres hg _).bind hj
  · exact (hg _).bind hj

theorem popAfter_pres {α : Type} (b : Bool) {x : M N V α} (hx : Pres (EvalOk H) x) : Pres (EvalOk H) (popAfter b x) := by
  intro s h
  have h1 := hx s h
  unfold popAfter
  cases hr : x s with
  | mk r s' =>
      rw [hr] at h1
      dsimp only
      split
      · exact h1.congr (fun _ => rfl) rfl rfl rfl
      · exact h1

theorem getFresh_pres {g : N → M N V V} (hg : ∀ n, Pres (EvalOk H) (g n)) (i : Nat) : Pres (EvalOk H) (getFresh g i) := by
  unfold getFresh
  refine Pres.gets_bind fun c => ?_
  have h3 : Pres (N := N) (V := V) (EvalOk H) (if c.spec ≠ .input ∧ c.spec ≠ .constant then
      modify fun s => s.modCell i fun c => { c with contributing := c.contributing ||| s.condContributing } else pure ()) :=
    Pres.ite (Pres.modify fun s h => h.setContrib i (or_bits (h.bits.cell i) h.bits.cond)) (Pres.pure _)
  refine Pres.ite (Pres.modify_bind (fun s h => h.setAcc (or_bits h.acc (h.bits.cell i))) h3) ?_
  -- the accumulated bits are put aside
  intro s h
  have hold := h.acc
  simp only [bind_gets]
  refine Pres.modify_bind (I := EvalOk H) (fun t ht => ht.setAcc zero_bits) ((calculate_pres hg i).bind fun _ => Pres.modify_bind (fun t ht => ?_) h3) s h
  have := ht.setContrib i (f := fun c => { c with contributing := t.accumulate }) ht.acc
  exact this.setAcc (or_bits ht.acc hold)

theorem getBody_pres {g : N → M N V V} (hg : ∀ n, Pres (EvalOk H) (g n)) (n : N) : Pres (EvalOk H) (getBody g n) := by
  unfold getBody
  refine Pres.gets_bind fun s => ?_
  dsimp only
  split
  · exact Pres.throw _
  · refine Pres.ite ?_ ?_
    · split
      · exact Pres.throw _
      · rename_i j _
        split
        · exact Pres.modify_bind (fun t ht => ht.congr (fun _ => rfl) rfl rfl rfl) (Term.run_pres hg _)
        · refine Pres.modify_bind (fun t ht => ?_) (Pres.pure _)
          exact (ht.setAcc (or_bits ht.acc (ht.bits.cell j))).congr (fun _ => rfl) rfl rfl rfl
    · have h2 : ∀ i b, Pres (N := N) (V := V) (EvalOk H) (do popAfter b (getFresh g i); gets fun s => (s.cell i).state) :=
        fun i b => (popAfter_pres _ (getFresh_pres hg i)).bind fun _ _ h => h
      split
      · exact Pres.modify_bind (fun t ht => ht.congr (fun _ => rfl) rfl rfl rfl) (h2 _ _)
      · exact h2 _ _

theorem get_pres : ∀ (f : Nat) (n : N), Pres (V := V) (EvalOk H) (get f n)
  | 0, n => by
      intro s h
      unfold get
      simp only [bind_gets, h.mode]
      exact h
  | f + 1, n => by
      intro s h
      unfold get
      simp only [bind_gets, h.mode]
      exact getBody_pres (get_pres f) n s h

theorem evaluate_pres (p : Prog N V) : Pres (EvalOk H) (evaluate p) := Pres.gets_bind fun _ => Prog.run_pres (get_pres _) p

theorem decrEdges_pres : ∀ (l : List Nat) (s : Sheet N V), EvalOk H s → EvalOk H (decrEdges l s)
  | [], _, h => h
  | i :: l, s, h => decrEdges_pres l _ (h.modCell i fun _ => rfl)

theorem conditionals_pres : ∀ l : List Nat, Pres (N := N) (V := V) (EvalOk H) (conditionals l)
  | [] => Pres.pure _
  | r :: rs => by
      unfold conditionals
      refine Pres.gets_bind fun rl => ?_
      split
      · exact conditionals_pres rs
      · refine (evaluate_pres _).bind fun v => ?_
        split
        · exact Pres.throw _
        · exact conditionals_pres rs
        · exact Pres.modify_bind (decrEdges_pres _) (Pres.modify_bind (fun t ht => ht.congr (fun _ => rfl) rfl rfl rfl) (conditionals_pres rs))

theorem outputCell_pres (n : N) : Pres (V := V) (EvalOk H) (outputCell n) := by
  unfold outputCell
  refine Pres.gets_bind fun s => ?_
  split
  · exact Pres.pure _
  · exact Pres.throw _

theorem lowerPriority_pres (j : Nat) (s : Sheet N V) (h : EvalOk H s) : EvalOk H (lowerPriority j s) := by
  unfold lowerPriority
  split
  · exact (h.modCell j (f := fun c => { c with priority := s.priorityLow - 1 }) fun _ => rfl).congr (fun _ => rfl) rfl rfl rfl
  · exact h

theorem applyTerm_pres (t : RelTerm N V) : ∀ (l : List N) (k : Nat), Pres (EvalOk H) (applyTerm t k l)
  | [], k => Pres.pure _
  | n :: l, k => by
      unfold applyTerm
      refine (outputCell_pres n).bind fun o => Pres.gets_bind fun c => Pres.ite (Pres.throw _) ?_
      refine Pres.modify_bind (fun s h => h.modCell o fun _ => rfl) ?_
      split
      · exact Pres.throw _
      · refine Pres.modify_bind (lowerPriority_pres _) (Pres.gets_bind fun _ => Pres.ite ?_ ?_)
        · exact (applyTerm_pres t l _).bind fun _ => Pres.pure _
        · exact Pres.modify_bind (fun s h => h.modCell o fun _ => rfl) (applyTerm_pres t l _)

theorem detach_pres : ∀ l : List N, Pres (V := V) (EvalOk H) (detach l)
  | [] => Pres.pure _
  | n :: l => by
      unfold detach
      refine (outputCell_pres n).bind fun o => Pres.modify_bind (fun s h => ?_) (detach_pres l)
      split
      · exact h
      · exact h.modCell o fun _ => rfl

theorem flowRel_pres (i r : Nat) : Pres (N := N) (V := V) (EvalOk H) (flowRel i r) := by
  unfold flowRel
  refine Pres.gets_bind fun rl => Pres.ite (Pres.pure _) (Pres.modify_bind (fun s h => h.modCell i fun _ => rfl) (Pres.gets_bind fun s => ?_))
  split
  · exact Pres.throw _
  · split
    · exact Pres.pure _
    · exact Pres.ite (Pres.pure _) (Pres.modify_bind (fun s h => h.congr (fun _ => rfl) rfl rfl rfl)
        ((applyTerm_pres _ _ _).bind fun _ => (detach_pres _).bind fun _ => Pres.pure _))

theorem flowCell_pres (i : Nat) : ∀ (l stack : List Nat), Pres (N := N) (V := V) (EvalOk H) (flowCell i stack l)
  | [], _ => Pres.pure _
  | r :: rs, _ => (flowRel_pres i r).bind fun _ => flowCell_pres i rs _

theorem flowLoop_pres : ∀ (b : Nat) (stack : List Nat), Pres (N := N) (V := V) (EvalOk H) (flowLoop b stack)
  | 0, [] => Pres.pure _
  | b + 1, [] => Pres.pure _
  | 0, _ :: _ => Pres.throw _
  | b + 1, i :: stack => by
      unfold flowLoop
      exact Pres.gets_bind fun c => Pres.ite (flowLoop_pres b stack) (Pres.modify_bind (fun s h => h.modCell i fun _ => rfl)
        ((flowCell_pres i _ _).bind fun _ => flowLoop_pres b _))

theorem flow_pres (srt : Sorter) : Pres (N := N) (V := V) (EvalOk H) (flow srt) :=
  Pres.gets_bind fun _ => (flowLoop_pres _ _).bind fun _ => Pres.pure _

theorem calcOutput_pres (i : Nat) : Pres (N := N) (V := V) (EvalOk H) (calcOutput i) := by
  unfold calcOutput
  refine Pres.gets_bind fun c => ?_
  have hl : Pres (N := N) (V := V) (EvalOk H) (modify (link i)) := by
    refine Pres.modify fun s h => ?_
    unfold link
    split
    · exact h
    · split
      · exact h.modCell _ fun _ => rfl
      · exact h
  have hm : Pres (N := N) (V := V) (EvalOk H) (do
      modify fun s => s.modCell i fun c => { c with contributing := s.accumulate ||| s.condContributing }
      modify (link i)) :=
    Pres.modify_bind (fun s h => h.setContrib i (or_bits h.acc h.bits.cond)) hl
  have hstack : ∀ (f : List (N × Bool) → List (N × Bool)) (s : Sheet N V), EvalOk H s → EvalOk H { s with getStack := f s.getStack } :=
    fun f s h => h.congr (fun _ => rfl) rfl rfl rfl
  refine Pres.ite hl ?_
  refine Pres.modify_bind (fun s h => h.setAcc zero_bits) (Pres.ite ?_ ?_)
  · refine Pres.modify_bind (hstack _) (Pres.gets_bind fun size => (calculate_pres (get_pres size) i).bind fun _ => Pres.ite ?_ hm)
    exact Pres.modify_bind (hstack _) hm
  · refine Pres.gets_bind fun size => (calculate_pres (get_pres size) i).bind fun _ => Pres.ite ?_ hm
    exact Pres.modify_bind (hstack _) hm

theorem calcOutputs_pres : ∀ l : List Nat, Pres (N := N) (V := V) (EvalOk H) (calcOutputs l)
  | [] => Pres.pure _
  | i :: l => (calcOutput_pres i).bind fun _ => calcOutputs_pres l

theorem poisonLoop_pres : ∀ (l : List Nat) (b : Bits), Pres (N := N) (V := V) (EvalOk H) (poisonLoop b l)
  | [], _ => Pres.pure _
  | i :: l, b => by
      unfold poisonLoop
      refine Pres.gets_bind fun c => ?_
      split
      · exact Pres.throw _
      · exact poisonLoop_pres l _
      · exact poisonLoop_pres l _

theorem notify_pres (poison : Bits) : ∀ (l : List Nat) (a : Bits), Pres (N := N) (V := V) (EvalOk H) (notify poison a l)
  | [], _ => Pres.pure _
  | i :: l, a => by
      unfold notify
      refine Pres.gets_bind fun s => Pres.modify_bind (fun s h => h.modCell i fun _ => rfl) ((notify_pres poison l _).bind fun _ => Pres.pure _)

theorem update_pres (srt : Sorter) (ord : List Nat) (s : Sheet N V) (h : BitsOk H s) (hm : s.initMode = false) :
    EvalOk H (update srt ord s).2 := by
  have h0 : EvalOk H (startUpdate s) := ⟨⟨fun i k hk => h.cell i k hk, zero_bits⟩, zero_bits, hm⟩
  have : Pres (N := N) (V := V) (EvalOk H) (do
      conditionals (List.range (← gets (·.nrel)))
      modify fun s => { s with condContributing := s.accumulate }
      let pa ← flow srt
      calcOutputs ord
      let poison ← poisonLoop 0 (← gets (·.invariants))
      let (ev, active) ← notify poison pa ord
      modify fun s => { s with priorityAccessed := pa, active := active }
      pure (ev ++ [.enabled pa active])) := by
    refine Pres.gets_bind fun n => (conditionals_pres _).bind fun _ => Pres.modify_bind (fun t ht => ?_) ((flow_pres srt).bind fun pa =>
      (calcOutputs_pres ord).bind fun _ => Pres.gets_bind fun inv => (poisonLoop_pres inv 0).bind fun po => (notify_pres po ord pa).bind fun r => ?_)
    · exact ⟨⟨ht.bits.cell, ht.acc⟩, ht.acc, ht.mode⟩
    · exact Pres.modify_bind (fun t ht => ht.congr (fun _ => rfl) rfl rfl rfl) (Pres.pure _)
  exact this _ h0

end

/-! ### Building a sheet -/

theorem RestOk.congr {s s' : Sheet N V} (h : RestOk s) (h1 : s'.size = s.size) (h2 : ∀ i, (s'.cell i).spec = (s.cell i).spec)
    (h3 : ∀ i, (s'.cell i).contributing = (s.cell i).contributing) (h4 : s'.condContributing = s.condContributing) : RestOk s' := by
  have hH : ∀ k, Half s k → Half s' k := fun k ⟨a, b⟩ => ⟨by rw [h1]; exact a, by rw [h2]; exact b⟩
  exact ⟨fun i k hk => hH k (h.cell i k (by rw [← h3]; exact hk)), fun k hk => hH k (h.cond k (by rw [← h4]; exact hk))⟩

theorem modCell_spec (s : Sheet N V) (i : Nat) {f : Cell N V → Cell N V} (hf : ∀ c, (f c).spec = c.spec) (j : Nat) :
    ((s.modCell i f).cell j).spec = (s.cell j).spec := by
  simp only [Sheet.modCell]
  split
  · exact hf _
  · rfl

theorem RestOk.modCell {s : Sheet N V} (h : RestOk s) (i : Nat) {f : Cell N V → Cell N V} (h1 : ∀ c, (f c).spec = c.spec)
    (h2 : ∀ c, (f c).contributing = c.contributing) : RestOk (s.modCell i f) :=
  h.congr rfl (modCell_spec s i h1) (modCell_contrib s i h2) rfl

theorem InitOk.congr {s s' : Sheet N V} (h : InitOk s) (h1 : s'.size = s.size) (h2 : ∀ i, (s'.cell i).spec = (s.cell i).spec)
    (h3 : ∀ i, (s'.cell i).contributing = (s.cell i).contributing) (h4 : s'.condContributing = s.condContributing)
    (h5 : s'.initMode = s.initMode) : InitOk s' := ⟨h.bits.congr h1 h2 h3 h4, by rw [h5]; exact h.mode⟩

theorem InitOk.modCell {s : Sheet N V} (h : InitOk s) (i : Nat) {f : Cell N V → Cell N V} (h1 : ∀ c, (f c).spec = c.spec)
    (h2 : ∀ c, (f c).contributing = c.contributing) : InitOk (s.modCell i f) := ⟨h.bits.modCell i h1 h2, h.mode⟩

theorem RestOk.push {s : Sheet N V} (h : RestOk s) (c : Cell N V) (hc : ∀ k, c.contributing.testBit k = true → k = s.size ∧ c.spec = .interfaceInput) :
    RestOk { s with size := s.size + 1, cell := fun j => if j = s.size then c else s.cell j } := by
  have hH : ∀ k, Half s k → Half { s with size := s.size + 1, cell := fun j => if j = s.size then c else s.cell j } k := by
    rintro k ⟨a, b⟩
    refine ⟨Nat.lt_succ_of_lt a, ?_⟩
    show (if k = s.size then c else s.cell k).spec = _
    rw [if_neg (by omega)]
    exact b
  refine ⟨fun i k hk => ?_, fun k hk => hH k (h.cond k hk)⟩
  change (if i = s.size then c else s.cell i).contributing.testBit k = true at hk
  split at hk
  · obtain ⟨rfl, hs⟩ := hc k hk
    refine ⟨Nat.lt_succ_self _, ?_⟩
    show (if s.size = s.size then c else s.cell s.size).spec = _
    rw [if_pos rfl]
    exact hs
  · exact hH k (h.cell i k hk)

theorem pushCell_rest (c : Cell N V) (hc : c.contributing = 0) : Pres (N := N) RestOk (pushCell c) :=
  Pres.modify fun s h => h.push c (by rw [hc]; exact zero_bits)
theorem pushCell_init (c : Cell N V) (hc : c.contributing = 0) : Pres (N := N) InitOk (pushCell c) :=
  Pres.modify fun s h => ⟨h.bits.push c (by rw [hc]; exact zero_bits), h.mode⟩

theorem insertName_rest (n : N) : Pres (V := V) RestOk (insertName n) :=
  Pres.gets_bind fun _ => Pres.ite (Pres.throw _) (Pres.modify fun s h => h.congr rfl (fun _ => rfl) (fun _ => rfl) rfl)
theorem insertName_init (n : N) : Pres (V := V) InitOk (insertName n) :=
  Pres.gets_bind fun _ => Pres.ite (Pres.throw _) (Pres.modify fun s h => h.congr rfl (fun _ => rfl) (fun _ => rfl) rfl rfl)

theorem getInit_init (n : N) : Pres (V := V) InitOk (getInit n) := by
  intro s h
  obtain ⟨r, a, he⟩ := getInit_acc n s
  rw [he]
  exact h.congr rfl (fun _ => rfl) (fun _ => rfl) rfl rfl

theorem get_pinit : ∀ (f : Nat) (n : N), Pres (V := V) InitOk (get f n)
  | 0, n => by
      intro s h
      unfold get
      simp only [bind_gets, h.mode]
      exact getInit_init n s h
  | f + 1, n => by
      intro s h
      unfold get
      simp only [bind_gets, h.mode]
      exact getInit_init n s h

theorem evaluate_pinit (p : Prog N V) : Pres InitOk (evaluate p) := Pres.gets_bind fun _ => Prog.run_pres (get_pinit _) p
theorem lookup_pinit (n : N) : Pres (V := V) InitOk (lookup n) := Pres.gets_bind fun _ => get_pinit _ n

theorem inInitMode_rest {α : Type} {x : M N V α} (hx : Pres InitOk x) : Pres RestOk (inInitMode x) := by
  intro s h
  have h1 := hx { s with initMode := true } ⟨h.congr rfl (fun _ => rfl) (fun _ => rfl) rfl, rfl⟩
  unfold inInitMode
  cases hr : x { s with initMode := true } with
  | mk r s' =>
      rw [hr] at h1
      exact h1.bits.congr rfl (fun _ => rfl) (fun _ => rfl) rfl

theorem initializeOne_init (i : Nat) : Pres (N := N) (V := V) InitOk (initializeOne i) := by
  unfold initializeOne
  refine Pres.modify_bind (fun s h => h.congr rfl (fun _ => rfl) (fun _ => rfl) rfl rfl) (Pres.gets_bind fun c => ?_)
  have hf : ∀ v : V, Pres (N := N) (V := V) InitOk (modify fun s =>
      { (s.modCell i fun c => { c with state := v, priority := s.priorityHigh + 1, initContributing := c.initContributing ||| s.accumulate }) with
        priorityHigh := s.priorityHigh + 1 }) := by
    intro v
    refine Pres.modify fun s h => ?_
    exact (h.modCell i (f := fun c => { c with state := v, priority := s.priorityHigh + 1, initContributing := c.initContributing ||| s.accumulate })
      (fun _ => rfl) fun _ => rfl).congr rfl (fun _ => rfl) (fun _ => rfl) rfl rfl
  split
  · exact (Pres.throw _).bind hf
  · exact (evaluate_pinit _).bind hf
  · exact (lookup_pinit _).bind hf

theorem addInput_rest (n : N) (p : Option (Prog N V)) : Pres RestOk (addInput n p) := by
  refine inInitMode_rest ?_
  have hf : ∀ v : V, Pres (N := N) (V := V) InitOk (do
      let k ← gets (·.size)
      pushCell (mkCell .input n .none false true true v 0 (Bits.single k) none)
      modify fun s => { s with inputIndex := s.inputIndex.insert n k }
      insertName n) := fun v => Pres.gets_bind fun k => (pushCell_init _ rfl).bind fun _ =>
    Pres.modify_bind (fun s h => h.congr rfl (fun _ => rfl) (fun _ => rfl) rfl rfl) (insertName_init n)
  cases p with
  | none => exact (Pres.pure _).bind hf
  | some p => exact (evaluate_pinit p).bind hf

theorem addOutput_rest (n : N) (p : Prog N V) : Pres RestOk (addOutput n p) :=
  Pres.gets_bind fun k => (pushCell_rest _ rfl).bind fun _ => Pres.modify_bind (fun s h => h.congr rfl (fun _ => rfl) (fun _ => rfl) rfl)
    ((insertName_rest n).bind fun _ => Pres.modify fun s h => h.congr rfl (fun _ => rfl) (fun _ => rfl) rfl)

theorem single_bits {i k : Nat} (h : (Bits.single i).testBit k = true) : k = i := by
  unfold Bits.single at h
  rw [Nat.testBit_two_pow] at h
  exact (of_decide_eq_true h).symm

theorem pushHalf_rest {s : Sheet N V} (h : RestOk s) (n : N) (c : Calc N V) (l : Bool) :
    RestOk (pushCell (mkCell .interfaceInput n c l true true Values.empty (Bits.single s.size) 0 none) s).2 :=
  h.push _ fun k hk => ⟨single_bits hk, rfl⟩

theorem addInterface_rest (n : N) (l : Bool) (p q : Option (Prog N V)) : Pres RestOk (addInterface n l p q) := by
  refine inInitMode_rest fun s h => ?_
  simp only [bind_gets]
  have hrest : Pres (N := N) (V := V) InitOk (do
      modify fun t => { t with inputIndex := t.inputIndex.insert n s.size }
      if p.isSome then initializeOne s.size
      pushCell (mkCell .interfaceOutput n (Calc.ofExpr q) false false false Values.empty 0 0 (some s.size))
      modify fun t => { t with outputIndex := t.outputIndex.insert n (s.size + 1) }
      insertName n) := by
    have h2 : Pres (N := N) (V := V) InitOk (do
        pushCell (mkCell .interfaceOutput n (Calc.ofExpr q) false false false Values.empty 0 0 (some s.size))
        modify fun t => { t with outputIndex := t.outputIndex.insert n (s.size + 1) }
        insertName n) := (pushCell_init _ rfl).bind fun _ =>
      Pres.modify_bind (fun t h => h.congr rfl (fun _ => rfl) (fun _ => rfl) rfl rfl) (insertName_init n)
    exact Pres.modify_bind (fun t h => h.congr rfl (fun _ => rfl) (fun _ => rfl) rfl rfl)
      (Pres.ite ((initializeOne_init _).bind fun _ => h2) h2)
  exact hrest _ ⟨pushHalf_rest h.bits n _ l, h.mode⟩

theorem addInterfaceValue_rest (n : N) (v : V) : Pres (N := N) RestOk (addInterfaceValue n v) := by
  intro s h
  unfold addInterfaceValue
  simp only [bind_gets]
  have hrest : Pres (N := N) (V := V) RestOk (do
      modify fun t => { t with inputIndex := t.inputIndex.insert n s.size }
      modify fun t => { (t.modCell s.size fun c => { c with state := v, priority := t.priorityHigh + 1 }) with
        priorityHigh := t.priorityHigh + 1 }
      pushCell (mkCell .interfaceOutput n .self false false false Values.empty 0 0 (some s.size))
      modify fun t => { t with outputIndex := t.outputIndex.insert n (s.size + 1) }
      insertName n) := by
    refine Pres.modify_bind (fun t h => h.congr rfl (fun _ => rfl) (fun _ => rfl) rfl) (Pres.modify_bind (fun t h => ?_)
      ((pushCell_rest _ rfl).bind fun _ => Pres.modify_bind (fun t h => h.congr rfl (fun _ => rfl) (fun _ => rfl) rfl) (insertName_rest n)))
    exact (h.modCell s.size (f := fun c => { c with state := v, priority := t.priorityHigh + 1 }) (fun _ => rfl) fun _ => rfl).congr rfl
      (fun _ => rfl) (fun _ => rfl) rfl
  exact hrest _ (pushHalf_rest h n _ true)

theorem addConstantValue_rest (n : N) (v : V) : Pres (N := N) RestOk (addConstantValue n v) :=
  (pushCell_rest _ rfl).bind fun _ => insertName_rest n
theorem addConstant_rest (n : N) (p : Prog N V) : Pres RestOk (addConstant n p) :=
  inInitMode_rest ((evaluate_pinit p).bind fun _ => (pushCell_init _ rfl).bind fun _ => insertName_init n)
theorem addLogic_rest (n : N) (p : Prog N V) : Pres RestOk (addLogic n p) := (pushCell_rest _ rfl).bind fun _ => insertName_rest n
theorem addInvariant_rest (n : N) (p : Prog N V) : Pres RestOk (addInvariant n p) :=
  Pres.gets_bind fun k => (pushCell_rest _ rfl).bind fun _ => Pres.modify_bind (fun s h => h.congr rfl (fun _ => rfl) (fun _ => rfl) rfl)
    ((insertName_rest n).bind fun _ => Pres.modify fun s h => h.congr rfl (fun _ => rfl) (fun _ => rfl) rfl)

theorem attach_rest (r : Nat) : ∀ l : List N, Pres (V := V) RestOk (attach r l)
  | [] => Pres.pure _
  | n :: l => by
      unfold attach
      refine Pres.gets_bind fun s => ?_
      split
      · exact Pres.throw _
      · rename_i i _
        refine Pres.ite (Pres.throw _) (Pres.modify_bind (fun t h => ?_) (attach_rest r l))
        have : RestOk (t.modRel r fun rl => { rl with edges := rl.edges ++ [i] }) := h.congr rfl (fun _ => rfl) (fun _ => rfl) rfl
        exact this.modCell i (fun _ => rfl) fun _ => rfl

theorem addRelation_rest (c : Option (Prog N V)) (ts : List (RelTerm N V)) : Pres RestOk (addRelation c ts) :=
  Pres.gets_bind fun r => Pres.modify_bind (fun s h => h.congr rfl (fun _ => rfl) (fun _ => rfl) rfl) (attach_rest r _)

theorem set_rest (n : N) (v : V) : Pres (N := N) RestOk (set n v) := by
  unfold set
  refine Pres.gets_bind fun s => ?_
  split
  · exact Pres.throw _
  · rename_i i _
    refine Pres.modify fun t h => ?_
    have h2 : RestOk (({ t with priorityHigh := t.priorityHigh + 1 } : Sheet N V).modCell i fun c => { c with state := v, priority := t.priorityHigh + 1 }) :=
      RestOk.modCell (s := { t with priorityHigh := t.priorityHigh + 1 }) (h.congr rfl (fun _ => rfl) (fun _ => rfl) rfl) i
        (f := fun c => { c with state := v, priority := t.priorityHigh + 1 }) (fun _ => rfl) fun _ => rfl
    dsimp only
    split
    · exact h2.congr rfl (fun _ => rfl) (fun _ => rfl) rfl
    · exact h2

theorem raiseAll_rest : ∀ l : List Nat, Pres (N := N) (V := V) RestOk (raiseAll l)
  | [] => Pres.pure _
  | i :: l => Pres.bind (Pres.modify fun s h => (h.modCell i (f := fun c => { c with priority := s.priorityHigh + 1 }) (fun _ => rfl) fun _ => rfl).congr rfl
      (fun _ => rfl) (fun _ => rfl) rfl) fun _ => raiseAll_rest l

theorem touch_rest (srt : Sorter) (ns : List N) : Pres (V := V) RestOk (touch srt ns) := Pres.gets_bind fun _ => raiseAll_rest _

theorem reinitLoop_init : ∀ l : List Nat, Pres (N := N) (V := V) InitOk (reinitLoop l)
  | [] => Pres.pure _
  | i :: l => by
      unfold reinitLoop
      refine Pres.gets_bind fun s => ?_
      split
      · exact reinitLoop_init l
      · exact Pres.ite (reinitLoop_init l) ((initializeOne_init _).bind fun _ => reinitLoop_init l)

theorem reinitialize_rest (ord : List Nat) : Pres (N := N) (V := V) RestOk (reinitialize ord) :=
  inInitMode_rest ((reinitLoop_init ord).bind fun _ => Pres.modify fun s h => h.congr rfl (fun _ => rfl) (fun _ => rfl) rfl rfl)

theorem update_rest (srt : Sorter) (ord : List Nat) {s : Sheet N V} (h : RestOk s) (hm : s.initMode = false) : RestOk (update srt ord s).2 := by
  have h1 := (update_pres srt ord s h hm).bits
  have hs := (update_keeps srt ord s).struct
  have hH : ∀ k, Half s k → Half (update srt ord s).2 k := by
    rintro k ⟨a, b⟩
    refine ⟨?_, by rw [struct_spec hs]; exact b⟩
    have := congrArg Sheet.size hs
    change (update srt ord s).2.size = s.size at this
    rw [this]; exact a
  exact ⟨fun i k hk => hH k (h1.cell i k hk), fun k hk => hH k (h1.cond k hk)⟩

/-- In every sheet the contributors are interface cells. -/
theorem Reachable.bits {s : Sheet N V} (h : Reachable s) : RestOk s := by
  induction h with
  | empty n0 => exact ⟨fun _ => zero_bits, zero_bits⟩
  | @addInput s s' n p h he ih => have := addInput_rest n p _ ih; rw [he] at this; exact this
  | @addOutput s s' n p h he ih => have := addOutput_rest n p _ ih; rw [he] at this; exact this
  | @addInterface s s' n l p q h he ih => have := addInterface_rest n l p q _ ih; rw [he] at this; exact this
  | @addInterfaceValue s s' n v h he ih => have := addInterfaceValue_rest n v _ ih; rw [he] at this; exact this
  | @addConstant s s' n p h he ih => have := addConstant_rest n p _ ih; rw [he] at this; exact this
  | @addConstantValue s s' n v h he ih => have := addConstantValue_rest n v _ ih; rw [he] at this; exact this
  | @addLogic s s' n p h he ih => have := addLogic_rest n p _ ih; rw [he] at this; exact this
  | @addInvariant s s' n p h he ih => have := addInvariant_rest n p _ ih; rw [he] at this; exact this
  | @addRelation s s' c ts h _ he ih => have := addRelation_rest c ts _ ih; rw [he] at this; exact this
  | @set s s' n v h he ih => have := set_rest n v _ ih; rw [he] at this; exact this
  | @touch s s' srt ns h he ih => have := touch_rest srt ns _ ih; rw [he] at this; exact this
  | @reinitialize s s' ord h he ih => have := reinitialize_rest ord _ ih; rw [he] at this; exact this
  | @update s s' srt ord ev h _ he ih => have := update_rest srt ord ih h.good.fit.wf.initMode; rw [he] at this; exact this
  | @failed s s' srt ord e h _ he _ ih => have := update_rest srt ord ih h.good.fit.wf.initMode; rw [he] at this; exact this

end Verif.Adam
