import Verif.Adam.Keep
/-! The end of `update`: invariants and notifications; the whole of `update`. -/
namespace Verif.Adam
variable {N V : Type} [DecidableEq N] [DecidableEq V] [Values V]

/-- The invariants `l` that are false, and what contributes to them. -/
def Poisoned (s : Sheet N V) (l : List Nat) (k : Nat) : Prop :=
  ∃ i ∈ l, Values.asBool (s.cell i).state = some false ∧ (s.cell i).contributing.testBit k = true

theorem poisonLoop_ok (s : Sheet N V) : ∀ (l : List Nat) (b : Bits), (∀ i ∈ l, Values.asBool (s.cell i).state ≠ none) →
    ∃ p, poisonLoop b l s = (.ok p, s) ∧ ∀ k, p.testBit k = true ↔ b.testBit k = true ∨ Poisoned s l k
  | [], b, _ => ⟨b, rfl, fun k => by simp [Poisoned]⟩
  | i :: l, b, h => by
      unfold poisonLoop
      simp only [bind_gets]
      cases hb : Values.asBool (s.cell i).state with
      | none => exact absurd hb (h i (by simp))
      | some bl =>
          cases bl with
          | true =>
              obtain ⟨p, h1, h2⟩ := poisonLoop_ok s l b fun j hj => h j (by simp [hj])
              refine ⟨p, h1, fun k => ?_⟩
              rw [h2]
              simp [Poisoned, hb]
          | false =>
              obtain ⟨p, h1, h2⟩ := poisonLoop_ok s l (b ||| (s.cell i).contributing) fun j hj => h j (by simp [hj])
              refine ⟨p, h1, fun k => ?_⟩
              rw [h2]
              simp [Poisoned, hb, or_assoc]

/-- What the monitors of the output cell `i` are told; `old` is the sheet before `update`, `s` the sheet after it. -/
def cellEvents (old s : Sheet N V) (i : Nat) : List (Event N V) :=
  (if (s.cell i).invariant = (old.cell i).invariant then [] else [.invariant i (s.cell i).invariant]) ++
  (if (s.cell i).state = (old.cell i).state then [] else [.value i (s.cell i).state]) ++
  [.contributing i (s.cell i).contributing]

theorem notify_ok (poison : Bits) : ∀ (l : List Nat) (a : Bits) (s : Sheet N V), l.Nodup →
    ∃ ev a' s', notify poison a l s = (.ok (ev, a'), s') ∧
      s' = { s with cell := fun i => { s.cell i with invariant := if i ∈ l then decide (poison &&& (s.cell i).contributing = 0)
                                                      else (s.cell i).invariant } } ∧
      ev = l.flatMap (fun i => (if (s'.cell i).invariant = (s.cell i).invariant then [] else [.invariant i (s'.cell i).invariant]) ++
        (if (s.cell i).dirty then [.value i (s.cell i).state] else []) ++ [.contributing i (s.cell i).contributing]) ∧
      (∀ k, a'.testBit k = true ↔ a.testBit k = true ∨ ∃ i ∈ l, ((s.cell i).spec = .output ∨ (s.hasOutput = false ∧ (s.cell i).spec = .interfaceOutput)) ∧
        (s.cell i).contributing.testBit k = true)
  | [], a, s, _ => ⟨[], a, s, rfl, by simp, by simp, by simp⟩
  | i :: l, a, s, hnd => by
      obtain ⟨hil, hnd'⟩ := List.nodup_cons.mp hnd
      unfold notify
      simp only [bind_gets, bind_modify, id]
      obtain ⟨s1, hs1⟩ : ∃ s1 : Sheet N V, s1 = s.modCell i fun c => { c with invariant := decide (poison &&& (s.cell i).contributing = 0) } := ⟨_, rfl⟩
      obtain ⟨ev, a', s', h1, h2, h3, h4⟩ := notify_ok poison l
        (if (s.cell i).spec = .output ∨ (s.hasOutput = false ∧ (s.cell i).spec = .interfaceOutput) then a ||| (s.cell i).contributing else a) s1 hnd'
      rw [← hs1, bind_ok h1]
      have hother : ∀ j, j ≠ i → s1.cell j = s.cell j := by intro j hj; rw [hs1]; exact modCell_other _ _ hj
      have hs' : s' = { s with cell := fun j => { s.cell j with invariant := if j ∈ i :: l then decide (poison &&& (s.cell j).contributing = 0)
                                                      else (s.cell j).invariant } } := by
        rw [h2, hs1]
        unfold Sheet.modCell
        congr 1
        funext j
        dsimp only
        by_cases hj : j = i
        · subst hj; simp [hil]
        · simp [hj]
      refine ⟨_, a', s', rfl, hs', ?_, fun k => ?_⟩
      · rw [List.flatMap_cons]
        congr 1
        · rw [hs']
          have hcomm : ∀ b b' : Bool, (b = b') = (b' = b) := fun b b' => propext ⟨Eq.symm, Eq.symm⟩
          dsimp only
          simp only [List.mem_cons, true_or, if_true]
        · rw [h3]
          have hc : ∀ (L : List Nat) (f g : Nat → List (Event N V)), (∀ j ∈ L, f j = g j) → L.flatMap f = L.flatMap g := by
            intro L f g
            induction L with
            | nil => intro _; rfl
            | cons j L ih =>
                intro h
                rw [List.flatMap_cons, List.flatMap_cons, h j (by simp), ih fun x hx => h x (by simp [hx])]
          apply hc
          intro j hj
          have : j ≠ i := by rintro rfl; exact hil hj
          rw [hother j this]
      · rw [h4]
        have hsp : ∀ j, (s1.cell j).spec = (s.cell j).spec ∧ (s1.cell j).contributing = (s.cell j).contributing := by
          intro j; rw [hs1]; simp only [Sheet.modCell]; split <;> exact ⟨rfl, rfl⟩
        have hho : s1.hasOutput = s.hasOutput := by rw [hs1]; rfl
        simp only [hsp, hho, List.exists_mem_cons_iff]
        split
        · rename_i h
          simp [h, or_assoc]
        · rename_i h
          simp [h]

/-- `ord` lists the output cells: the order of iteration over `output_index_m`. -/
def Enumerates (s : Sheet N V) (ord : List Nat) : Prop := ord.Nodup ∧ ∀ i, i ∈ ord ↔ ∃ n, s.outputIndex.find n = some i

/-- What `update` leaves, `d` being the directed sheet. -/
structure Updated (s d : Sheet N V) (ord : List Nat) (ev : List (Event N V)) (s' : Sheet N V) : Prop where
  fit : Fit s'
  struct : s'.struct = s.struct
  stack : s'.getStack = []
  value : ∀ n i k v b, s.outputIndex.find n = some i → den d k n = some (v, b) →
    (s'.cell i).state = v ∧ Between b (s'.cell i).contributing d.condContributing
  base : ∀ i, ((s.cell i).spec = .input ∨ (s.cell i).spec = .constant) →
    (s'.cell i).state = (s.cell i).state ∧ (s'.cell i).contributing = (s.cell i).contributing
  own : ∀ i, (s.cell i).spec = .interfaceInput → (s'.cell i).contributing = (s.cell i).contributing
  linked : ∀ n i j, s.nameIndex.find n = some i → (s.cell i).input = some j →
    (s'.cell j).state = if (s.cell j).linked then (s'.cell i).state else (s.cell j).state
  invariant : ∀ n i, s.outputIndex.find n = some i →
    ((s'.cell i).invariant = true ↔ ∀ k, ¬ (Poisoned s' s.invariants k ∧ (s'.cell i).contributing.testBit k = true))
  events : ev = ord.flatMap (cellEvents s s') ++ [.enabled s'.priorityAccessed s'.active]
  pa : ∀ k, s'.priorityAccessed.testBit k = true ↔ ∃ i, (∃ r ∈ (s.cell i).relations, Active s r) ∧ (s.cell i).input = some k
  active : ∀ k, s'.active.testBit k = true ↔ s'.priorityAccessed.testBit k = true ∨
    ∃ n i, s.outputIndex.find n = some i ∧ ((s.cell i).spec = .output ∨ (s.hasOutput = false ∧ (s.cell i).spec = .interfaceOutput)) ∧
      (s'.cell i).contributing.testBit k = true

theorem output_notBase {s : Sheet N V} (hw : WF s) {n : N} {i : Nat} (h : s.outputIndex.find n = some i) :
    s.nameIndex.find n = some i ∧ ¬ ((s.cell i).spec = .input ∨ (s.cell i).spec = .constant) := by
  obtain ⟨h1, h2⟩ := (hw.output n i).mp h
  refine ⟨h1, ?_⟩
  rcases h2 with h2 | h2 | h2 <;> simp [h2]

theorem and_zero_iff (a b : Nat) : a &&& b = 0 ↔ ∀ k, ¬ (a.testBit k = true ∧ b.testBit k = true) := by
  constructor
  · intro h k hk
    have := congrArg (Nat.testBit · k) h
    simp [Nat.testBit_and, hk.1, hk.2] at this
  · intro h
    apply Nat.eq_of_testBit_eq
    intro k
    have := h k
    simp only [Nat.testBit_and, Nat.zero_testBit]
    cases ha : a.testBit k <;> cases hb : b.testBit k <;> simp_all

theorem finishUpdate_ok {s d sP : Sheet N V} {srt : Sorter} {pa : Bits} (hf : Fit s) (hw : WF d) {ch : Nat → Nat} (hd : Directed s d ch)
    (hrun : prepare srt s = (.ok pa, sP)) (hev : Ev d sP) (hst : sP.getStack = []) (hl : Links d sP []) (hinv : sP.invariants = s.invariants)
    (hho : sP.hasOutput = s.hasOutput) (hfl : ∀ i, (sP.cell i).invariant = (s.cell i).invariant)
    (hpa : ∀ k, pa.testBit k = true ↔ ∃ i, (∃ r ∈ (s.cell i).relations, Active s r) ∧ (s.cell i).input = some k)
    {ord : List Nat} (hord : Enumerates s ord) (hdef : ∀ n i, s.outputIndex.find n = some i → Defined d n)
    (hbool : ∀ n i k v b, s.nameIndex.find n = some i → (s.cell i).spec = .invariant → den d k n = some (v, b) → Values.asBool v ≠ none) :
    ∃ ev s', update srt ord s = (.ok ev, s') ∧ Updated s d ord ev s' := by
  obtain ⟨s1, h1, h2, h3, h4, h5, h6⟩ := calcOutputs_ok hw ord sP [] hev hst hl (by
    intro i hi
    obtain ⟨n, hn⟩ := (hord.2 i).mp hi
    have hn' : d.outputIndex.find n = some i := by rw [hd.outputIndex]; exact hn
    obtain ⟨a, b⟩ := output_notBase hw hn'
    exact ⟨n, a, b, hdef n i hn⟩)
  have hsinv : s1.invariants = s.invariants := by
    have a := congrArg Sheet.invariants h2.stat; have b := congrArg Sheet.invariants hev.stat
    have : s1.invariants = d.invariants := a
    have : sP.invariants = d.invariants := b
    rw [‹s1.invariants = _›, ← this, hinv]
  have hvalue : ∀ n i k v b, s.outputIndex.find n = some i → den d k n = some (v, b) →
      (s1.cell i).state = v ∧ Between b (s1.cell i).contributing d.condContributing ∧ (s1.cell i).dirty = decide (v ≠ (s.cell i).state) := by
    intro n i k v b hn hdn
    have hn' : d.outputIndex.find n = some i := by rw [hd.outputIndex]; exact hn
    obtain ⟨a, nb⟩ := output_notBase hw hn'
    have he := h4 i ((hord.2 i).mpr ⟨n, hn⟩)
    obtain ⟨e1, e2⟩ := h2.value a he hdn
    refine ⟨e1, e2, ?_⟩
    obtain ⟨L, v', b', g1, g2, g3, g4⟩ := h2.memo n i a nb he
    rw [g4, ← g2, e1, (hd.cell i).2.2.2.2.2.1]
  obtain ⟨poison, p1, p2⟩ := poisonLoop_ok s1 s.invariants 0 (by
    intro i hi
    obtain ⟨n, hn, hsp⟩ := (hf.wf.invs i).mp hi
    have ho : s.outputIndex.find n = some i := (hf.wf.output n i).mpr ⟨hn, Or.inr (Or.inr hsp)⟩
    obtain ⟨k, ⟨v, b⟩, hk⟩ := hdef n i ho
    rw [(hvalue n i k v b ho hk).1]
    exact hbool n i k v b hn hsp hk)
  obtain ⟨ev, a', s2, n1, n2, n3, n4⟩ := notify_ok poison ord pa s1 hord.1
  obtain ⟨s', hs'⟩ : ∃ s' : Sheet N V, s' = { s2 with priorityAccessed := pa, active := a' } := ⟨_, rfl⟩
  have hupd : update srt ord s = (.ok (ev ++ [.enabled pa a']), s') := by
    rw [update_split, bind_ok hrun]
    unfold finishUpdate
    rw [bind_ok h1]
    simp only [bind_gets]
    rw [hsinv, bind_ok p1, bind_ok n1, hs']
    simp only [bind_modify]
    rfl
  have hk := update_keeps srt ord s
  rw [hupd] at hk
  have hc : ∀ i, (s'.cell i).state = (s1.cell i).state ∧ (s'.cell i).contributing = (s1.cell i).contributing ∧
      (s'.cell i).evaluated = (s1.cell i).evaluated := by intro i; rw [hs', n2]; exact ⟨rfl, rfl, rfl⟩
  have hpois : ∀ k, Poisoned s' s.invariants k ↔ Poisoned s1 s.invariants k := by
    intro k; unfold Poisoned; simp only [fun i => (hc i).1, fun i => (hc i).2.1]
  refine ⟨_, s', hupd, hf.like hk, hk.struct, ?_, ?_, ?_, ?_, ?_, ?_, ?_, ?_, ?_⟩
  · rw [hs', n2]; exact h3
  · intro n i k v b hn hdn
    rw [(hc i).1, (hc i).2.1]
    exact ⟨(hvalue n i k v b hn hdn).1, (hvalue n i k v b hn hdn).2.1⟩
  · intro i hi
    rw [(hc i).1, (hc i).2.1, (h2.base i (by rw [(hd.cell i).1]; exact hi)).1, (h2.base i (by rw [(hd.cell i).1]; exact hi)).2.1,
      (hd.cell i).2.2.2.2.2.1, (hd.cell i).2.2.2.2.2.2]
    exact ⟨rfl, rfl⟩
  · intro i hi
    rw [(hc i).2.1, h2.inContrib i (by rw [(hd.cell i).1]; exact hi), (hd.cell i).2.2.2.2.2.2]
  · intro n i j hn hj
    have hn' : d.nameIndex.find n = some i := by rw [hd.nameIndex]; exact hn
    have hj' : (d.cell i).input = some j := by rw [(hd.cell i).2.2.2.1]; exact hj
    obtain ⟨q1, q2⟩ := h6 n i j hn' hj'
    have ho : s.outputIndex.find n = some i := (hf.wf.output n i).mpr ⟨hn, Or.inr (Or.inl (input_spec hf.wf hn hj).1)⟩
    have hmem : i ∈ ord.reverse ++ [] := by simpa using (hord.2 i).mpr ⟨n, ho⟩
    rw [(hc i).1, (hc j).1]
    split
    · rename_i hlk
      exact (q1 ⟨by rw [(hd.cell j).2.2.2.2.1]; exact hlk, hmem⟩).2
    · rename_i hlk
      rw [q2 (fun h => hlk (by rw [← (hd.cell j).2.2.2.2.1]; exact h.1)), (hd.cell j).2.2.2.2.2.1]
  · intro n i hn
    have hmem := (hord.2 i).mpr ⟨n, hn⟩
    rw [show (s'.cell i).invariant = decide (poison &&& (s1.cell i).contributing = 0) by rw [hs', n2]; simp [hmem]]
    rw [decide_eq_true_iff, and_zero_iff]
    simp only [p2, hpois, (hc i).2.1, Nat.zero_testBit, Bool.false_eq_true, false_or]
  · rw [hs']
    congr 1
    rw [n3]
    have hcc : ∀ (L : List Nat) (f g : Nat → List (Event N V)), (∀ j ∈ L, f j = g j) → L.flatMap f = L.flatMap g := by
      intro L f g
      induction L with
      | nil => intro _; rfl
      | cons j L ih =>
          intro h
          rw [List.flatMap_cons, List.flatMap_cons, h j (by simp), ih fun x hx => h x (by simp [hx])]
    apply hcc
    intro i hi
    obtain ⟨n, hn⟩ := (hord.2 i).mp hi
    obtain ⟨k, ⟨v, b⟩, hk'⟩ := hdef n i hn
    obtain ⟨e1, -, e3⟩ := hvalue n i k v b hn hk'
    have hinv1 : (s1.cell i).invariant = (s.cell i).invariant := by
      have a := congrArg Cell.invariant (stat_cell h2.stat i); have b := congrArg Cell.invariant (stat_cell hev.stat i)
      have a' : (s1.cell i).invariant = (d.cell i).invariant := a
      have b' : (sP.cell i).invariant = (d.cell i).invariant := b
      rw [a', ← b', hfl]
    have hst2 : (s2.cell i).state = (s1.cell i).state ∧ (s2.cell i).contributing = (s1.cell i).contributing := by rw [n2]; exact ⟨rfl, rfl⟩
    unfold cellEvents
    dsimp only
    rw [hst2.1, hst2.2, hinv1, e3, e1]
    by_cases hv : v = (s.cell i).state <;> simp [hv]
  · intro k
    rw [hs']; exact hpa k
  · intro k
    rw [hs']
    show a'.testBit k = true ↔ pa.testBit k = true ∨ _
    rw [n4]
    refine or_congr Iff.rfl ?_
    have hspec : ∀ i, (s1.cell i).spec = (s.cell i).spec := by
      intro i; rw [stat_spec h2.stat, (hd.cell i).1]
    have hhas : s1.hasOutput = s.hasOutput := by
      have a := congrArg Sheet.hasOutput h2.stat; have b := congrArg Sheet.hasOutput hev.stat
      have a' : s1.hasOutput = d.hasOutput := a
      have b' : sP.hasOutput = d.hasOutput := b
      rw [a', ← b', hho]
    have hst2 : ∀ i, (s2.cell i).contributing = (s1.cell i).contributing := by intro i; rw [n2]
    simp only [hspec, hhas, hst2]
    constructor
    · rintro ⟨i, hi, h⟩
      obtain ⟨n, hn⟩ := (hord.2 i).mp hi
      exact ⟨n, i, hn, h⟩
    · rintro ⟨n, i, hn, h⟩
      exact ⟨i, (hord.2 i).mpr ⟨n, hn⟩, h⟩

end Verif.Adam
