import Verif.Adam.Whole
/-! What `update` keeps, whether it succeeds or throws. -/
namespace Verif.Adam
variable {N V : Type} [DecidableEq N] [DecidableEq V] [Values V]

/-- The part of a cell fixed when the sheet is built. -/
def Cell.struct (c : Cell N V) : Cell N V :=
  { c with invariant := false, priority := 0, resolved := false, evaluated := false, count := 0, dirty := false, state := Values.empty,
           contributing := 0, term := none }
def Sheet.struct (s : Sheet N V) : Sheet N V :=
  { s with cell := fun i => (s.cell i).struct, rel := fun r => { s.rel r with resolved := false }, priorityLow := 0, condContributing := 0,
           getStack := [], priorityAccessed := 0, valueAccessed := 0, active := 0, accumulate := 0 }

/-- Priorities: those of the cells which were set are between 0 and `priorityHigh`, those of derived cells are negative. -/
structure PrioOk (s : Sheet N V) : Prop where
  low : s.priorityLow ≤ 0
  high : 0 ≤ s.priorityHigh
  le : ∀ i, (s.cell i).priority ≤ s.priorityHigh

structure Like (s s' : Sheet N V) : Prop where
  struct : s'.struct = s.struct
  base : ∀ i, ((s.cell i).spec = .input ∨ (s.cell i).spec = .constant) → (s.cell i).evaluated = true → (s'.cell i).evaluated = true
  prio : PrioOk s → PrioOk s'

theorem struct_cell {s s' : Sheet N V} (h : s'.struct = s.struct) (i : Nat) : (s'.cell i).struct = (s.cell i).struct :=
  congrFun (congrArg Sheet.cell h) i
theorem struct_spec {s s' : Sheet N V} (h : s'.struct = s.struct) (i : Nat) : (s'.cell i).spec = (s.cell i).spec := by
  have := congrArg Cell.spec (struct_cell h i); exact this

theorem Like.refl (s : Sheet N V) : Like s s := ⟨rfl, fun _ _ h => h, id⟩
theorem Like.trans {a b c : Sheet N V} (h : Like a b) (h' : Like b c) : Like a c :=
  ⟨h'.struct.trans h.struct, fun i hi he => h'.base i (by rw [struct_spec h.struct]; exact hi) (h.base i hi he), fun hp => h'.prio (h.prio hp)⟩

/-- The computation keeps the structure. -/
def Keeps {α : Type} (x : M N V α) : Prop := ∀ s, Like s (x s).2

theorem Keeps.bind {α β : Type} {x : M N V α} {f : α → M N V β} (hx : Keeps x) (hf : ∀ a, Keeps (f a)) : Keeps (x >>= f) := by
  intro s
  have h := hx s
  rw [bind_run]
  cases hr : x s with
  | mk r s' =>
      rw [hr] at h
      cases r with
      | ok a => exact h.trans (hf a s')
      | error e => exact h
theorem Keeps.pure {α : Type} (a : α) : Keeps (pure a : M N V α) := fun s => Like.refl s
theorem Keeps.throw {α : Type} (e : Err N) : Keeps (throw e : M N V α) := fun s => Like.refl s
theorem Keeps.gets {α : Type} (f : Sheet N V → α) : Keeps (gets f) := fun s => Like.refl s
theorem Keeps.modify {f : Sheet N V → Sheet N V} (h : ∀ s, Like s (f s)) : Keeps (modify f) := h
theorem Keeps.ite {α : Type} {c : Prop} [Decidable c] {x y : M N V α} (hx : Keeps x) (hy : Keeps y) : Keeps (if c then x else y) := by
  split
  · exact hx
  · exact hy
theorem Keeps.gets_bind {α β : Type} {g : Sheet N V → α} {f : α → M N V β} (hf : ∀ a, Keeps (f a)) : Keeps (Verif.Adam.gets g >>= f) :=
  (Keeps.gets g).bind hf
theorem Keeps.modify_bind {β : Type} {g : Sheet N V → Sheet N V} {f : Unit → M N V β} (h : ∀ s, Like s (g s)) (hf : Keeps (f ())) :
    Keeps (Verif.Adam.modify g >>= f) := (Keeps.modify h).bind fun _ => hf

theorem Like.modCell (s : Sheet N V) (i : Nat) (f : Cell N V → Cell N V) (hf : ∀ c, (f c).struct = c.struct)
    (he : ∀ c, c.evaluated = true → (f c).evaluated = true) (hp : ∀ c, (f c).priority = c.priority) : Like s (s.modCell i f) := by
  refine ⟨?_, ?_, ?_⟩
  · unfold Sheet.modCell Sheet.struct
    congr 1
    funext j
    dsimp only
    split
    · exact hf _
    · rfl
  · intro j _ hj
    simp only [Sheet.modCell]
    split
    · exact he _ hj
    · exact hj
  · intro h
    refine ⟨h.low, h.high, fun j => ?_⟩
    simp only [Sheet.modCell]
    split
    · rw [hp]; exact h.le j
    · exact h.le j

/-- A change of the members which are not structural. -/
theorem Like.of_eq {s s' : Sheet N V} (hs : s'.struct = s.struct) (hc : s'.cell = s.cell) (hl : s'.priorityLow = s.priorityLow)
    (hh : s'.priorityHigh = s.priorityHigh) : Like s s' :=
  ⟨hs, fun i _ h => by rw [hc]; exact h, fun h => ⟨by rw [hl]; exact h.low, by rw [hh]; exact h.high, fun i => by rw [hc, hh]; exact h.le i⟩⟩

theorem Prog.run_keeps {g : N → M N V V} (hg : ∀ n, Keeps (g n)) (p : Prog N V) : Keeps (p.run g) := by
  induction p with
  | ret v => exact Keeps.pure v
  | fail => exact Keeps.throw _
  | ask n k ih => exact (hg n).bind fun v => ih v

theorem Term.run_keeps {g : N → M N V V} (hg : ∀ n, Keeps (g n)) (t : Term N V) : Keeps (t.run g) := by
  unfold Term.run
  refine (Prog.run_keeps hg _).bind fun v => ?_
  split
  · exact Keeps.pure _
  · split
    · exact Keeps.throw _
    · split
      · exact Keeps.throw _
      · exact Keeps.pure _

theorem calculate_keeps {g : N → M N V V} (hg : ∀ n, Keeps (g n)) (i : Nat) : Keeps (calculate g i) := by
  unfold calculate
  refine Keeps.gets_bind fun c => Keeps.ite (Keeps.pure _) (Keeps.ite (Keeps.throw _) ?_)
  have hj : ∀ r : V, Keeps (N := N) (V := V) (modify fun s => s.modCell i fun c =>
      { c with dirty := decide (r ≠ c.state), state := r, evaluated := true }) := by
    intro r
    apply Keeps.modify
    intro s
    exact Like.modCell s i _ (fun _ => rfl) (fun _ _ => rfl) (fun _ => rfl)
  dsimp only
  split
  · exact (Keeps.throw _).bind hj
  · exact (Prog.run_keeps hg _).bind hj
  · exact (hg _).bind hj

theorem popAfter_keeps {α : Type} (b : Bool) {x : M N V α} (hx : Keeps x) : Keeps (popAfter b x) := by
  intro s
  have h := hx s
  unfold popAfter
  cases hr : x s with
  | mk r s' =>
      rw [hr] at h
      dsimp only
      split
      · exact h.trans (Like.of_eq rfl rfl rfl rfl)
      · exact h

theorem getFresh_keeps {g : N → M N V V} (hg : ∀ n, Keeps (g n)) (i : Nat) : Keeps (getFresh g i) := by
  unfold getFresh
  refine Keeps.gets_bind fun c => ?_
  have h3 : Keeps (N := N) (V := V) (if c.spec ≠ .input ∧ c.spec ≠ .constant then
      modify fun s => s.modCell i fun c => { c with contributing := c.contributing ||| s.condContributing } else pure ()) :=
    Keeps.ite (Keeps.modify fun s => Like.modCell _ _ _ (fun _ => rfl) (fun _ h => h) (fun _ => rfl)) (Keeps.pure _)
  refine Keeps.ite (Keeps.modify_bind (fun s => Like.of_eq rfl rfl rfl rfl) h3) ?_
  refine Keeps.gets_bind fun old => Keeps.modify_bind (fun s => Like.of_eq rfl rfl rfl rfl) ?_
  refine (calculate_keeps hg i).bind fun _ => Keeps.modify_bind (fun s => ?_) h3
  exact (Like.modCell s i (fun c => { c with contributing := s.accumulate }) (fun _ => rfl) (fun _ h => h) (fun _ => rfl)).trans
    (Like.of_eq rfl rfl rfl rfl)

theorem getBody_keeps {g : N → M N V V} (hg : ∀ n, Keeps (g n)) (n : N) : Keeps (getBody g n) := by
  unfold getBody
  refine Keeps.gets_bind fun s => ?_
  split
  · exact Keeps.throw _
  · dsimp only
    refine Keeps.ite ?_ ?_
    · split
      · exact Keeps.throw _
      · split
        · exact Keeps.modify_bind (fun s => Like.of_eq rfl rfl rfl rfl) (Term.run_keeps hg _)
        · exact Keeps.modify_bind (fun s => Like.of_eq rfl rfl rfl rfl) (Keeps.pure _)
    · refine Keeps.ite ?_ ?_
      · exact Keeps.modify_bind (fun s => Like.of_eq rfl rfl rfl rfl) ((popAfter_keeps _ (getFresh_keeps hg _)).bind fun _ => Keeps.gets _)
      · exact (popAfter_keeps _ (getFresh_keeps hg _)).bind fun _ => Keeps.gets _

theorem getInit_keeps (n : N) : Keeps (V := V) (getInit n) := by
  unfold getInit
  refine Keeps.gets_bind fun s => ?_
  split
  · exact Keeps.modify_bind (fun s => Like.of_eq rfl rfl rfl rfl) (Keeps.pure _)
  · split
    · exact Keeps.throw _
    · exact Keeps.ite (Keeps.throw _) (Keeps.modify_bind (fun s => Like.of_eq rfl rfl rfl rfl) (Keeps.pure _))

theorem get_keeps : ∀ (f : Nat) (n : N), Keeps (V := V) (get f n)
  | 0, n => Keeps.gets_bind fun _ => Keeps.ite (getInit_keeps n) (Keeps.throw _)
  | f + 1, n => Keeps.gets_bind fun _ => Keeps.ite (getInit_keeps n) (getBody_keeps (get_keeps f) n)

theorem evaluate_keeps (p : Prog N V) : Keeps (evaluate p) := Keeps.gets_bind fun _ => Prog.run_keeps (get_keeps _) p

theorem Like.decrCount (s : Sheet N V) (i : Nat) : Like s (s.modCell i fun c => { c with count := decr c.count }) :=
  Like.modCell _ _ _ (fun _ => rfl) (fun _ h => h) (fun _ => rfl)

theorem decrEdges_like : ∀ (l : List Nat) (s : Sheet N V), Like s (decrEdges l s)
  | [], s => Like.refl s
  | i :: l, s => (Like.decrCount s i).trans (decrEdges_like l _)

theorem Like.modRel (s : Sheet N V) (r : Nat) (b : Bool) : Like s (s.modRel r fun rl => { rl with resolved := b }) := by
  refine Like.of_eq ?_ rfl rfl rfl
  unfold Sheet.modRel Sheet.struct
  congr 1
  funext j
  dsimp only
  split <;> rfl

theorem conditionals_keeps : ∀ l : List Nat, Keeps (N := N) (V := V) (conditionals l)
  | [] => Keeps.pure _
  | r :: rs => by
      unfold conditionals
      refine Keeps.gets_bind fun rl => ?_
      split
      · exact conditionals_keeps rs
      · refine (evaluate_keeps _).bind fun v => ?_
        split
        · exact Keeps.throw _
        · exact conditionals_keeps rs
        · exact Keeps.modify_bind (decrEdges_like _) (Keeps.modify_bind (fun s => Like.modRel s r true) (conditionals_keeps rs))

theorem outputCell_keeps (n : N) : Keeps (V := V) (outputCell n) := by
  unfold outputCell
  refine Keeps.gets_bind fun s => ?_
  split
  · exact Keeps.pure _
  · exact Keeps.throw _

theorem lowerPriority_like (j : Nat) (s : Sheet N V) : Like s (lowerPriority j s) := by
  unfold lowerPriority
  split
  · refine ⟨?_, ?_, ?_⟩
    · unfold Sheet.modCell Sheet.struct
      congr 1
      funext k
      dsimp only
      split <;> rfl
    · intro k _ hk
      simp only [Sheet.modCell]
      split <;> exact hk
    · intro h
      have := h.low; have := h.high
      refine ⟨by dsimp only; omega, h.high, fun k => ?_⟩
      simp only [Sheet.modCell]
      split
      · dsimp only; omega
      · exact h.le k
  · exact Like.refl s

theorem applyTerm_keeps (t : RelTerm N V) : ∀ (l : List N) (k : Nat), Keeps (applyTerm t k l)
  | [], _ => Keeps.pure _
  | n :: l, k => by
      unfold applyTerm
      refine (outputCell_keeps n).bind fun o => Keeps.gets_bind fun c => Keeps.ite (Keeps.throw _) ?_
      refine Keeps.modify_bind (fun s => Like.modCell _ _ _ (fun _ => rfl) (fun _ h => h) (fun _ => rfl)) ?_
      split
      · exact Keeps.throw _
      · refine Keeps.modify_bind (lowerPriority_like _) (Keeps.gets_bind fun _ => Keeps.ite ?_ ?_)
        · exact (applyTerm_keeps t l (k + 1)).bind fun _ => Keeps.pure _
        · exact Keeps.modify_bind (fun s => Like.modCell _ _ _ (fun _ => rfl) (fun _ h => h) (fun _ => rfl)) (applyTerm_keeps t l (k + 1))

theorem detach_keeps : ∀ l : List N, Keeps (V := V) (detach l)
  | [] => Keeps.pure _
  | n :: l => by
      unfold detach
      refine (outputCell_keeps n).bind fun o => Keeps.modify_bind (fun s => ?_) (detach_keeps l)
      split
      · exact Like.refl s
      · exact Like.decrCount s o

theorem flowRel_keeps (i r : Nat) : Keeps (N := N) (V := V) (flowRel i r) := by
  unfold flowRel
  refine Keeps.gets_bind fun rl => Keeps.ite (Keeps.pure _) (Keeps.modify_bind (fun s => Like.decrCount s i) (Keeps.gets_bind fun s => ?_))
  split
  · exact Keeps.throw _
  · split
    · exact Keeps.pure _
    · refine Keeps.ite (Keeps.pure _) (Keeps.modify_bind (fun s => Like.modRel s r true) ?_)
      exact (applyTerm_keeps _ _ _).bind fun _ => (detach_keeps _).bind fun _ => Keeps.pure _

theorem flowCell_keeps (i : Nat) : ∀ (l stack : List Nat), Keeps (N := N) (V := V) (flowCell i stack l)
  | [], _ => Keeps.pure _
  | r :: rs, stack => (flowRel_keeps i r).bind fun _ => flowCell_keeps i rs _

theorem flowLoop_keeps : ∀ (b : Nat) (stack : List Nat), Keeps (N := N) (V := V) (flowLoop b stack)
  | _, [] => by unfold flowLoop; exact Keeps.pure _
  | 0, _ :: _ => Keeps.throw _
  | b + 1, i :: stack => by
      unfold flowLoop
      refine Keeps.gets_bind fun c => Keeps.ite (flowLoop_keeps b stack) ?_
      refine Keeps.modify_bind (fun s => Like.modCell _ _ _ (fun _ => rfl) (fun _ h => h) (fun _ => rfl)) ?_
      exact (flowCell_keeps i _ _).bind fun _ => flowLoop_keeps b _

theorem flow_keeps (srt : Sorter) : Keeps (N := N) (V := V) (flow srt) :=
  Keeps.gets_bind fun _ => (flowLoop_keeps _ _).bind fun _ => Keeps.pure _

theorem startUpdate_like (s : Sheet N V) : Like s (startUpdate s) := by
  refine ⟨rfl, fun i hi _ => ?_, fun h => ⟨h.low, h.high, h.le⟩⟩
  show decide _ = true
  simpa using hi

theorem link_like (i : Nat) (s : Sheet N V) : Like s (link i s) := by
  unfold link
  split
  · exact Like.refl s
  · split
    · exact Like.modCell _ _ _ (fun _ => rfl) (fun _ h => h) (fun _ => rfl)
    · exact Like.refl s

theorem calcOutput_keeps (i : Nat) : Keeps (N := N) (V := V) (calcOutput i) := by
  unfold calcOutput
  have hl : Keeps (N := N) (V := V) (modify (link i)) := Keeps.modify (link_like i)
  have hm : Keeps (N := N) (V := V) (do
      modify fun s => s.modCell i fun c => { c with contributing := s.accumulate ||| s.condContributing }
      modify (link i)) :=
    Keeps.modify_bind (fun s => Like.modCell _ _ _ (fun _ => rfl) (fun _ h => h) (fun _ => rfl)) hl
  have hstack : ∀ f : List (N × Bool) → List (N × Bool), ∀ s : Sheet N V, Like s { s with getStack := f s.getStack } :=
    fun f s => Like.of_eq rfl rfl rfl rfl
  refine Keeps.gets_bind fun c => Keeps.ite hl ?_
  refine Keeps.modify_bind (fun s => Like.of_eq rfl rfl rfl rfl) (Keeps.ite ?_ ?_)
  · refine Keeps.modify_bind (hstack _) (Keeps.gets_bind fun size => (calculate_keeps (get_keeps size) i).bind fun _ => Keeps.ite ?_ hm)
    exact Keeps.modify_bind (hstack _) hm
  · refine Keeps.gets_bind fun size => (calculate_keeps (get_keeps size) i).bind fun _ => Keeps.ite ?_ hm
    exact Keeps.modify_bind (hstack _) hm

theorem calcOutputs_keeps : ∀ l : List Nat, Keeps (N := N) (V := V) (calcOutputs l)
  | [] => Keeps.pure _
  | i :: l => (calcOutput_keeps i).bind fun _ => calcOutputs_keeps l

theorem poisonLoop_keeps : ∀ (l : List Nat) (b : Bits), Keeps (N := N) (V := V) (poisonLoop b l)
  | [], _ => Keeps.pure _
  | i :: l, b => by
      unfold poisonLoop
      refine Keeps.gets_bind fun c => ?_
      split
      · exact Keeps.throw _
      · exact poisonLoop_keeps l _
      · exact poisonLoop_keeps l _

theorem notify_keeps (poison : Bits) : ∀ (l : List Nat) (a : Bits), Keeps (N := N) (V := V) (notify poison a l)
  | [], _ => Keeps.pure _
  | i :: l, a => by
      unfold notify
      refine Keeps.gets_bind fun s => ?_
      dsimp only
      refine Keeps.modify_bind (fun s => Like.modCell _ _ _ (fun _ => rfl) (fun _ h => h) (fun _ => rfl)) ?_
      exact (notify_keeps poison l _).bind fun _ => Keeps.pure _

theorem update_keeps (srt : Sorter) (ord : List Nat) : Keeps (N := N) (V := V) (update srt ord) := by
  unfold update
  refine Keeps.modify_bind startUpdate_like (Keeps.gets_bind fun _ => (conditionals_keeps _).bind fun _ => ?_)
  refine Keeps.modify_bind (fun s => Like.of_eq rfl rfl rfl rfl) ((flow_keeps srt).bind fun pa => (calcOutputs_keeps ord).bind fun _ => ?_)
  refine Keeps.gets_bind fun _ => (poisonLoop_keeps _ _).bind fun poison => (notify_keeps poison _ _).bind fun x => ?_
  exact Keeps.modify_bind (fun s => Like.of_eq rfl rfl rfl rfl) (Keeps.pure _)

/-- What every sheet satisfies. -/
structure Fit (s : Sheet N V) : Prop where
  wf : WF s
  rel : RelOk s
  prio : PrioOk s
  inp : ∀ n j, s.inputIndex.find n = some j ↔ ∃ i, s.nameIndex.find n = some i ∧
    (((s.cell i).spec = .input ∧ j = i) ∨ (s.cell i).input = some j)

theorem Fit.like {s s' : Sheet N V} (h : Fit s) (hl : Like s s') : Fit s' := by
  have hs := hl.struct
  have hc := struct_cell hs
  have g1 : ∀ i, (s'.cell i).spec = (s.cell i).spec := struct_spec hs
  have g2 : ∀ i, (s'.cell i).name = (s.cell i).name := by intro i; have := congrArg Cell.name (hc i); exact this
  have g3 : ∀ i, (s'.cell i).input = (s.cell i).input := by intro i; have := congrArg Cell.input (hc i); exact this
  have g4 : ∀ i, (s'.cell i).calculator = (s.cell i).calculator := by intro i; have := congrArg Cell.calculator (hc i); exact this
  have g5 : ∀ i, (s'.cell i).relations = (s.cell i).relations := by intro i; have := congrArg Cell.relations (hc i); exact this
  have g6 : ∀ i, (s'.cell i).initialCount = (s.cell i).initialCount := by intro i; have := congrArg Cell.initialCount (hc i); exact this
  have g7 : ∀ r, (s'.rel r).terms = (s.rel r).terms := by
    intro r; have := congrArg Rel.terms (congrFun (congrArg Sheet.rel hs) r); exact this
  have g8 : ∀ r, (s'.rel r).edges = (s.rel r).edges := by
    intro r; have := congrArg Rel.edges (congrFun (congrArg Sheet.rel hs) r); exact this
  have g9 : s'.nrel = s.nrel := by have := congrArg Sheet.nrel hs; exact this
  have g10 : s'.outputIndex = s.outputIndex := by have := congrArg Sheet.outputIndex hs; exact this
  refine ⟨?_, ?_, hl.prio h.prio, ?_⟩
  · refine h.wf.congr ?_ ?_ ?_ g10 ?_ ?_ (fun i => ⟨g1 i, g2 i, g3 i, g4 i⟩) (fun i hi => hl.base i hi (h.wf.base i hi))
    · have := congrArg Sheet.initMode hs; exact this
    · have := congrArg Sheet.nameIndex hs; exact this
    · have := congrArg Sheet.inputIndex hs; exact this
    · have := congrArg Sheet.invariants hs; exact this
    · have := congrArg Sheet.size hs; exact this
  · have hr := h.rel
    constructor
    · rw [g10]; exact hr.inj
    · intro r; rw [g9, g7, g10]
      intro a t ht n hn
      obtain ⟨o, b, c⟩ := hr.names r a t ht n hn
      exact ⟨o, b, by rw [g3]; exact c⟩
    · intro r; rw [g9, g7, g8, g10]; exact hr.edges r
    · intro r; rw [g9, g8]; exact hr.edgesNodup r
    · intro o r; rw [g5, g9, g8]; exact hr.rels o r
    · intro o; rw [g5]; exact hr.relsNodup o
    · intro o; rw [g5, g6]; exact hr.initial o
  · intro n j
    have a := congrArg Sheet.nameIndex hs; have b := congrArg Sheet.inputIndex hs
    have a' : s'.nameIndex = s.nameIndex := a
    have b' : s'.inputIndex = s.inputIndex := b
    simp only [a', b', g1, g3]
    exact h.inp n j

end Verif.Adam
