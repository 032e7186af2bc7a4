import Verif.Adam.Failed
/-! The sheets the public interface can build, and `update` on them. -/
namespace Verif.Adam
variable {N V : Type} [DecidableEq N] [DecidableEq V] [Values V]

/-- A relation as it is meant to be written: at least two terms, each with at least one cell, no cell twice. -/
structure ProperTerms (ts : List (RelTerm N V)) : Prop where
  two : 2 ≤ ts.length
  nonempty : ∀ t ∈ ts, t.names ≠ []
  nodup : (ts.flatMap (·.names)).Nodup

/-- The sheets which can be reached from the empty one by calls which return.  (`set` may also throw: it leaves the sheet
as it was.)  An `update` may have thrown as well, if it has left nothing on the stack of the cells being computed (see `C60`). -/
inductive Reachable : Sheet N V → Prop
  | empty (n0 : N) : Reachable (Sheet.empty n0)
  | addInput {s s' n p} : Reachable s → addInput n p s = (.ok (), s') → Reachable s'
  | addOutput {s s' n p} : Reachable s → addOutput n p s = (.ok (), s') → Reachable s'
  | addInterface {s s' n l p q} : Reachable s → addInterface n l p q s = (.ok (), s') → Reachable s'
  | addInterfaceValue {s s' n v} : Reachable s → addInterfaceValue n v s = (.ok (), s') → Reachable s'
  | addConstant {s s' n p} : Reachable s → addConstant n p s = (.ok (), s') → Reachable s'
  | addConstantValue {s s' n v} : Reachable s → addConstantValue n v s = (.ok (), s') → Reachable s'
  | addLogic {s s' n p} : Reachable s → addLogic n p s = (.ok (), s') → Reachable s'
  | addInvariant {s s' n p} : Reachable s → addInvariant n p s = (.ok (), s') → Reachable s'
  | addRelation {s s' c ts} : Reachable s → ProperTerms ts → addRelation c ts s = (.ok (), s') → Reachable s'
  | set {s s' n v} : Reachable s → set n v s = (.ok (), s') → Reachable s'
  | touch {s s' srt ns} : Reachable s → touch srt ns s = (.ok (), s') → Reachable s'
  | reinitialize {s s' ord} : Reachable s → reinitialize ord s = (.ok (), s') → Reachable s'
  | update {s s' srt ord ev} : Reachable s → Enumerates s ord → update srt ord s = (.ok ev, s') → Reachable s'
  | failed {s s' srt ord e} : Reachable s → Enumerates s ord → update srt ord s = (.error e, s') → s'.getStack = [] → Reachable s'

theorem Proper.rels {s s' : Sheet N V} (h : Proper s) (hn : s'.nrel = s.nrel) (ht : ∀ r, (s'.rel r).terms = (s.rel r).terms) : Proper s' := by
  refine ⟨fun r hr => ?_, fun r hr => ?_, fun r hr => ?_⟩ <;> rw [hn] at hr <;> rw [ht]
  · exact h.two r hr
  · exact h.nonempty r hr
  · exact h.nodup r hr

/-- `x` leaves the relations alone. -/
def SameRel {α : Type} (x : M N V α) : Prop := ∀ s : Sheet N V, (x s).2.nrel = s.nrel ∧ (x s).2.rel = s.rel

theorem SameRel.bind {α β : Type} {x : M N V α} {f : α → M N V β} (hx : SameRel x) (hf : ∀ a, SameRel (f a)) : SameRel (x >>= f) := by
  intro s
  rw [bind_run]
  have h := hx s
  cases hr : x s with
  | mk r s' =>
      rw [hr] at h
      cases r with
      | ok a => exact ⟨(hf a s').1.trans h.1, (hf a s').2.trans h.2⟩
      | error e => exact h
theorem SameRel.pure {α : Type} (a : α) : SameRel (Pure.pure a : M N V α) := fun _ => ⟨rfl, rfl⟩
theorem SameRel.throw {α : Type} (e : Err N) : SameRel (Verif.Adam.throw e : M N V α) := fun _ => ⟨rfl, rfl⟩
theorem SameRel.gets {α : Type} (f : Sheet N V → α) : SameRel (Verif.Adam.gets f) := fun _ => ⟨rfl, rfl⟩
theorem SameRel.modify {f : Sheet N V → Sheet N V} (h : ∀ s, (f s).nrel = s.nrel ∧ (f s).rel = s.rel) : SameRel (Verif.Adam.modify f) := h
theorem SameRel.modify_bind {β : Type} {g : Sheet N V → Sheet N V} {f : Unit → M N V β} (h : ∀ s, (g s).nrel = s.nrel ∧ (g s).rel = s.rel)
    (hf : SameRel (f ())) : SameRel (Verif.Adam.modify g >>= f) := (SameRel.modify h).bind fun _ => hf
theorem SameRel.ite {α : Type} {c : Prop} [Decidable c] {x y : M N V α} (hx : SameRel x) (hy : SameRel y) : SameRel (if c then x else y) := by
  split
  · exact hx
  · exact hy
theorem SameRel.inInitMode {α : Type} {x : M N V α} (hx : SameRel x) : SameRel (inInitMode x) := fun s => hx { s with initMode := true }
theorem SameRel.proper {α : Type} {x : M N V α} (hx : SameRel x) {s s' : Sheet N V} {a : Except (Err N) α} (h : x s = (a, s')) (hp : Proper s) :
    Proper s' := by
  have := hx s
  rw [h] at this
  exact hp.rels this.1 fun r => by rw [this.2]

theorem struct_nrel {s s' : Sheet N V} (h : s'.struct = s.struct) : s'.nrel = s.nrel := by have := congrArg Sheet.nrel h; exact this
theorem struct_terms {s s' : Sheet N V} (h : s'.struct = s.struct) (r : Nat) : (s'.rel r).terms = (s.rel r).terms := by
  have := congrArg Rel.terms (congrFun (congrArg Sheet.rel h) r); exact this
theorem Like.proper {s s' : Sheet N V} (h : Like s s') (hp : Proper s) : Proper s' := hp.rels (struct_nrel h.struct) (struct_terms h.struct)

theorem evaluate_init_rel (p : Prog N V) {s : Sheet N V} (hs : s.initMode = true) :
    (evaluate p s).2.nrel = s.nrel ∧ (evaluate p s).2.rel = s.rel ∧ (evaluate p s).2.initMode = true := by
  obtain ⟨r, a, h⟩ := evaluate_init p hs
  rw [h]
  exact ⟨rfl, rfl, hs⟩

theorem insertName_rel (n : N) : SameRel (V := V) (insertName n) := by
  unfold insertName
  exact (SameRel.gets _).bind fun _ => SameRel.ite (SameRel.throw _) (SameRel.modify fun _ => ⟨rfl, rfl⟩)
theorem pushCell_rel (c : Cell N V) : SameRel (pushCell c) := SameRel.modify fun _ => ⟨rfl, rfl⟩

theorem addOutput_rel (n : N) (p : Prog N V) : SameRel (addOutput n p) := by
  unfold addOutput
  exact (SameRel.gets _).bind fun _ => (pushCell_rel _).bind fun _ => SameRel.modify_bind (fun _ => ⟨rfl, rfl⟩) <| (insertName_rel n).bind fun _ =>
    SameRel.modify fun _ => ⟨rfl, rfl⟩
theorem addLogic_rel (n : N) (p : Prog N V) : SameRel (addLogic n p) := by
  unfold addLogic
  exact (pushCell_rel _).bind fun _ => insertName_rel n
theorem addInvariant_rel (n : N) (p : Prog N V) : SameRel (addInvariant n p) := by
  unfold addInvariant
  exact (SameRel.gets _).bind fun _ => (pushCell_rel _).bind fun _ => SameRel.modify_bind (fun _ => ⟨rfl, rfl⟩) <| (insertName_rel n).bind fun _ =>
    SameRel.modify fun _ => ⟨rfl, rfl⟩
theorem addConstantValue_rel (n : N) (v : V) : SameRel (addConstantValue n v) := by
  unfold addConstantValue
  exact (pushCell_rel _).bind fun _ => insertName_rel n
theorem addInterfaceValue_rel (n : N) (v : V) : SameRel (addInterfaceValue n v) := by
  unfold addInterfaceValue
  exact (SameRel.gets _).bind fun _ => (pushCell_rel _).bind fun _ => SameRel.modify_bind (fun _ => ⟨rfl, rfl⟩) <|
    SameRel.modify_bind (fun _ => ⟨rfl, rfl⟩) <| (pushCell_rel _).bind fun _ => SameRel.modify_bind (fun _ => ⟨rfl, rfl⟩) <| insertName_rel n

/-- Expressions never change the relations, whether or not they are initializers. -/
theorem calculate_rel {g : N → M N V V} (hg : ∀ n, SameRel (g n)) (i : Nat) : SameRel (calculate g i) := by
  unfold calculate
  have hrun : ∀ p : Prog N V, SameRel (p.run g) := by
    intro p
    induction p with
    | ret v => exact SameRel.pure v
    | fail => exact SameRel.throw _
    | ask n k ih => exact (hg n).bind fun v => ih v
  refine (SameRel.gets _).bind fun c => SameRel.ite (SameRel.pure _) (SameRel.ite (SameRel.throw _) ?_)
  have hj : ∀ r : V, SameRel (N := N) (V := V) (modify fun s => s.modCell i fun c =>
      { c with dirty := decide (r ≠ c.state), state := r, evaluated := true }) := fun r => SameRel.modify fun _ => ⟨rfl, rfl⟩
  dsimp only
  split
  · exact (SameRel.throw _).bind hj
  · exact (hrun _).bind hj
  · exact (hg _).bind hj

theorem run_rel {g : N → M N V V} (hg : ∀ n, SameRel (g n)) (p : Prog N V) : SameRel (p.run g) := by
  induction p with
  | ret v => exact SameRel.pure v
  | fail => exact SameRel.throw _
  | ask n k ih => exact (hg n).bind fun v => ih v

theorem term_rel {g : N → M N V V} (hg : ∀ n, SameRel (g n)) (t : Term N V) : SameRel (t.run g) := by
  unfold Term.run
  refine (run_rel hg _).bind fun v => ?_
  split
  · exact SameRel.pure _
  · split
    · exact SameRel.throw _
    · split
      · exact SameRel.throw _
      · exact SameRel.pure _

theorem getInit_rel (n : N) : SameRel (V := V) (getInit n) := by
  intro s
  obtain ⟨r, a, h⟩ := getInit_acc n s
  rw [h]
  exact ⟨rfl, rfl⟩

theorem popAfter_rel {α : Type} (b : Bool) {x : M N V α} (hx : SameRel x) : SameRel (popAfter b x) := by
  intro s
  unfold popAfter
  have := hx s
  cases hr : x s with
  | mk r s' =>
      rw [hr] at this
      cases b
      · exact this
      · exact this

theorem getFresh_rel {g : N → M N V V} (hg : ∀ n, SameRel (g n)) (i : Nat) : SameRel (getFresh g i) := by
  unfold getFresh
  refine (SameRel.gets _).bind fun c => ?_
  have hl : SameRel (N := N) (V := V) (if c.spec ≠ .input ∧ c.spec ≠ .constant then
      modify fun s => s.modCell i fun c => { c with contributing := c.contributing ||| s.condContributing } else Pure.pure ()) :=
    SameRel.ite (SameRel.modify fun _ => ⟨rfl, rfl⟩) (SameRel.pure _)
  dsimp only
  split
  · exact SameRel.modify_bind (fun _ => ⟨rfl, rfl⟩) <| hl
  · exact (SameRel.gets _).bind fun _ => SameRel.modify_bind (fun _ => ⟨rfl, rfl⟩) <| (calculate_rel hg i).bind fun _ =>
      SameRel.modify_bind (fun _ => ⟨rfl, rfl⟩) <| hl

theorem getBody_rel {g : N → M N V V} (hg : ∀ n, SameRel (g n)) (n : N) : SameRel (getBody g n) := by
  unfold getBody
  refine (SameRel.gets _).bind fun s => ?_
  split
  · exact SameRel.throw _
  · dsimp only
    split
    · split
      · exact SameRel.throw _
      · split
        · exact SameRel.modify_bind (fun _ => ⟨rfl, rfl⟩) <| term_rel hg _
        · exact SameRel.modify_bind (fun _ => ⟨rfl, rfl⟩) <| SameRel.pure _
    · split
      · exact SameRel.modify_bind (fun _ => ⟨rfl, rfl⟩) <| (popAfter_rel _ (getFresh_rel hg _)).bind fun _ => SameRel.gets _
      · exact (popAfter_rel _ (getFresh_rel hg _)).bind fun _ => SameRel.gets _

theorem get_rel : ∀ (f : Nat) (n : N), SameRel (V := V) (get f n)
  | 0, n => (SameRel.gets _).bind fun _ => SameRel.ite (getInit_rel n) (SameRel.throw _)
  | f + 1, n => (SameRel.gets _).bind fun _ => SameRel.ite (getInit_rel n) (getBody_rel (get_rel f) n)
theorem evaluate_rel (p : Prog N V) : SameRel (evaluate p) := (SameRel.gets _).bind fun _ => run_rel (get_rel _) p

theorem initializeOne_rel (i : Nat) : SameRel (N := N) (V := V) (initializeOne i) := by
  unfold initializeOne
  refine SameRel.modify_bind (fun _ => ⟨rfl, rfl⟩) <| (SameRel.gets _).bind fun c => ?_
  have hj : ∀ v : V, SameRel (N := N) (V := V) (modify fun s =>
    { (s.modCell i fun c => { c with state := v, priority := s.priorityHigh + 1,
                                      initContributing := c.initContributing ||| s.accumulate }) with
      priorityHigh := s.priorityHigh + 1 }) := fun v => SameRel.modify fun _ => ⟨rfl, rfl⟩
  dsimp only
  split
  · exact (SameRel.throw _).bind hj
  · exact (evaluate_rel _).bind hj
  · exact ((SameRel.gets _).bind fun _ => get_rel _ _).bind hj

theorem addConstant_rel (n : N) (p : Prog N V) : SameRel (addConstant n p) :=
  SameRel.inInitMode ((evaluate_rel p).bind fun v => addConstantValue_rel n v)
theorem addInput_rel (n : N) (p : Option (Prog N V)) : SameRel (addInput n p) := by
  refine SameRel.inInitMode ?_
  have hj : ∀ v : V, SameRel (N := N) (V := V) (do
      let k ← gets (·.size)
      pushCell (mkCell .input n .none false true true v 0 (Bits.single k) none)
      modify fun s => { s with inputIndex := s.inputIndex.insert n k }
      insertName n) := fun v => (SameRel.gets _).bind fun _ => (pushCell_rel _).bind fun _ => SameRel.modify_bind (fun _ => ⟨rfl, rfl⟩) <| insertName_rel n
  cases p with
  | none => exact (SameRel.pure _).bind hj
  | some p => exact (evaluate_rel p).bind hj
theorem addInterface_rel (n : N) (l : Bool) (p q : Option (Prog N V)) : SameRel (addInterface n l p q) := by
  refine SameRel.inInitMode ?_
  refine (SameRel.gets _).bind fun k => (pushCell_rel _).bind fun _ => SameRel.modify_bind (fun _ => ⟨rfl, rfl⟩) <| ?_
  have hj : SameRel (N := N) (V := V) (do
      pushCell (mkCell .interfaceOutput n (Calc.ofExpr q) false false false Values.empty 0 0 (some k))
      modify fun s => { s with outputIndex := s.outputIndex.insert n (k + 1) }
      insertName n) := (pushCell_rel _).bind fun _ => SameRel.modify_bind (fun _ => ⟨rfl, rfl⟩) <| insertName_rel n
  dsimp only
  split
  · exact (initializeOne_rel k).bind fun _ => hj
  · exact hj
theorem set_rel (n : N) (v : V) : SameRel (set n v) := by
  unfold set
  refine (SameRel.gets _).bind fun s => ?_
  split
  · exact SameRel.throw _
  · refine SameRel.modify fun s => ?_
    dsimp only
    split <;> exact ⟨rfl, rfl⟩
theorem raiseAll_rel : ∀ l : List Nat, SameRel (N := N) (V := V) (raiseAll l)
  | [] => SameRel.pure _
  | i :: l => SameRel.modify_bind (fun _ => ⟨rfl, rfl⟩) <| raiseAll_rel l
theorem touch_rel (srt : Sorter) (ns : List N) : SameRel (V := V) (touch srt ns) := (SameRel.gets _).bind fun _ => raiseAll_rel _
theorem reinitLoop_rel : ∀ l : List Nat, SameRel (N := N) (V := V) (reinitLoop l)
  | [] => SameRel.pure _
  | i :: l => by
      unfold reinitLoop
      refine (SameRel.gets _).bind fun s => ?_
      split
      · exact reinitLoop_rel l
      · split
        · exact reinitLoop_rel l
        · exact (initializeOne_rel _).bind fun _ => reinitLoop_rel l
theorem reinitialize_rel (l : List Nat) : SameRel (N := N) (V := V) (reinitialize l) :=
  SameRel.inInitMode ((reinitLoop_rel l).bind fun _ => SameRel.modify fun _ => ⟨rfl, rfl⟩)

theorem empty_good (n0 : N) : Good (Sheet.empty (V := V) n0) := by
  refine ⟨⟨⟨rfl, ?_, ?_, ?_, ?_, ?_, ?_, ?_, ?_, ?_, ?_, ?_, ?_⟩, ⟨?_, ?_, ?_, ?_, ?_, ?_, ?_⟩, ⟨?_, ?_, ?_⟩, ?_⟩, rfl, ?_, ?_⟩ <;>
    simp [Sheet.empty, Index.find, mkCell]

theorem Reachable.good {s : Sheet N V} (h : Reachable s) : Good s := by
  induction h with
  | empty n0 => exact empty_good n0
  | addInput _ h ih => exact addInput_good ih h
  | addOutput _ h ih => exact addOutput_good ih h
  | addInterface _ h ih => exact addInterface_good ih h
  | addInterfaceValue _ h ih => exact addInterfaceValue_good ih h
  | addConstant _ h ih => exact addConstant_good ih h
  | addConstantValue _ h ih => exact addConstantValue_good ih h
  | addLogic _ h ih => exact addLogic_good ih h
  | addInvariant _ h ih => exact addInvariant_good ih h
  | addRelation _ _ h ih => exact (addRelation_good ih h).1
  | set _ h ih => exact (set_soft h).good ih
  | @touch s s' srt ns _ h ih =>
      obtain ⟨s1, h1, h2⟩ := touch_soft srt ns s
      rw [h1] at h
      have := (Prod.mk.inj h).2
      subst this
      exact h2.good ih
  | reinitialize _ h ih => exact reinitialize_good ih h
  | update _ ho h ih => exact update_good ih ho h
  | failed _ ho h hst ih =>
      rcases update_failed ih ho h with h | ⟨n, i, -, -, h3⟩
      · exact h
      · rw [hst] at h3; cases h3

theorem Reachable.proper {s : Sheet N V} (h : Reachable s) : Proper s := by
  induction h with
  | empty n0 => refine ⟨?_, ?_, ?_⟩ <;> simp [Sheet.empty]
  | addInput _ h ih => exact (addInput_rel _ _).proper h ih
  | addOutput _ h ih => exact (addOutput_rel _ _).proper h ih
  | addInterface _ h ih => exact (addInterface_rel _ _ _ _).proper h ih
  | addInterfaceValue _ h ih => exact (addInterfaceValue_rel _ _).proper h ih
  | addConstant _ h ih => exact (addConstant_rel _ _).proper h ih
  | addConstantValue _ h ih => exact (addConstantValue_rel _ _).proper h ih
  | addLogic _ h ih => exact (addLogic_rel _ _).proper h ih
  | addInvariant _ h ih => exact (addInvariant_rel _ _).proper h ih
  | @addRelation s s' c ts hs hts h ih =>
      obtain ⟨-, h1, h2, h3⟩ := addRelation_good hs.good h
      have key : ∀ r, r < s'.nrel → (r = s.nrel ∧ (s'.rel r).terms = ts) ∨ (r < s.nrel ∧ s'.rel r = s.rel r) := by
        intro r hr
        by_cases e : r = s.nrel
        · exact Or.inl ⟨e, by rw [e]; exact h2⟩
        · exact Or.inr ⟨by omega, h3 r e⟩
      refine ⟨fun r hr => ?_, fun r hr => ?_, fun r hr => ?_⟩
      · rcases key r hr with ⟨-, e⟩ | ⟨hr', e⟩
        · rw [e]; exact hts.two
        · rw [e]; exact ih.two r hr'
      · rcases key r hr with ⟨-, e⟩ | ⟨hr', e⟩
        · rw [e]; exact hts.nonempty
        · rw [e]; exact ih.nonempty r hr'
      · rcases key r hr with ⟨-, e⟩ | ⟨hr', e⟩
        · rw [e]; exact hts.nodup
        · rw [e]; exact ih.nodup r hr'
  | set _ h ih => exact (set_rel _ _).proper h ih
  | touch _ h ih => exact (touch_rel _ _).proper h ih
  | reinitialize _ h ih => exact (reinitialize_rel _).proper h ih
  | @update s s' srt ord ev _ ho h ih =>
      have := update_keeps srt ord s
      rw [h] at this
      exact this.proper ih
  | @failed s s' srt ord ev _ ho h _ ih =>
      have := update_keeps srt ord s
      rw [h] at this
      exact this.proper ih

/-- `update` computes the solution of the equations of the directed sheet `d`: in whatever order it goes through the output cells, if
these all have a value without circular definition, and the invariants are booleans, it returns and leaves what `Updated` says. -/
def Computes (srt : Sorter) (s d : Sheet N V) : Prop :=
  ∀ ord, Enumerates s ord → (∀ n i, s.outputIndex.find n = some i → Defined d n) →
    (∀ n i k v b, s.nameIndex.find n = some i → (s.cell i).spec = .invariant → den d k n = some (v, b) → Values.asBool v ≠ none) →
    ∃ ev s', update srt ord s = (.ok ev, s') ∧ Updated s d ord ev s'

/-- What `update` does, before any use of it. -/
theorem update_main {s : Sheet N V} (hg : Good s) (hP : Proper s) (hcond : CondOk (startUpdate s)) {srt : Sorter} (hsrt : SortOk srt) :
    ((∀ ord, ∃ s', update srt ord s = (.error .overConstrained, s')) ∧ ∃ s', prepare srt s = (.error .overConstrained, s')) ∨
    ∃ d ch rk, WF d ∧ Directed s d ch ∧ Ranked s d ch rk ∧
      (∀ r, r < s.nrel → CondBits (startUpdate s) r d.condContributing) ∧
      (∀ i, (∃ r ∈ (s.cell i).relations, Active s r) → (∀ j, j ≠ i → (∃ r ∈ (s.cell j).relations, Active s r) → s.priority j < s.priority i) →
        (d.cell i).term = none) ∧
      Computes srt s d ∧ ∃ pa sP, prepare srt s = (.ok pa, sP) ∧ ∀ i, (d.cell i).term = (sP.cell i).term := by
  rcases prepare_ok hg.fit.wf hg.fit.rel hP hg.stack hcond hsrt with ⟨s', h⟩ | ⟨pa, s', d, ch, rk, h1, h2, h3, h4, h5, h6, h7, h8, h9, h10, h11, -, h13, h14⟩
  · left
    refine ⟨fun ord => ⟨s', ?_⟩, s', h⟩
    rw [update_split, bind_err h]
  · right
    refine ⟨d, ch, rk, h2, h3, h4, h11, h13, ?_, pa, s', h1, fun i => (stat_term h5.stat i).symm⟩
    intro ord hord hdef hb
    exact finishUpdate_ok hg.fit h2 h3 h1 h5 h6 h7 h8 h9 h10 h14 hord hdef hb

end Verif.Adam
