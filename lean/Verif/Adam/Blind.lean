import Verif.Adam.Main
/-! The direction of the relations does not depend on the values of the cells, except through the conditionals. -/
namespace Verif.Adam
variable {N V : Type} [DecidableEq N] [DecidableEq V] [Values V]

/-- What `flow` sees of a sheet. -/
def Sheet.vis (s : Sheet N V) : Sheet N V := { s.stat with condContributing := 0 }

/-- The computation does not look at what `vis` hides. -/
def Blind {α : Type} (x : M N V α) : Prop := ∀ s : Sheet N V, x s.vis = ((x s).1, (x s).2.vis)

theorem Blind.bind {α β : Type} {x : M N V α} {f : α → M N V β} (hx : Blind x) (hf : ∀ a, Blind (f a)) : Blind (x >>= f) := by
  intro s
  have h := hx s
  rw [bind_run, bind_run, h]
  cases hr : x s with
  | mk r s' =>
      cases r with
      | ok a => exact hf a s'
      | error e => rfl
theorem Blind.pure {α : Type} (a : α) : Blind (Pure.pure a : M N V α) := fun _ => rfl
theorem Blind.throw {α : Type} (e : Err N) : Blind (Verif.Adam.throw e : M N V α) := fun _ => rfl
theorem Blind.gets_bind {α β : Type} {g : Sheet N V → α} {f : α → M N V β} (h : ∀ s : Sheet N V, f (g s.vis) = f (g s)) (hf : ∀ a, Blind (f a)) :
    Blind (Verif.Adam.gets g >>= f) := by
  intro s
  rw [bind_gets, bind_gets, h]
  exact hf _ s
theorem Blind.modify {g : Sheet N V → Sheet N V} (h : ∀ s : Sheet N V, g s.vis = (g s).vis) : Blind (Verif.Adam.modify g) := by
  intro s
  show (_, _) = (_, _)
  rw [h]
  rfl
theorem Blind.modify_bind {β : Type} {g : Sheet N V → Sheet N V} {f : Unit → M N V β} (h : ∀ s : Sheet N V, g s.vis = (g s).vis) (hf : Blind (f ())) :
    Blind (Verif.Adam.modify g >>= f) := (Blind.modify h).bind fun _ => hf
theorem Blind.ite {α : Type} {c : Prop} [Decidable c] {x y : M N V α} (hx : Blind x) (hy : Blind y) : Blind (if c then x else y) := by
  split
  · exact hx
  · exact hy

theorem vis_modCell (s : Sheet N V) (i : Nat) (f : Cell N V → Cell N V) (hf : ∀ c, f c.stat = (f c).stat) : s.vis.modCell i f = (s.modCell i f).vis := by
  unfold Sheet.modCell Sheet.vis Sheet.stat
  congr 1
  funext j
  dsimp only
  split
  · exact hf _
  · rfl

theorem outputCell_blind (n : N) : Blind (V := V) (outputCell n) := by
  unfold outputCell
  refine Blind.gets_bind (fun s => rfl) fun s => ?_
  split
  · exact Blind.pure _
  · exact Blind.throw _

theorem lowerPriority_vis (j : Nat) (s : Sheet N V) : lowerPriority j s.vis = (lowerPriority j s).vis := by
  unfold lowerPriority
  have h : (s.vis.cell j).linked = (s.cell j).linked := rfl
  rw [h]
  split
  · have := vis_modCell s j (fun c => { c with priority := s.priorityLow - 1 }) (fun _ => rfl)
    exact congrArg (fun x : Sheet N V => { x with priorityLow := s.priorityLow - 1 }) this
  · rfl

theorem applyTerm_blind (t : RelTerm N V) : ∀ (l : List N) (k : Nat), Blind (applyTerm t k l)
  | [], _ => Blind.pure _
  | n :: l, k => by
      unfold applyTerm
      refine (outputCell_blind n).bind fun o => Blind.gets_bind (fun s => rfl) fun c => Blind.ite (Blind.throw _) ?_
      refine Blind.modify_bind (fun s => vis_modCell s o _ fun _ => rfl) ?_
      split
      · exact Blind.throw _
      · refine Blind.modify_bind (lowerPriority_vis _) (Blind.gets_bind (fun s => rfl) fun _ => Blind.ite ?_ ?_)
        · exact (applyTerm_blind t l (k + 1)).bind fun _ => Blind.pure _
        · exact Blind.modify_bind (fun s => vis_modCell s o _ fun _ => rfl) (applyTerm_blind t l (k + 1))

theorem detach_blind : ∀ l : List N, Blind (V := V) (detach l)
  | [] => Blind.pure _
  | n :: l => by
      unfold detach
      refine (outputCell_blind n).bind fun o => Blind.modify_bind (fun s => ?_) (detach_blind l)
      have h : (s.vis.cell o).resolved = (s.cell o).resolved := rfl
      rw [h]
      split
      · rfl
      · exact vis_modCell s o _ fun _ => rfl

theorem flowRel_blind (i r : Nat) : Blind (N := N) (V := V) (flowRel i r) := by
  unfold flowRel
  refine Blind.gets_bind (fun s => rfl) fun rl => Blind.ite (Blind.pure _) (Blind.modify_bind (fun s => vis_modCell s i _ fun _ => rfl)
    (Blind.gets_bind (fun s => rfl) fun s => ?_))
  split
  · exact Blind.throw _
  · split
    · exact Blind.pure _
    · refine Blind.ite (Blind.pure _) (Blind.modify_bind (fun s => rfl) ?_)
      exact (applyTerm_blind _ _ _).bind fun _ => (detach_blind _).bind fun _ => Blind.pure _

theorem flowCell_blind (i : Nat) : ∀ (l stack : List Nat), Blind (N := N) (V := V) (flowCell i stack l)
  | [], _ => Blind.pure _
  | r :: rs, stack => (flowRel_blind i r).bind fun _ => flowCell_blind i rs _

theorem flowLoop_blind : ∀ (b : Nat) (stack : List Nat), Blind (N := N) (V := V) (flowLoop b stack)
  | _, [] => by unfold flowLoop; exact Blind.pure _
  | 0, _ :: _ => Blind.throw _
  | b + 1, i :: stack => by
      unfold flowLoop
      refine Blind.gets_bind (fun s => rfl) fun c => Blind.ite (flowLoop_blind b stack) ?_
      refine Blind.modify_bind (fun s => vis_modCell s i _ fun _ => rfl) ?_
      exact (flowCell_blind i _ _).bind fun _ => flowLoop_blind b _

theorem flow_blind (srt : Sorter) : Blind (N := N) (V := V) (flow srt) := by
  unfold flow
  refine Blind.gets_bind (fun s => rfl) fun s => ?_
  exact (flowLoop_blind _ _).bind fun _ => Blind.pure _

/-- Two sheets which look the same are directed in the same way. -/
theorem flow_same {srt : Sorter} {a b : Sheet N V} (h : a.vis = b.vis) :
    (flow srt a).1 = (flow srt b).1 ∧ (flow srt a).2.vis = (flow srt b).2.vis := by
  have ha := flow_blind (N := N) (V := V) srt a
  have hb := flow_blind (N := N) (V := V) srt b
  rw [h, hb] at ha
  exact ⟨(congrArg Prod.fst ha).symm, (congrArg Prod.snd ha).symm⟩

/-! ### After the conditionals -/

theorem cell_of_fl {c c' : Cell N V} (h : c.fl = c'.fl) :
    c = { c' with count := c.count, term := c.term, resolved := c.resolved, priority := c.priority } := by
  cases c; cases c'
  simp only [Cell.fl, Cell.mk.injEq] at h ⊢
  grind

theorem rel_of_fl {s s' : Sheet N V} (h : s.fl = s'.fl) (r : Nat) : s.rel r = { s'.rel r with resolved := (s.rel r).resolved } := by
  have := congrFun (congrArg Sheet.rel h) r
  have h1 := congrArg Rel.cond this; have h2 := congrArg Rel.terms this; have h3 := congrArg Rel.edges this
  have e : s.rel r = ⟨(s.rel r).cond, (s.rel r).terms, (s.rel r).edges, (s.rel r).resolved⟩ := rfl
  rw [e]
  show Rel.mk _ _ _ _ = Rel.mk _ _ _ _
  congr 1

open Classical in
/-- The sheet at the start of an update with the relations whose conditional is false set aside. -/
noncomputable def sieve (s : Sheet N V) : Sheet N V :=
  { startUpdate s with
    cell := fun i => { (startUpdate s).cell i with count := ((s.cell i).relations.filter fun r => decide (Active s r)).length }
    rel := fun r => { s.rel r with resolved := decide (r < s.nrel ∧ ¬ Active s r) } }

open Classical in
theorem prepare_sieve {s : Sheet N V} (hw : WF s) (hr : RelOk s) (hst : s.getStack = []) (hcond : CondOk (startUpdate s)) (srt : Sorter) :
    ∃ sD : Sheet N V, prepare srt s = flow srt sD ∧ sD.vis = (sieve s).vis := by
  have hwA := startUpdate_wf hw
  have hpA := startUpdate_pre hw hr
  have hUA : ∀ r, U (startUpdate s) r = true := fun r => rfl
  obtain ⟨s0C, sC, h1, h2, h3, h4, h5, h6, h7, h8, h9, h10, h11, h12⟩ := conditionals_ok (List.range s.nrel) (startUpdate s) (startUpdate s) hwA hpA
    startUpdate_ev hst rfl List.nodup_range (fun r hr => ⟨List.mem_range.mp hr, hUA r⟩) (fun r hr => hcond r (List.mem_range.mp hr))
  have hres : ∀ r, U s0C r = true ↔ ¬ (r < s.nrel ∧ ¬ Active s r) := by
    intro r
    rw [h8]
    simp only [hUA, true_and, List.mem_range, Active]
    constructor
    · rintro h ⟨a, b⟩; exact b ⟨a, fun c => h ⟨a, c⟩⟩
    · rintro h ⟨a, b⟩; exact h ⟨a, fun c => c.2 b⟩
  refine ⟨{ sC with condContributing := sC.accumulate }, ?_, ?_⟩
  · unfold prepare
    simp only [bind_modify, bind_gets]
    rw [show (startUpdate s).nrel = s.nrel from rfl, bind_ok h1]
    simp only [bind_modify]
  · have hv : ({ sC with condContributing := sC.accumulate } : Sheet N V).vis = s0C.vis := by
      have := congrArg (fun x : Sheet N V => { x with condContributing := 0 }) h4.stat
      exact this
    rw [hv]
    have hcell : s0C.cell = (sieve s).cell := by
      funext i
      rw [cell_of_fl (fl_cell h6 i)]
      have hc : (s0C.cell i).count = ((s.cell i).relations.filter fun r => @decide (Active s r) (Classical.propDecidable _)).length := by
        rw [h3.start.cnt]
        unfold nU
        rw [fl_relations h6]
        congr 1
        refine List.filter_congr fun r hr' => ?_
        have hlt := ((hr.rels i r).mp hr').1
        have := hres r
        rw [Bool.eq_iff_iff, this]
        simp [hlt]
      rw [hc, h3.start.term, (h12 i).1, (h12 i).2.1]
      rfl
    have hrel : s0C.rel = (sieve s).rel := by
      funext r
      rw [rel_of_fl h6 r]
      have : (s0C.rel r).resolved = ((sieve s).rel r).resolved := by
        rw [Bool.eq_iff_iff]
        unfold sieve
        simp only [decide_eq_true_eq]
        have h := hres r
        unfold U at h
        cases hb : (s0C.rel r).resolved with
        | true => rw [hb] at h; simp only [Bool.not_true, Bool.false_eq_true, false_iff, not_not] at h; simp only [true_iff]; exact h
        | false => rw [hb] at h; simp only [Bool.not_false, true_iff] at h; simp only [Bool.false_eq_true, false_iff]; exact h
      rw [this]
      rfl
    have heq : s0C = sieve s := by
      have h6' := h6
      unfold Sheet.fl at h6'
      cases s0C
      simp only [Sheet.mk.injEq] at h6'
      obtain ⟨e1, e2, e3, e4, e5, e6, e7, e8, e9, e10, e11, e12, e13, e14, e15, e16, e17, e18, e19⟩ := h6'
      simp only at hcell hrel
      show _ = Sheet.mk _ _ _ _ _ _ _ _ _ _ _ _ _ _ _ _ _ _ _
      rw [Sheet.mk.injEq]
      exact ⟨e1, hcell, e3, hrel, e5, e6, e7, e8, e9, (h12 0).2.2, e11, e12, e13, e14, e15, e16, e17, e18, e19⟩
    rw [heq]

end Verif.Adam
