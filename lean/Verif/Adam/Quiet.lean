import Verif.Adam.Ops
/-! A successful `update` leaves a sheet in order, whatever its expressions do. -/
namespace Verif.Adam
variable {N V : Type} [DecidableEq N] [DecidableEq V] [Values V]

/-- The contributors of the cells which are not computed, and the stack of the cells being computed, are as before. -/
structure Quiet (s s' : Sheet N V) : Prop where
  own : ∀ i, ((s.cell i).spec = .input ∨ (s.cell i).spec = .constant ∨ (s.cell i).spec = .interfaceInput) →
    (s'.cell i).contributing = (s.cell i).contributing
  stack : s'.getStack.map (·.1) = s.getStack.map (·.1)

theorem Quiet.refl (s : Sheet N V) : Quiet s s := ⟨fun _ _ => rfl, rfl⟩
theorem Quiet.trans {a b c : Sheet N V} (h : Quiet a b) (hs : b.struct = a.struct) (h' : Quiet b c) : Quiet a c :=
  ⟨fun i hi => (h'.own i (by rw [struct_spec hs]; exact hi)).trans (h.own i hi), h'.stack.trans h.stack⟩

/-- Quiet and structure preserving. -/
def KQ {α : Type} (x : M N V α) : Prop := Keeps x ∧ ∀ s, Fit s → Quiet s (x s).2

theorem KQ.bind {α β : Type} {x : M N V α} {f : α → M N V β} (hx : KQ x) (hf : ∀ a, KQ (f a)) : KQ (x >>= f) := by
  refine ⟨hx.1.bind fun a => (hf a).1, fun s hs => ?_⟩
  have h := hx.2 s hs
  have hl := hx.1 s
  rw [bind_run]
  cases hr : x s with
  | mk r s' =>
      rw [hr] at h hl
      cases r with
      | ok a => exact h.trans hl.struct ((hf a).2 s' (hs.like hl))
      | error e => exact h
theorem KQ.pure {α : Type} (a : α) : KQ (pure a : M N V α) := ⟨Keeps.pure a, fun s _ => Quiet.refl s⟩
theorem KQ.throw {α : Type} (e : Err N) : KQ (throw e : M N V α) := ⟨Keeps.throw e, fun s _ => Quiet.refl s⟩
theorem KQ.gets_bind {α β : Type} {g : Sheet N V → α} {f : α → M N V β} (hf : ∀ a, KQ (f a)) : KQ (Verif.Adam.gets g >>= f) :=
  KQ.bind ⟨Keeps.gets g, fun s _ => Quiet.refl s⟩ hf
theorem KQ.modify {f : Sheet N V → Sheet N V} (h : ∀ s, Like s (f s)) (h' : ∀ s, Fit s → Quiet s (f s)) : KQ (modify f) := ⟨h, h'⟩
theorem KQ.modify_bind {β : Type} {g : Sheet N V → Sheet N V} {f : Unit → M N V β} (h : ∀ s, Like s (g s)) (h' : ∀ s, Fit s → Quiet s (g s))
    (hf : KQ (f ())) : KQ (Verif.Adam.modify g >>= f) := (KQ.modify h h').bind fun _ => hf
theorem KQ.ite {α : Type} {c : Prop} [Decidable c] {x y : M N V α} (hx : KQ x) (hy : KQ y) : KQ (if c then x else y) := by
  split
  · exact hx
  · exact hy

theorem Quiet.modCell (s : Sheet N V) (i : Nat) (f : Cell N V → Cell N V) (h : (f (s.cell i)).contributing = (s.cell i).contributing) :
    Quiet s (s.modCell i f) := by
  refine ⟨fun j _ => ?_, rfl⟩
  simp only [Sheet.modCell]
  split
  · rename_i hj; subst hj; exact h
  · rfl

/-- The contributors of a computed cell may change. -/
theorem Quiet.modContrib (s : Sheet N V) (i : Nat) (f : Cell N V → Cell N V)
    (h : (s.cell i).spec ≠ .input ∧ (s.cell i).spec ≠ .constant ∧ (s.cell i).spec ≠ .interfaceInput) : Quiet s (s.modCell i f) := by
  refine ⟨fun j hj => ?_, rfl⟩
  simp only [Sheet.modCell]
  split
  · rename_i hji; subst hji
    rcases hj with hj | hj | hj
    · exact absurd hj h.1
    · exact absurd hj h.2.1
    · exact absurd hj h.2.2
  · rfl

theorem Quiet.of_eq {s s' : Sheet N V} (hc : s'.cell = s.cell) (hs : s'.getStack.map (·.1) = s.getStack.map (·.1)) : Quiet s s' :=
  ⟨fun i _ => by rw [hc], hs⟩

theorem Prog.run_kq {g : N → M N V V} (hg : ∀ n, KQ (g n)) (p : Prog N V) : KQ (p.run g) := by
  induction p with
  | ret v => exact KQ.pure v
  | fail => exact KQ.throw _
  | ask n k ih => exact (hg n).bind fun v => ih v

theorem Term.run_kq {g : N → M N V V} (hg : ∀ n, KQ (g n)) (t : Term N V) : KQ (t.run g) := by
  unfold Term.run
  refine (Prog.run_kq hg _).bind fun v => ?_
  split
  · exact KQ.pure _
  · split
    · exact KQ.throw _
    · split
      · exact KQ.throw _
      · exact KQ.pure _

theorem calculate_kq {g : N → M N V V} (hg : ∀ n, KQ (g n)) (i : Nat) : KQ (calculate g i) := by
  unfold calculate
  refine KQ.gets_bind fun c => KQ.ite (KQ.pure _) (KQ.ite (KQ.throw _) ?_)
  have hj : ∀ r : V, KQ (N := N) (V := V) (modify fun s => s.modCell i fun c =>
      { c with dirty := decide (r ≠ c.state), state := r, evaluated := true }) := by
    intro r
    apply KQ.modify
    · intro s
      exact Like.modCell s i _ (fun _ => rfl) (fun _ _ => rfl) (fun _ => rfl)
    · intro s _
      exact Quiet.modCell s i _ rfl
  dsimp only
  split
  · exact (KQ.throw _).bind hj
  · exact (Prog.run_kq hg _).bind hj
  · exact (hg _).bind hj

/-- The part of `get` which is guarded, for a cell with a name. -/
theorem getFresh_kq {g : N → M N V V} (hg : ∀ n, KQ (g n)) (i : Nat) (s : Sheet N V) (hs : Fit s) {n : N} (hn : s.nameIndex.find n = some i) :
    Quiet s (getFresh g i s).2 := by
  unfold getFresh
  simp only [bind_gets]
  have hspec := hs.wf.spec n i hn
  -- the last statement
  have hlast : ∀ s1 : Sheet N V, s1.struct = s.struct → Quiet s1 ((if (s.cell i).spec ≠ .input ∧ (s.cell i).spec ≠ .constant then
      modify fun s => s.modCell i fun c => { c with contributing := c.contributing ||| s.condContributing } else pure () : M N V Unit) s1).2 := by
    intro s1 h1
    split
    · rename_i h
      refine Quiet.modContrib s1 i (fun c => { c with contributing := c.contributing ||| s1.condContributing }) ?_
      rw [struct_spec h1]
      exact ⟨h.1, h.2, hspec⟩
    · exact Quiet.refl _
  simp only [ite_run]
  split
  · simp only [bind_modify]
    have h1 : Quiet s { s with accumulate := s.accumulate ||| (s.cell i).contributing } := Quiet.of_eq rfl rfl
    exact h1.trans rfl (hlast _ rfl)
  · rename_i hev
    have hb : (s.cell i).spec ≠ .input ∧ (s.cell i).spec ≠ .constant := by
      constructor <;> intro h <;> exact hev (hs.wf.base i (by simp [h]))
    simp only [bind_gets, bind_modify]
    have hk := calculate_kq hg i
    have hs' : Fit ({ s with accumulate := 0 } : Sheet N V) := hs.like (Like.of_eq rfl rfl rfl rfl)
    have hq0 : Quiet s { s with accumulate := 0 } := Quiet.of_eq rfl rfl
    have hq := hk.2 { s with accumulate := 0 } hs'
    have hl := hk.1 { s with accumulate := 0 }
    rw [bind_run]
    cases hr : calculate g i { s with accumulate := 0 } with
    | mk r s1 =>
        rw [hr] at hq hl
        have hst1 : s1.struct = s.struct := hl.struct
        have hq1 : Quiet s s1 := hq0.trans rfl hq
        cases r with
        | error e => exact hq1
        | ok u =>
            simp only [bind_modify]
            have hq2 : Quiet s1 { (s1.modCell i fun c => { c with contributing := s1.accumulate }) with
                accumulate := s1.accumulate ||| s.accumulate } := by
              have h := Quiet.modContrib s1 i (fun c => { c with contributing := s1.accumulate })
                (by rw [struct_spec hst1]; exact ⟨hb.1, hb.2, hspec⟩)
              exact ⟨h.own, h.stack⟩
            have hst2 : ({ (s1.modCell i fun c => { c with contributing := s1.accumulate }) with
                accumulate := s1.accumulate ||| s.accumulate } : Sheet N V).struct = s.struct := by
              refine Eq.trans ?_ hst1
              exact ((Like.modCell s1 i (fun c => { c with contributing := s1.accumulate }) (fun _ => rfl) (fun _ h => h) (fun _ => rfl)).trans
                (Like.of_eq rfl rfl rfl rfl)).struct
            exact (hq1.trans hst1 hq2).trans hst2 (hlast _ hst2)

theorem markTop_names (l : List (N × Bool)) : (markTop l).map (·.1) = l.map (·.1) := by
  cases l with
  | nil => rfl
  | cons e l => rfl

theorem getBody_kq {g : N → M N V V} (hg : ∀ n, KQ (g n)) (n : N) : KQ (getBody g n) := by
  refine ⟨getBody_keeps (fun n => (hg n).1) n, fun s hs => ?_⟩
  unfold getBody
  simp only [bind_gets, id]
  cases hn : s.nameIndex.find n with
  | none => exact Quiet.refl s
  | some i =>
      dsimp only
      simp only [ite_run]
      split
      · cases (s.cell i).input with
        | none => exact Quiet.refl s
        | some j =>
            dsimp only
            generalize Option.map (fun x => x.2) s.getStack.head? = o
            generalize (s.cell i).term = t
            rcases o with _ | _ | _
            · exact Quiet.of_eq rfl rfl
            · cases t with
              | none => exact Quiet.of_eq rfl rfl
              | some t =>
                  have h1 : Quiet s { s with getStack := markTop s.getStack } := Quiet.of_eq rfl (markTop_names _)
                  have h2 := (Term.run_kq hg t).2 { s with getStack := markTop s.getStack } (hs.like (Like.of_eq rfl rfl rfl rfl))
                  exact h1.trans rfl h2
            · exact Quiet.of_eq rfl rfl
      · -- after the push
        have hfin : ∀ (b : Bool) (s1 : Sheet N V), Fit s1 → s1.cell = s.cell → s1.struct = s.struct → s1.nameIndex = s.nameIndex →
            s1.getStack.map (·.1) = (if b then n :: s.getStack.map (·.1) else s.getStack.map (·.1)) →
            Quiet s ((popAfter b (getFresh g i) >>= fun _ => gets fun s => (s.cell i).state) s1).2 := by
          intro b s1 hf1 hc hst hni hstk
          have hq := getFresh_kq hg i s1 hf1 (n := n) (by rw [hni]; exact hn)
          rw [bind_run]
          unfold popAfter
          cases hr : getFresh g i s1 with
          | mk r s2 =>
              rw [hr] at hq
              have hout : Quiet s (if b then { s2 with getStack := s2.getStack.tail } else s2) := by
                cases b with
                | true =>
                    refine ⟨fun k hk => ?_, ?_⟩
                    · show (s2.cell k).contributing = _
                      rw [hq.own k (by rw [hc]; exact hk), hc]
                    · show s2.getStack.tail.map (·.1) = _
                      rw [List.map_tail, hq.stack, hstk]; rfl
                | false =>
                    refine ⟨fun k hk => ?_, ?_⟩
                    · show (s2.cell k).contributing = _
                      rw [hq.own k (by rw [hc]; exact hk), hc]
                    · show s2.getStack.map (·.1) = _
                      rw [hq.stack, hstk]; rfl
              cases r with
              | ok a => exact hout
              | error e => exact hout
        by_cases hsp : (s.cell i).spec = .interfaceOutput
        · simp only [hsp, decide_true, if_true, bind_modify]
          exact hfin true { s with getStack := (n, false) :: s.getStack } (hs.like (Like.of_eq rfl rfl rfl rfl)) rfl rfl rfl (by simp)
        · simp only [hsp, decide_false, Bool.false_eq_true, if_false, bind_pure]
          exact hfin false s hs rfl rfl rfl (by simp)

theorem getInit_kq (n : N) : KQ (V := V) (getInit n) := by
  refine ⟨getInit_keeps n, fun s _ => ?_⟩
  obtain ⟨r, a, h⟩ := getInit_acc n s
  rw [h]
  exact Quiet.of_eq rfl rfl

theorem get_kq : ∀ (f : Nat) (n : N), KQ (V := V) (get f n)
  | 0, n => KQ.gets_bind fun _ => KQ.ite (getInit_kq n) (KQ.throw _)
  | f + 1, n => KQ.gets_bind fun _ => KQ.ite (getInit_kq n) (getBody_kq (get_kq f) n)

theorem evaluate_kq (p : Prog N V) : KQ (evaluate p) := KQ.gets_bind fun _ => Prog.run_kq (get_kq _) p

theorem decrEdges_quiet : ∀ (l : List Nat) (s : Sheet N V), Quiet s (decrEdges l s)
  | [], s => Quiet.refl s
  | i :: l, s => (Quiet.modCell s i (fun c => { c with count := decr c.count }) rfl).trans (Like.decrCount s i).struct (decrEdges_quiet l _)

theorem Quiet.modRel (s : Sheet N V) (r : Nat) (f : Rel N V → Rel N V) : Quiet s (s.modRel r f) := Quiet.of_eq rfl rfl

theorem conditionals_kq : ∀ l : List Nat, KQ (N := N) (V := V) (conditionals l)
  | [] => KQ.pure _
  | r :: rs => by
      unfold conditionals
      refine KQ.gets_bind fun rl => ?_
      split
      · exact conditionals_kq rs
      · refine (evaluate_kq _).bind fun v => ?_
        split
        · exact KQ.throw _
        · exact conditionals_kq rs
        · exact KQ.modify_bind (decrEdges_like _) (fun s _ => decrEdges_quiet _ s)
            (KQ.modify_bind (fun s => Like.modRel s r true) (fun s _ => Quiet.modRel s r _) (conditionals_kq rs))

theorem outputCell_kq (n : N) : KQ (V := V) (outputCell n) := by
  unfold outputCell
  refine KQ.gets_bind fun s => ?_
  split
  · exact KQ.pure _
  · exact KQ.throw _

theorem lowerPriority_quiet (j : Nat) (s : Sheet N V) : Quiet s (lowerPriority j s) := by
  unfold lowerPriority
  split
  · have h := Quiet.modCell s j (fun c => { c with priority := s.priorityLow - 1 }) rfl
    exact ⟨h.own, h.stack⟩
  · exact Quiet.refl s

theorem applyTerm_kq (t : RelTerm N V) : ∀ (l : List N) (k : Nat), KQ (applyTerm t k l)
  | [], _ => KQ.pure _
  | n :: l, k => by
      unfold applyTerm
      refine (outputCell_kq n).bind fun o => KQ.gets_bind fun c => KQ.ite (KQ.throw _) ?_
      refine KQ.modify_bind (fun s => Like.modCell _ _ _ (fun _ => rfl) (fun _ h => h) (fun _ => rfl)) (fun s _ => Quiet.modCell _ _ _ rfl) ?_
      split
      · exact KQ.throw _
      · refine KQ.modify_bind (lowerPriority_like _) (fun s _ => lowerPriority_quiet _ s) (KQ.gets_bind fun _ => KQ.ite ?_ ?_)
        · exact (applyTerm_kq t l (k + 1)).bind fun _ => KQ.pure _
        · exact KQ.modify_bind (fun s => Like.modCell _ _ _ (fun _ => rfl) (fun _ h => h) (fun _ => rfl)) (fun s _ => Quiet.modCell _ _ _ rfl)
            (applyTerm_kq t l (k + 1))

theorem detach_kq : ∀ l : List N, KQ (V := V) (detach l)
  | [] => KQ.pure _
  | n :: l => by
      unfold detach
      refine (outputCell_kq n).bind fun o => KQ.modify_bind (fun s => ?_) (fun s _ => ?_) (detach_kq l)
      · split
        · exact Like.refl s
        · exact Like.decrCount s o
      · split
        · exact Quiet.refl s
        · exact Quiet.modCell _ _ _ rfl

theorem flowRel_kq (i r : Nat) : KQ (N := N) (V := V) (flowRel i r) := by
  unfold flowRel
  refine KQ.gets_bind fun rl => KQ.ite (KQ.pure _) (KQ.modify_bind (fun s => Like.decrCount s i) (fun s _ => Quiet.modCell _ _ _ rfl)
    (KQ.gets_bind fun s => ?_))
  split
  · exact KQ.throw _
  · split
    · exact KQ.pure _
    · refine KQ.ite (KQ.pure _) (KQ.modify_bind (fun s => Like.modRel s r true) (fun s _ => Quiet.modRel s r _) ?_)
      exact (applyTerm_kq _ _ _).bind fun _ => (detach_kq _).bind fun _ => KQ.pure _

theorem flowCell_kq (i : Nat) : ∀ (l stack : List Nat), KQ (N := N) (V := V) (flowCell i stack l)
  | [], _ => KQ.pure _
  | r :: rs, stack => (flowRel_kq i r).bind fun _ => flowCell_kq i rs _

theorem flowLoop_kq : ∀ (b : Nat) (stack : List Nat), KQ (N := N) (V := V) (flowLoop b stack)
  | _, [] => by unfold flowLoop; exact KQ.pure _
  | 0, _ :: _ => KQ.throw _
  | b + 1, i :: stack => by
      unfold flowLoop
      refine KQ.gets_bind fun c => KQ.ite (flowLoop_kq b stack) ?_
      refine KQ.modify_bind (fun s => Like.modCell _ _ _ (fun _ => rfl) (fun _ h => h) (fun _ => rfl)) (fun s _ => Quiet.modCell _ _ _ rfl) ?_
      exact (flowCell_kq i _ _).bind fun _ => flowLoop_kq b _

theorem flow_kq (srt : Sorter) : KQ (N := N) (V := V) (flow srt) :=
  KQ.gets_bind fun _ => (flowLoop_kq _ _).bind fun _ => KQ.pure _

/-- The first half of `update` is quiet even when it throws. -/
theorem prepare_kq (srt : Sorter) : KQ (N := N) (V := V) (prepare srt) := by
  unfold prepare
  refine KQ.modify_bind startUpdate_like (fun s _ => ⟨fun _ _ => rfl, rfl⟩) (KQ.gets_bind fun _ => (conditionals_kq _).bind fun _ => ?_)
  exact KQ.modify_bind (fun s => Like.of_eq rfl rfl rfl rfl) (fun s _ => Quiet.of_eq rfl rfl) (flow_kq srt)

/-! ### The second half -/

theorem calcOutput_quiet {s s' : Sheet N V} (hs : Fit s) {n : N} {i : Nat} (hn : s.outputIndex.find n = some i)
    (h : calcOutput i s = (.ok (), s')) : Quiet s s' := by
  obtain ⟨hnm, hb⟩ := output_notBase hs.wf hn
  have hspec := hs.wf.spec n i hnm
  have hsp : (s.cell i).spec ≠ .input ∧ (s.cell i).spec ≠ .constant ∧ (s.cell i).spec ≠ .interfaceInput :=
    ⟨fun h => hb (Or.inl h), fun h => hb (Or.inr h), hspec⟩
  have hlink : ∀ s1 : Sheet N V, Quiet s1 (link i s1) := by
    intro s1
    unfold link
    split
    · exact Quiet.refl _
    · split
      · exact Quiet.modCell _ _ _ rfl
      · exact Quiet.refl _
  unfold calcOutput at h
  simp only [bind_gets, ite_run] at h
  split at h
  · simp only [bind_pure, modify_run] at h
    have := (Prod.mk.inj h).2
    subst this
    exact hlink s
  · simp only [bind_modify] at h
    -- with or without the name on the stack
    have key : ∀ (b : Bool) (s1 : Sheet N V), Fit s1 → s1.cell = s.cell → s1.struct = s.struct →
        s1.getStack.map (·.1) = (if b then (s.cell i).name :: s.getStack.map (·.1) else s.getStack.map (·.1)) →
        ∀ s2 : Sheet N V, calculate (get s1.size) i s1 = (.ok (), s2) → ∀ s3 : Sheet N V, s3.cell = s2.cell → s3.struct = s2.struct →
        s3.getStack = (if b then s2.getStack.tail else s2.getStack) →
        Quiet s (link i (s3.modCell i fun c => { c with contributing := s3.accumulate ||| s3.condContributing })) := by
      intro b s1 hf1 hc1 hst1 hstk1 s2 hcalc s3 hc3 hst3 hstk3
      have hk := calculate_kq (get_kq (N := N) (V := V) s1.size) i
      have hq := hk.2 s1 hf1
      have hl := hk.1 s1
      rw [hcalc] at hq hl
      have hst2 : s2.struct = s.struct := hl.struct.trans hst1
      have hq3 : Quiet s s3 := by
        refine ⟨fun k hk => ?_, ?_⟩
        · rw [hc3, hq.own k (by rw [hc1]; exact hk), hc1]
        · rw [hstk3]
          cases b with
          | true => rw [if_pos rfl, List.map_tail, hq.stack, hstk1]; rfl
          | false => rw [if_neg (by simp), hq.stack, hstk1]; rfl
      have hst3' : s3.struct = s.struct := hst3.trans hst2
      have hq4 := Quiet.modContrib s3 i (fun c => { c with contributing := s3.accumulate ||| s3.condContributing })
        (by rw [struct_spec hst3']; exact hsp)
      have hst4 : (s3.modCell i fun c => { c with contributing := s3.accumulate ||| s3.condContributing }).struct = s.struct :=
        (Like.modCell s3 i (fun c => { c with contributing := s3.accumulate ||| s3.condContributing }) (fun _ => rfl) (fun _ h => h)
          (fun _ => rfl)).struct.trans hst3'
      exact (hq3.trans hst3' hq4).trans hst4 (hlink _)
    by_cases hio : (s.cell i).spec = .interfaceOutput
    · simp only [hio, if_true, bind_modify, bind_gets] at h
      cases hr : calculate (get s.size) i { s with accumulate := 0, getStack := ((s.cell i).name, false) :: s.getStack } with
      | mk r s2 =>
          cases r with
          | error e => rw [bind_err hr] at h; cases h
          | ok u =>
              rw [bind_ok hr] at h
              simp only [bind_modify, modify_run] at h
              have := (Prod.mk.inj h).2
              subst this
              exact key true { s with accumulate := 0, getStack := ((s.cell i).name, false) :: s.getStack } (hs.like (Like.of_eq rfl rfl rfl rfl)) rfl rfl (by simp) s2 hr { s2 with getStack := s2.getStack.tail } rfl rfl rfl
    · simp only [hio, if_false, bind_pure, bind_gets] at h
      cases hr : calculate (get s.size) i { s with accumulate := 0 } with
      | mk r s2 =>
          cases r with
          | error e => rw [bind_err hr] at h; cases h
          | ok u =>
              rw [bind_ok hr] at h
              simp only [bind_pure, bind_modify, modify_run] at h
              have := (Prod.mk.inj h).2
              subst this
              exact key false { s with accumulate := 0 } (hs.like (Like.of_eq rfl rfl rfl rfl)) rfl rfl (by simp) s2 hr s2 rfl rfl rfl

theorem calcOutputs_quiet : ∀ (l : List Nat) (s s' : Sheet N V), Fit s → (∀ i ∈ l, ∃ n, s.outputIndex.find n = some i) →
    calcOutputs l s = (.ok (), s') → Quiet s s'
  | [], s, s', _, _, h => by
      have := (Prod.mk.inj h).2
      subst this
      exact Quiet.refl s
  | i :: l, s, s', hs, ho, h => by
      unfold calcOutputs at h
      obtain ⟨n, hn⟩ := ho i (by simp)
      have hl := calcOutput_keeps (N := N) (V := V) i s
      cases hr : calcOutput i s with
      | mk r s1 =>
          rw [hr] at hl
          cases r with
          | error e => rw [bind_err hr] at h; cases h
          | ok u =>
              rw [bind_ok hr] at h
              have hq := calcOutput_quiet hs hn hr
              have hout : s1.outputIndex = s.outputIndex := by have := congrArg Sheet.outputIndex hl.struct; exact this
              exact hq.trans hl.struct (calcOutputs_quiet l s1 s' (hs.like hl) (fun j hj => by rw [hout]; exact ho j (by simp [hj])) h)

theorem poisonLoop_kq : ∀ (l : List Nat) (b : Bits), KQ (N := N) (V := V) (poisonLoop b l)
  | [], _ => KQ.pure _
  | i :: l, b => by
      unfold poisonLoop
      refine KQ.gets_bind fun c => ?_
      split
      · exact KQ.throw _
      · exact poisonLoop_kq l _
      · exact poisonLoop_kq l _

theorem notify_kq (poison : Bits) : ∀ (l : List Nat) (a : Bits), KQ (N := N) (V := V) (notify poison a l)
  | [], _ => KQ.pure _
  | i :: l, a => by
      unfold notify
      refine KQ.gets_bind fun s => ?_
      dsimp only
      refine KQ.modify_bind (fun s => Like.modCell _ _ _ (fun _ => rfl) (fun _ h => h) (fun _ => rfl)) (fun s _ => Quiet.modCell _ _ _ rfl) ?_
      exact (notify_kq poison l _).bind fun _ => KQ.pure _

theorem Quiet.good {s s' : Sheet N V} (hg : Good s) (hl : Like s s') (h : Quiet s s') : Good s' := by
  refine ⟨hg.fit.like hl, ?_, fun i hi => ?_, fun i hi => ?_⟩
  · have := h.stack
    rw [hg.stack] at this
    simpa using this
  · rw [struct_spec hl.struct] at hi
    rw [h.own i (by rcases hi with h | h <;> simp [h])]
    exact hg.base i hi
  · rw [struct_spec hl.struct] at hi
    rw [h.own i (by simp [hi])]
    exact hg.own i hi

/-- A sheet is in order after every update which returns. -/
theorem update_good {s s' : Sheet N V} (hg : Good s) {srt : Sorter} {ord : List Nat} (hord : Enumerates s ord) {ev : List (Event N V)}
    (h : update srt ord s = (.ok ev, s')) : Good s' := by
  have hl := update_keeps (N := N) (V := V) srt ord s
  rw [h] at hl
  refine Quiet.good hg hl ?_
  rw [update_split] at h
  have hp := prepare_kq (N := N) (V := V) srt
  have hq1 := hp.2 s hg.fit
  have hl1 := hp.1 s
  cases hr : prepare srt s with
  | mk r s1 =>
      rw [hr] at hq1 hl1
      cases r with
      | error e => rw [bind_err hr] at h; cases h
      | ok pa =>
          rw [bind_ok hr] at h
          unfold finishUpdate at h
          have hl2 := calcOutputs_keeps (N := N) (V := V) ord s1
          cases hr2 : calcOutputs ord s1 with
          | mk r2 s2 =>
              rw [hr2] at hl2
              cases r2 with
              | error e => rw [bind_err hr2] at h; cases h
              | ok u =>
                  rw [bind_ok hr2] at h
                  have hf1 := hg.fit.like hl1
                  have hout : s1.outputIndex = s.outputIndex := by have := congrArg Sheet.outputIndex hl1.struct; exact this
                  have hq2 := calcOutputs_quiet ord s1 s2 hf1 (fun i hi => by rw [hout]; exact (hord.2 i).mp hi) hr2
                  have hf2 := hf1.like hl2
                  have hrest : KQ (N := N) (V := V) (do
                      let poison ← poisonLoop 0 (← gets (·.invariants))
                      let (ev, active) ← notify poison pa ord
                      modify fun s => { s with priorityAccessed := pa, active := active }
                      pure (ev ++ [Event.enabled pa active])) := by
                    refine KQ.gets_bind fun _ => (poisonLoop_kq _ _).bind fun poison => (notify_kq poison _ _).bind fun x => ?_
                    exact KQ.modify_bind (fun s => Like.of_eq rfl rfl rfl rfl) (fun s _ => Quiet.of_eq rfl rfl) (KQ.pure _)
                  have hq3 := hrest.2 s2 hf2
                  rw [h] at hq3
                  exact (hq1.trans hl1.struct hq2).trans (hl2.struct.trans hl1.struct) hq3

end Verif.Adam
