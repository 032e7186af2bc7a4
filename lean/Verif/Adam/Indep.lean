import Verif.Adam.Blind
/-! What a cell does not depend on. -/
namespace Verif.Adam
variable {N V : Type} [DecidableEq N] [DecidableEq V] [Values V]

/-- `e` and `e'` give the same values to the names whose contributors are all outside of `bad`. -/
def Agree (bad : Nat → Prop) (e e' : Env N V) : Prop :=
  ∀ n v b, e n = some (v, b) → (∀ j, bad j → b.testBit j = false) → e' n = some (v, b)

def AgreeV (bad : Nat → Prop) (a a' : Option (V × Bits)) : Prop := ∀ v b, a = some (v, b) → (∀ j, bad j → b.testBit j = false) → a' = some (v, b)

theorem Prog.eval_agree {bad : Nat → Prop} {x : Option N} {e e' : Env N V} (he : Agree bad e e') (p : Prog N V) :
    ∀ {fst fst' ltr ltr' : Option (V × Bits)}, AgreeV bad fst fst' → AgreeV bad ltr ltr' → AgreeV bad (p.eval x e fst ltr) (p.eval x e' fst' ltr') := by
  induction p with
  | ret v => intro _ _ _ _ _ _ v b h _; exact h
  | fail => intro _ _ _ _ _ _ v b h _; exact h
  | ask n k ih =>
      intro fst fst' ltr ltr' hf hl v b h hb
      unfold Prog.eval at h ⊢
      split at h
      · rename_i hx
        rw [if_pos hx]
        cases hfst : fst with
        | none => rw [hfst] at h; simp at h
        | some w =>
            rw [hfst] at h
            simp only [Option.bind_some, Option.map_eq_some_iff] at h
            obtain ⟨u, hu, huv⟩ := h
            have h1 := (Prod.mk.inj huv).1; have h2 := (Prod.mk.inj huv).2
            have hw : fst' = some w := hf w.1 w.2 hfst (fun j hj => by have := hb j hj; rw [← h2, Nat.testBit_or] at this; simp at this; exact this.1)
            have hu' := ih w.1 hl hl u.1 u.2 hu (fun j hj => by have := hb j hj; rw [← h2, Nat.testBit_or] at this; simp at this; exact this.2)
            rw [hw]
            simp only [Option.bind_some, Option.map_eq_some_iff]
            exact ⟨u, hu', huv⟩
      · rename_i hx
        rw [if_neg hx]
        cases hen : e n with
        | none => rw [hen] at h; simp at h
        | some w =>
            rw [hen] at h
            simp only [Option.bind_some, Option.map_eq_some_iff] at h
            obtain ⟨u, hu, huv⟩ := h
            have h2 := (Prod.mk.inj huv).2
            have hw : e' n = some w := he n w.1 w.2 hen (fun j hj => by have := hb j hj; rw [← h2, Nat.testBit_or] at this; simp at this; exact this.1)
            have hu' := ih w.1 hf hl u.1 u.2 hu (fun j hj => by have := hb j hj; rw [← h2, Nat.testBit_or] at this; simp at this; exact this.2)
            rw [hw]
            simp only [Option.bind_some, Option.map_eq_some_iff]
            exact ⟨u, hu', huv⟩

theorem Term.eval_agree {bad : Nat → Prop} {x : N} {e e' : Env N V} (he : Agree bad e e') {inp inp' : V × Bits} (hi : AgreeV bad (some inp) (some inp'))
    (t : Term N V) : AgreeV bad (t.eval x e inp) (t.eval x e' inp') := by
  intro v b h hb
  obtain ⟨w, h1, h2⟩ := Option.bind_eq_some_iff.mp h
  have hw : w.2 = b := by
    unfold pick at h2
    split at h2
    · exact congrArg Prod.snd (Option.some.inj h2)
    · obtain ⟨y, -, hy⟩ := Option.map_eq_some_iff.mp h2
      exact congrArg Prod.snd hy
  have := Prog.eval_agree (x := some x) he t.prog hi hi w.1 w.2 h1 (by rw [hw]; exact hb)
  unfold Term.eval
  rw [this]
  exact h2

theorem firstRef_agree {bad : Nat → Prop} {x : N} {e e' : Env N V} (he : Agree bad e e') {inp inp' : V × Bits} (hi : AgreeV bad (some inp) (some inp'))
    (t : Option (Term N V)) : AgreeV bad (firstRef x e inp t) (firstRef x e' inp' t) := by
  cases t with
  | none => exact hi
  | some t => exact Term.eval_agree he hi t

/-- The equations of `d` and `d'` are the same, up to the values of the interface inputs in `bad`. -/
structure SameEqs (bad : Nat → Prop) (d d' : Sheet N V) : Prop where
  nameIndex : d'.nameIndex = d.nameIndex
  cell : ∀ i, (d'.cell i).spec = (d.cell i).spec ∧ (d'.cell i).count = (d.cell i).count ∧ (d'.cell i).input = (d.cell i).input ∧
    (d'.cell i).calculator = (d.cell i).calculator ∧ (d'.cell i).term = (d.cell i).term
  base : ∀ i, ((d.cell i).spec = .input ∨ (d.cell i).spec = .constant) →
    (d'.cell i).state = (d.cell i).state ∧ (d'.cell i).contributing = (d.cell i).contributing
  inp : ∀ n i j, d.nameIndex.find n = some i → (d.cell i).input = some j →
    AgreeV bad (some ((d.cell j).state, (d.cell j).contributing)) (some ((d'.cell j).state, (d'.cell j).contributing))

theorem rhs_agree {bad : Nat → Prop} {d d' : Sheet N V} (h : SameEqs bad d d') {e e' : Env N V} (he : Agree bad e e') :
    Agree bad (rhs d e) (rhs d' e') := by
  intro n v b hr hb
  unfold rhs at hr ⊢
  rw [h.nameIndex]
  cases hn : d.nameIndex.find n with
  | none => rw [hn] at hr; cases hr
  | some i =>
      rw [hn] at hr
      obtain ⟨c1, c2, c3, c4, c5⟩ := h.cell i
      dsimp only at hr ⊢
      rw [c1, c2, c3, c4, c5]
      split at hr
      · rename_i hbase
        rw [if_pos hbase, (h.base i hbase).1, (h.base i hbase).2]
        exact hr
      · rename_i hbase
        rw [if_neg hbase]
        split at hr
        · cases hr
        · rename_i hcnt
          rw [if_neg hcnt]
          cases hin : (d.cell i).input with
          | none =>
              rw [hin] at hr
              dsimp only at hr ⊢
              cases hcalc : (d.cell i).calculator with
              | none => rw [hcalc] at hr; cases hr
              | self => rw [hcalc] at hr; cases hr
              | expr p =>
                  rw [hcalc] at hr
                  exact Prog.eval_agree he p (fun _ _ h _ => h) (fun _ _ h _ => h) v b hr hb
          | some j =>
              rw [hin] at hr
              have hi := h.inp n i j hn hin
              dsimp only at hr ⊢
              cases hcalc : (d.cell i).calculator with
              | none => rw [hcalc] at hr; cases hr
              | self => rw [hcalc] at hr; exact firstRef_agree he hi _ v b hr hb
              | expr p =>
                  rw [hcalc] at hr
                  exact Prog.eval_agree he p (firstRef_agree he hi _) hi v b hr hb

theorem den_agree {bad : Nat → Prop} {d d' : Sheet N V} (h : SameEqs bad d d') : ∀ k, Agree bad (den d k) (den d' k)
  | 0 => by intro n v b hd _; cases hd
  | k + 1 => rhs_agree h (den_agree h k)

/-! ### Two sheets which differ by the values of cells which are not inputs nor constants -/

/-- `s` with other values. -/
def reval (f : Nat → V) (s : Sheet N V) : Sheet N V := { s with cell := fun i => { s.cell i with state := f i } }

/-- The interface inputs whose value is not the same in `reval f s`. -/
def Changed (f : Nat → V) (s : Sheet N V) (j : Nat) : Prop := (s.cell j).spec = .interfaceInput ∧ f j ≠ (s.cell j).state

theorem reval_good {s : Sheet N V} (hg : Good s) (f : Nat → V) : Good (reval f s) := by
  have hl : Like s (reval f s) := by
    refine ⟨?_, fun _ _ h => h, fun h => ⟨h.low, h.high, h.le⟩⟩
    rfl
  exact ⟨hg.fit.like hl, hg.stack, hg.base, hg.own⟩

theorem reval_proper {s : Sheet N V} (h : Proper s) (f : Nat → V) : Proper (reval f s) := ⟨h.two, h.nonempty, h.nodup⟩

theorem reval_start (f : Nat → V) (s : Sheet N V) : startUpdate (reval f s) = reval f (startUpdate s) := rfl

/-- The equations are the same up to the changed inputs, in the original sheet and in directed sheets with the same terms. -/
theorem sameEqs_of {s d d' : Sheet N V} (hg : Good s) {f : Nat → V}
    (hf : ∀ i, ((s.cell i).spec = .input ∨ (s.cell i).spec = .constant) → f i = (s.cell i).state)
    (hn : d.nameIndex = s.nameIndex) (hn' : d'.nameIndex = s.nameIndex)
    (hd : ∀ i, (d.cell i).spec = (s.cell i).spec ∧ (d.cell i).calculator = (s.cell i).calculator ∧
      (d.cell i).input = (s.cell i).input ∧ (d.cell i).state = (s.cell i).state ∧ (d.cell i).contributing = (s.cell i).contributing)
    (hd' : ∀ i, (d'.cell i).spec = (s.cell i).spec ∧ (d'.cell i).calculator = (s.cell i).calculator ∧
      (d'.cell i).input = (s.cell i).input ∧ (d'.cell i).state = f i ∧ (d'.cell i).contributing = (s.cell i).contributing)
    (hc : ∀ i, (d'.cell i).count = (d.cell i).count) (ht : ∀ i, (d'.cell i).term = (d.cell i).term) : SameEqs (Changed f s) d d' := by
  refine ⟨hn'.trans hn.symm, fun i => ?_, fun i hi => ?_, fun n i j hni hj => ?_⟩
  · obtain ⟨a1, a2, a3, a4, a5⟩ := hd i
    obtain ⟨b1, b2, b3, b4, b5⟩ := hd' i
    exact ⟨b1.trans a1.symm, hc i, b3.trans a3.symm, b2.trans a2.symm, ht i⟩
  · obtain ⟨a1, a2, a3, a4, a5⟩ := hd i
    obtain ⟨b1, b2, b3, b4, b5⟩ := hd' i
    rw [a1] at hi
    rw [a4, b4, a5, b5]
    exact ⟨hf i hi, rfl⟩
  · obtain ⟨a1, a2, a3, a4, a5⟩ := hd j
    obtain ⟨b1, b2, b3, b4, b5⟩ := hd' j
    rw [(hd i).2.2.1] at hj
    rw [hn] at hni
    have hsp := (input_spec hg.fit.wf hni hj).2
    rw [a4, b4, a5, b5]
    intro v b h hb
    have h1 := Option.some.inj h
    have hv := (Prod.mk.inj h1).1; have hbb := (Prod.mk.inj h1).2
    by_cases hch : f j = (s.cell j).state
    · rw [hch]; exact h
    · exfalso
      have := hb j ⟨hsp, hch⟩
      rw [← hbb, hg.own j hsp] at this
      simp [Bits.single] at this

/-- No conditional reads a changed input. -/
def CondFree (f : Nat → V) (s : Sheet N V) : Prop := ∀ r p L v b, r < s.nrel → (s.rel r).cond = some p →
  p.eval none (den (startUpdate s) L) none none = some (v, b) → ∀ j, Changed f s j → b.testBit j = false

theorem start_agree {s : Sheet N V} (hg : Good s) {f : Nat → V}
    (hf : ∀ i, ((s.cell i).spec = .input ∨ (s.cell i).spec = .constant) → f i = (s.cell i).state) :
    SameEqs (Changed f s) (startUpdate s) (startUpdate (reval f s)) :=
  sameEqs_of hg hf rfl rfl (fun _ => ⟨rfl, rfl, rfl, rfl, rfl⟩) (fun _ => ⟨rfl, rfl, rfl, rfl, rfl⟩) (fun _ => rfl) (fun _ => rfl)

theorem condVal_agree {s : Sheet N V} (hg : Good s) {f : Nat → V}
    (hf : ∀ i, ((s.cell i).spec = .input ∨ (s.cell i).spec = .constant) → f i = (s.cell i).state) (hc : CondFree f s) {r : Nat} (hr : r < s.nrel) {bl : Bool}
    (h : CondVal (startUpdate s) r bl) : CondVal (startUpdate (reval f s)) r bl := by
  obtain ⟨p, L, v, b, h1, h2, h3⟩ := h
  exact ⟨p, L, v, b, h1, Prog.eval_agree (den_agree (start_agree hg hf) L) p (fun _ _ h _ => h) (fun _ _ h _ => h) v b h2 (hc r p L v b hr h1 h2), h3⟩

theorem active_agree {s : Sheet N V} (hg : Good s) {f : Nat → V}
    (hf : ∀ i, ((s.cell i).spec = .input ∨ (s.cell i).spec = .constant) → f i = (s.cell i).state) (hc : CondFree f s)
    (hcond : CondOk (startUpdate s)) (r : Nat) : Active (reval f s) r ↔ Active s r := by
  unfold Active
  refine and_congr_right fun hr => not_congr ⟨fun h => ?_, condVal_agree hg hf hc hr⟩
  have hr' : r < (startUpdate s).nrel := hr
  obtain ⟨bl, hb⟩ := hcond r hr' (by
    obtain ⟨p, _, _, _, hp, _⟩ := h
    rw [show ((startUpdate s).rel r).cond = ((startUpdate (reval f s)).rel r).cond from rfl, hp]
    simp)
  have := (condVal_agree hg hf hc hr hb).det h
  rw [this] at hb
  exact hb

theorem condOk_agree {s : Sheet N V} (hg : Good s) {f : Nat → V}
    (hf : ∀ i, ((s.cell i).spec = .input ∨ (s.cell i).spec = .constant) → f i = (s.cell i).state) (hc : CondFree f s)
    (hcond : CondOk (startUpdate s)) : CondOk (startUpdate (reval f s)) := by
  intro r hr hn
  obtain ⟨bl, hb⟩ := hcond r hr hn
  exact ⟨bl, condVal_agree hg hf hc hr hb⟩

theorem sieve_vis {s : Sheet N V} {f : Nat → V} (h : ∀ r, Active (reval f s) r ↔ Active s r) : (sieve (reval f s)).vis = (sieve s).vis := by
  have hA : Active (reval f s) = Active s := funext fun r => propext (h r)
  unfold sieve
  rw [hA]
  rfl

/-- The contributors are complete: what changes the values of interface cells without touching the priorities, and without changing what the
conditionals read, leaves the direction as it is, and leaves the values of the cells none of whose contributors changed. -/
theorem update_indep {s : Sheet N V} (hg : Good s) (hP : Proper s) (hcond : CondOk (startUpdate s)) {srt : Sorter} (hsrt : SortOk srt) {f : Nat → V}
    (hf : ∀ i, ((s.cell i).spec = .input ∨ (s.cell i).spec = .constant) → f i = (s.cell i).state) (hc : CondFree f s) :
    ((∀ ord, ∃ s', update srt ord s = (.error .overConstrained, s')) ∧ ∀ ord, ∃ s', update srt ord (reval f s) = (.error .overConstrained, s')) ∨
    ∃ d d', Computes srt s d ∧ Computes srt (reval f s) d' ∧ (∀ i, (d'.cell i).term = (d.cell i).term) ∧
      ∀ n k v b, den d k n = some (v, b) → (∀ j, Changed f s j → b.testBit j = false) → den d' k n = some (v, b) := by
  have hg' := reval_good hg f
  have hP' := reval_proper hP f
  have hcond' := condOk_agree hg hf hc hcond
  obtain ⟨sD, p1, p2⟩ := prepare_sieve hg.fit.wf hg.fit.rel hg.stack hcond srt
  obtain ⟨sD', p1', p2'⟩ := prepare_sieve hg'.fit.wf hg'.fit.rel hg'.stack hcond' srt
  have hvis : sD'.vis = sD.vis := by rw [p2, p2', sieve_vis (active_agree hg hf hc hcond)]
  obtain ⟨q1, q2⟩ := flow_same (srt := srt) hvis
  rw [← p1, ← p1'] at q1 q2
  rcases update_main hg hP hcond hsrt with ⟨h, s1, h1⟩ | ⟨d, ch, rk, h1, h2, -, -, -, h6, pa, sP, h7, h8⟩
  · rcases update_main hg' hP' hcond' hsrt with ⟨h', -⟩ | ⟨d', ch', rk', -, -, -, -, -, -, pa', sP', h7', -⟩
    · exact Or.inl ⟨h, h'⟩
    · rw [h1, h7'] at q1; cases q1
  · rcases update_main hg' hP' hcond' hsrt with ⟨h', s1, h1'⟩ | ⟨d', ch', rk', h1', h2', -, -, -, h6', pa', sP', h7', h8'⟩
    · rw [h1', h7] at q1; cases q1
    · right
      have ht : ∀ i, (d'.cell i).term = (d.cell i).term := by
        intro i
        rw [h8, h8']
        rw [h7, h7'] at q2
        have := congrArg Cell.term (congrFun (congrArg Sheet.cell q2) i)
        exact this
      refine ⟨d, d', h6, h6', ht, fun n k v b hd hb => ?_⟩
      refine den_agree (sameEqs_of hg hf h2.nameIndex h2'.nameIndex ?_ ?_ ?_ ht) k n v b hd hb
      · intro i
        obtain ⟨a1, a2, a3, a4, a5, a6, a7⟩ := h2.cell i
        exact ⟨a1, a3, a4, a6, a7⟩
      · intro i
        obtain ⟨a1, a2, a3, a4, a5, a6, a7⟩ := h2'.cell i
        exact ⟨a1, a3, a4, a6, a7⟩
      · intro i; rw [h2.free, h2'.free]

end Verif.Adam
