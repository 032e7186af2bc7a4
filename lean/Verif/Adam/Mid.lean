import Verif.Adam.Contrib
/-! Before the notifications `update` leaves alone what was reported about priorities and activity; what the notifications are. -/
namespace Verif.Adam
variable {N V : Type} [DecidableEq N] [DecidableEq V] [Values V]

/-- What the sheet remembers of the last update. -/
def Shown (P A : Bits) (s : Sheet N V) : Prop := s.priorityAccessed = P ∧ s.active = A

section
variable {P A : Bits}

theorem calculate_shown {g : N → M N V V} (hg : ∀ n, Pres (Shown P A) (g n)) (i : Nat) : Pres (Shown P A) (calculate g i) := by
  unfold calculate
  refine Pres.gets_bind fun c => Pres.ite (Pres.pure _) (Pres.ite (Pres.throw _) ?_)
  have hj : ∀ r : V, Pres (N := N) (V := V) (Shown P A) (modify fun s => s.modCell i fun c =>
      { c with dirty := decide (r ≠ c.state), state := r, evaluated := true }) :=
    fun r => Pres.modify fun s h => h
  dsimp only
  split
  · exact (Pres.throw _).bind hj
  · exact (Prog.run_pres hg _).bind hj
  · exact (hg _).bind hj

theorem popAfter_shown {α : Type} (b : Bool) {x : M N V α} (hx : Pres (Shown P A) x) : Pres (Shown P A) (popAfter b x) := by
  intro s h
  have h1 := hx s h
  unfold popAfter
  cases hr : x s with
  | mk r s' =>
      rw [hr] at h1
      dsimp only
      split
      · exact h1
      · exact h1

theorem getFresh_shown {g : N → M N V V} (hg : ∀ n, Pres (Shown P A) (g n)) (i : Nat) : Pres (Shown P A) (getFresh g i) := by
  unfold getFresh
  refine Pres.gets_bind fun c => ?_
  have h3 : Pres (N := N) (V := V) (Shown P A) (if c.spec ≠ .input ∧ c.spec ≠ .constant then
      modify fun s => s.modCell i fun c => { c with contributing := c.contributing ||| s.condContributing } else pure ()) :=
    Pres.ite (Pres.modify fun s h => h) (Pres.pure _)
  refine Pres.ite (Pres.modify_bind (fun s h => h) h3) ?_
  refine Pres.gets_bind fun old => Pres.modify_bind ?_ ((calculate_shown hg i).bind fun _ => Pres.modify_bind ?_ h3)
  · exact fun _ h => h
  · exact fun _ h => h

theorem getBody_shown {g : N → M N V V} (hg : ∀ n, Pres (Shown P A) (g n)) (n : N) : Pres (Shown P A) (getBody g n) := by
  unfold getBody
  refine Pres.gets_bind fun s => ?_
  dsimp only
  split
  · exact Pres.throw _
  · refine Pres.ite ?_ ?_
    · split
      · exact Pres.throw _
      · rename_i j _
        split
        · exact Pres.modify_bind (fun t ht => ht) (Term.run_pres hg _)
        · refine Pres.modify_bind (fun t ht => ?_) (Pres.pure _)
          exact ht
    · have h2 : ∀ i b, Pres (N := N) (V := V) (Shown P A) (do popAfter b (getFresh g i); gets fun s => (s.cell i).state) :=
        fun i b => (popAfter_shown _ (getFresh_shown hg i)).bind fun _ _ h => h
      split
      · exact Pres.modify_bind (fun t ht => ht) (h2 _ _)
      · exact h2 _ _

theorem getInit_shown (n : N) : Pres (V := V) (Shown P A) (getInit n) := by
  intro s h
  obtain ⟨r, a, he⟩ := getInit_acc n s
  rw [he]
  exact h

theorem get_shown : ∀ (f : Nat) (n : N), Pres (V := V) (Shown P A) (get f n)
  | 0, n => by
      unfold get
      exact Pres.gets_bind fun _ => Pres.ite (getInit_shown n) (Pres.throw _)
  | f + 1, n => by
      unfold get
      exact Pres.gets_bind fun _ => Pres.ite (getInit_shown n) (getBody_shown (get_shown f) n)

theorem evaluate_shown (p : Prog N V) : Pres (Shown P A) (evaluate p) := Pres.gets_bind fun _ => Prog.run_pres (get_shown _) p

theorem decrEdges_shown : ∀ (l : List Nat) (s : Sheet N V), Shown P A s → Shown P A (decrEdges l s)
  | [], _, h => h
  | i :: l, s, h => decrEdges_shown l _ (h)

theorem conditionals_shown : ∀ l : List Nat, Pres (N := N) (V := V) (Shown P A) (conditionals l)
  | [] => Pres.pure _
  | r :: rs => by
      unfold conditionals
      refine Pres.gets_bind fun rl => ?_
      split
      · exact conditionals_shown rs
      · refine (evaluate_shown _).bind fun v => ?_
        split
        · exact Pres.throw _
        · exact conditionals_shown rs
        · exact Pres.modify_bind (decrEdges_shown _) (Pres.modify_bind (fun t ht => ht) (conditionals_shown rs))

theorem outputCell_shown (n : N) : Pres (V := V) (Shown P A) (outputCell n) := by
  unfold outputCell
  refine Pres.gets_bind fun s => ?_
  split
  · exact Pres.pure _
  · exact Pres.throw _

theorem lowerPriority_shown (j : Nat) (s : Sheet N V) (h : Shown P A s) : Shown P A (lowerPriority j s) := by
  unfold lowerPriority
  split
  · exact h
  · exact h

theorem applyTerm_shown (t : RelTerm N V) : ∀ (l : List N) (k : Nat), Pres (Shown P A) (applyTerm t k l)
  | [], k => Pres.pure _
  | n :: l, k => by
      unfold applyTerm
      refine (outputCell_shown n).bind fun o => Pres.gets_bind fun c => Pres.ite (Pres.throw _) ?_
      refine Pres.modify_bind (fun s h => h) ?_
      split
      · exact Pres.throw _
      · refine Pres.modify_bind (lowerPriority_shown _) (Pres.gets_bind fun _ => Pres.ite ?_ ?_)
        · exact (applyTerm_shown t l _).bind fun _ => Pres.pure _
        · exact Pres.modify_bind (fun s h => h) (applyTerm_shown t l _)

theorem detach_shown : ∀ l : List N, Pres (V := V) (Shown P A) (detach l)
  | [] => Pres.pure _
  | n :: l => by
      unfold detach
      refine (outputCell_shown n).bind fun o => Pres.modify_bind (fun s h => ?_) (detach_shown l)
      split
      · exact h
      · exact h

theorem flowRel_shown (i r : Nat) : Pres (N := N) (V := V) (Shown P A) (flowRel i r) := by
  unfold flowRel
  refine Pres.gets_bind fun rl => Pres.ite (Pres.pure _) (Pres.modify_bind (fun s h => h) (Pres.gets_bind fun s => ?_))
  split
  · exact Pres.throw _
  · split
    · exact Pres.pure _
    · exact Pres.ite (Pres.pure _) (Pres.modify_bind (fun s h => h)
        ((applyTerm_shown _ _ _).bind fun _ => (detach_shown _).bind fun _ => Pres.pure _))

theorem flowCell_shown (i : Nat) : ∀ (l stack : List Nat), Pres (N := N) (V := V) (Shown P A) (flowCell i stack l)
  | [], _ => Pres.pure _
  | r :: rs, _ => (flowRel_shown i r).bind fun _ => flowCell_shown i rs _

theorem flowLoop_shown : ∀ (b : Nat) (stack : List Nat), Pres (N := N) (V := V) (Shown P A) (flowLoop b stack)
  | 0, [] => Pres.pure _
  | b + 1, [] => Pres.pure _
  | 0, _ :: _ => Pres.throw _
  | b + 1, i :: stack => by
      unfold flowLoop
      exact Pres.gets_bind fun c => Pres.ite (flowLoop_shown b stack) (Pres.modify_bind (fun s h => h)
        ((flowCell_shown i _ _).bind fun _ => flowLoop_shown b _))

theorem flow_shown (srt : Sorter) : Pres (N := N) (V := V) (Shown P A) (flow srt) :=
  Pres.gets_bind fun _ => (flowLoop_shown _ _).bind fun _ => Pres.pure _

theorem calcOutput_shown (i : Nat) : Pres (N := N) (V := V) (Shown P A) (calcOutput i) := by
  unfold calcOutput
  refine Pres.gets_bind fun c => ?_
  have hl : Pres (N := N) (V := V) (Shown P A) (modify (link i)) := by
    refine Pres.modify fun s h => ?_
    unfold link
    split
    · exact h
    · split
      · exact h
      · exact h
  have hm : Pres (N := N) (V := V) (Shown P A) (do
      modify fun s => s.modCell i fun c => { c with contributing := s.accumulate ||| s.condContributing }
      modify (link i)) :=
    Pres.modify_bind (fun s h => h) hl
  have hstack : ∀ (f : List (N × Bool) → List (N × Bool)) (s : Sheet N V), Shown P A s → Shown P A { s with getStack := f s.getStack } :=
    fun f s h => h
  refine Pres.ite hl ?_
  refine Pres.modify_bind (fun s h => h) (Pres.ite ?_ ?_)
  · refine Pres.modify_bind (hstack _) (Pres.gets_bind fun size => (calculate_shown (get_shown size) i).bind fun _ => Pres.ite ?_ hm)
    exact Pres.modify_bind (hstack _) hm
  · refine Pres.gets_bind fun size => (calculate_shown (get_shown size) i).bind fun _ => Pres.ite ?_ hm
    exact Pres.modify_bind (hstack _) hm

theorem calcOutputs_shown : ∀ l : List Nat, Pres (N := N) (V := V) (Shown P A) (calcOutputs l)
  | [] => Pres.pure _
  | i :: l => (calcOutput_shown i).bind fun _ => calcOutputs_shown l

theorem poisonLoop_shown : ∀ (l : List Nat) (b : Bits), Pres (N := N) (V := V) (Shown P A) (poisonLoop b l)
  | [], _ => Pres.pure _
  | i :: l, b => by
      unfold poisonLoop
      refine Pres.gets_bind fun c => ?_
      split
      · exact Pres.throw _
      · exact poisonLoop_shown l _
      · exact poisonLoop_shown l _

theorem updateMid_shown (srt : Sorter) (ord : List Nat) : Pres (N := N) (V := V) (Shown P A) (updateMid srt ord) :=
  Pres.modify_bind (fun _ h => h) (Pres.gets_bind fun _ => (conditionals_shown _).bind fun _ => Pres.modify_bind (fun _ h => h)
    ((flow_shown srt).bind fun _ => (calcOutputs_shown ord).bind fun _ => Pres.gets_bind fun _ => (poisonLoop_shown _ 0).bind fun _ => Pres.pure _))
end

/-- `update` is its first part followed by the notifications. -/
theorem update_mid (srt : Sorter) (ord : List Nat) : update (N := N) (V := V) srt ord = (do
    let (pa, poison) ← updateMid srt ord
    let (ev, active) ← notify poison pa ord
    modify fun s => { s with priorityAccessed := pa, active := active }
    pure (ev ++ [.enabled pa active])) := by
  unfold update updateMid
  simp only [bind_assoc']
  rfl

end Verif.Adam
