import Verif.Adam.Bits
/-! The input halves of the interface cells have different names: each is the one its name finds. -/
namespace Verif.Adam
variable {N V : Type} [DecidableEq N] [DecidableEq V] [Values V]

def HalvesOk (s : Sheet N V) : Prop := ∀ k, Half s k → s.inputIndex.find (s.cell k).name = some k

structure HalvesInit (s : Sheet N V) : Prop where
  halves : HalvesOk s
  mode : s.initMode = true

theorem HalvesOk.congr {s s' : Sheet N V} (h : HalvesOk s) (h1 : s'.size = s.size) (h2 : ∀ i, (s'.cell i).spec = (s.cell i).spec)
    (h3 : ∀ i, (s'.cell i).name = (s.cell i).name) (h4 : s'.inputIndex = s.inputIndex) : HalvesOk s' := by
  rintro k ⟨a, b⟩
  rw [h3, h4]
  exact h k ⟨by rw [← h1]; exact a, by rw [← h2]; exact b⟩

theorem HalvesInit.congr {s s' : Sheet N V} (h : HalvesInit s) (h1 : s'.size = s.size) (h2 : ∀ i, (s'.cell i).spec = (s.cell i).spec)
    (h3 : ∀ i, (s'.cell i).name = (s.cell i).name) (h4 : s'.inputIndex = s.inputIndex) (h5 : s'.initMode = s.initMode) : HalvesInit s' :=
  ⟨h.halves.congr h1 h2 h3 h4, by rw [h5]; exact h.mode⟩

theorem modCell_name (s : Sheet N V) (i : Nat) {f : Cell N V → Cell N V} (hf : ∀ c, (f c).name = c.name) (j : Nat) :
    ((s.modCell i f).cell j).name = (s.cell j).name := by
  simp only [Sheet.modCell]
  split
  · exact hf _
  · rfl

theorem HalvesOk.modCell {s : Sheet N V} (h : HalvesOk s) (i : Nat) {f : Cell N V → Cell N V} (h1 : ∀ c, (f c).spec = c.spec)
    (h2 : ∀ c, (f c).name = c.name) : HalvesOk (s.modCell i f) := h.congr rfl (modCell_spec s i h1) (modCell_name s i h2) rfl

/-- A name that is there is still found after an insertion. -/
theorem Index.find_insert {ix : Index N} {m n : N} {i k : Nat} (h : ix.find m = some k) : (ix.insert n i).find m = some k := by
  unfold Index.insert
  split
  · exact h
  · unfold Index.find at h ⊢
    rw [List.lookup_append, h]
    rfl

theorem HalvesOk.insertIn {s : Sheet N V} (h : HalvesOk s) (n : N) (i : Nat) : HalvesOk { s with inputIndex := s.inputIndex.insert n i } :=
  fun k hk => Index.find_insert (h k hk)

theorem HalvesOk.push {s : Sheet N V} (h : HalvesOk s) (c : Cell N V) (hc : c.spec ≠ .interfaceInput) :
    HalvesOk { s with size := s.size + 1, cell := fun j => if j = s.size then c else s.cell j } := by
  rintro k ⟨a, b⟩
  change k < s.size + 1 at a
  change (if k = s.size then c else s.cell k).spec = _ at b
  show s.inputIndex.find (if k = s.size then c else s.cell k).name = _
  split at b
  · exact absurd b hc
  · rename_i hk
    rw [if_neg hk]
    exact h k ⟨by omega, b⟩

theorem pushCell_halves (c : Cell N V) (hc : c.spec ≠ .interfaceInput) : Pres (N := N) HalvesOk (pushCell c) := Pres.modify fun _ h => h.push c hc
theorem pushCell_hinit (c : Cell N V) (hc : c.spec ≠ .interfaceInput) : Pres (N := N) HalvesInit (pushCell c) :=
  Pres.modify fun _ h => ⟨h.halves.push c hc, h.mode⟩
theorem insertName_halves (n : N) : Pres (V := V) HalvesOk (insertName n) :=
  Pres.gets_bind fun _ => Pres.ite (Pres.throw _) (Pres.modify fun s h => h.congr rfl (fun _ => rfl) (fun _ => rfl) rfl)
theorem insertName_hinit (n : N) : Pres (V := V) HalvesInit (insertName n) :=
  Pres.gets_bind fun _ => Pres.ite (Pres.throw _) (Pres.modify fun s h => h.congr rfl (fun _ => rfl) (fun _ => rfl) rfl rfl)

theorem getInit_hinit (n : N) : Pres (V := V) HalvesInit (getInit n) := by
  intro s h
  obtain ⟨r, a, he⟩ := getInit_acc n s
  rw [he]
  exact h.congr rfl (fun _ => rfl) (fun _ => rfl) rfl rfl

theorem get_hinit : ∀ (f : Nat) (n : N), Pres (V := V) HalvesInit (get f n)
  | 0, n => by
      intro s h
      unfold get
      simp only [bind_gets, h.mode]
      exact getInit_hinit n s h
  | f + 1, n => by
      intro s h
      unfold get
      simp only [bind_gets, h.mode]
      exact getInit_hinit n s h

theorem evaluate_hinit (p : Prog N V) : Pres HalvesInit (evaluate p) := Pres.gets_bind fun _ => Prog.run_pres (get_hinit _) p

theorem inInitMode_halves {α : Type} {x : M N V α} (hx : Pres HalvesInit x) : Pres HalvesOk (inInitMode x) := by
  intro s h
  have h1 := hx { s with initMode := true } ⟨h.congr rfl (fun _ => rfl) (fun _ => rfl) rfl, rfl⟩
  unfold inInitMode
  cases hr : x { s with initMode := true } with
  | mk r s' =>
      rw [hr] at h1
      exact h1.halves.congr rfl (fun _ => rfl) (fun _ => rfl) rfl

theorem addInput_halves (n : N) (p : Option (Prog N V)) : Pres HalvesOk (addInput n p) := by
  refine inInitMode_halves ?_
  have hf : ∀ v : V, Pres (N := N) (V := V) HalvesInit (do
      let k ← gets (·.size)
      pushCell (mkCell .input n .none false true true v 0 (Bits.single k) none)
      modify fun s => { s with inputIndex := s.inputIndex.insert n k }
      insertName n) := fun v => Pres.gets_bind fun k => (pushCell_hinit _ (by simp [mkCell])).bind fun _ =>
    Pres.modify_bind (fun s h => ⟨h.halves.insertIn n k, h.mode⟩) (insertName_hinit n)
  cases p with
  | none => exact (Pres.pure _).bind hf
  | some p => exact (evaluate_hinit p).bind hf

theorem addOutput_halves (n : N) (p : Prog N V) : Pres HalvesOk (addOutput n p) :=
  Pres.gets_bind fun k => (pushCell_halves _ (by simp [mkCell])).bind fun _ => Pres.modify_bind (fun s h => h.congr rfl (fun _ => rfl) (fun _ => rfl) rfl)
    ((insertName_halves n).bind fun _ => Pres.modify fun s h => h.congr rfl (fun _ => rfl) (fun _ => rfl) rfl)
theorem addConstantValue_halves (n : N) (v : V) : Pres (N := N) HalvesOk (addConstantValue n v) :=
  (pushCell_halves _ (by simp [mkCell])).bind fun _ => insertName_halves n
theorem addConstant_halves (n : N) (p : Prog N V) : Pres HalvesOk (addConstant n p) :=
  inInitMode_halves ((evaluate_hinit p).bind fun _ => (pushCell_hinit _ (by simp [mkCell])).bind fun _ => insertName_hinit n)
theorem addLogic_halves (n : N) (p : Prog N V) : Pres HalvesOk (addLogic n p) :=
  (pushCell_halves _ (by simp [mkCell])).bind fun _ => insertName_halves n
theorem addInvariant_halves (n : N) (p : Prog N V) : Pres HalvesOk (addInvariant n p) :=
  Pres.gets_bind fun k => (pushCell_halves _ (by simp [mkCell])).bind fun _ => Pres.modify_bind (fun s h => h.congr rfl (fun _ => rfl) (fun _ => rfl) rfl)
    ((insertName_halves n).bind fun _ => Pres.modify fun s h => h.congr rfl (fun _ => rfl) (fun _ => rfl) rfl)

theorem attach_halves (r : Nat) : ∀ l : List N, Pres (V := V) HalvesOk (attach r l)
  | [] => Pres.pure _
  | n :: l => by
      unfold attach
      refine Pres.gets_bind fun s => ?_
      split
      · exact Pres.throw _
      · rename_i i _
        refine Pres.ite (Pres.throw _) (Pres.modify_bind (fun t h => ?_) (attach_halves r l))
        have : HalvesOk (t.modRel r fun rl => { rl with edges := rl.edges ++ [i] }) := h.congr rfl (fun _ => rfl) (fun _ => rfl) rfl
        exact this.modCell i (fun _ => rfl) fun _ => rfl

theorem addRelation_halves (c : Option (Prog N V)) (ts : List (RelTerm N V)) : Pres HalvesOk (addRelation c ts) :=
  Pres.gets_bind fun r => Pres.modify_bind (fun s h => h.congr rfl (fun _ => rfl) (fun _ => rfl) rfl) (attach_halves r _)

/-- A new interface cell. -/
theorem HalvesOk.iface {s s' : Sheet N V} (h : HalvesOk s) (hg : Good s) {n : N} {ci co : Cell N V} (hn : s.nameIndex.find n = none)
    (h1 : s'.size = s.size + 2) (h2 : ∀ j, s'.cell j = if j = s.size + 1 then co else if j = s.size then ci else s.cell j)
    (h3 : s'.inputIndex = s.inputIndex ++ [(n, s.size)]) (hi : ci.name = n) (ho : co.spec ≠ .interfaceInput) : HalvesOk s' := by
  rintro k ⟨a, b⟩
  rw [h1] at a
  rw [h2] at b
  rw [h3, h2]
  have hin := noIn hg hn
  by_cases hk : k = s.size + 1
  · rw [if_pos hk] at b; exact absurd b ho
  · rw [if_neg hk] at b ⊢
    by_cases hk' : k = s.size
    · subst hk'
      rw [if_pos rfl, hi]
      unfold Index.find at hin ⊢
      rw [List.lookup_append, hin]
      simp
    · rw [if_neg hk'] at b ⊢
      have := h k ⟨by omega, b⟩
      unfold Index.find at this ⊢
      rw [List.lookup_append, this]
      rfl

theorem addInterface_halves {s s' : Sheet N V} (h : HalvesOk s) (hg : Good s) {n : N} {linked : Bool} {init expr : Option (Prog N V)}
    (he : addInterface n linked init expr s = (.ok (), s')) : HalvesOk s' := by
  obtain ⟨v, a, b, ph, pr, _, _, g1, hs⟩ := addInterface_form hg he
  subst hs
  exact h.iface hg g1 rfl (fun _ => rfl) rfl rfl (by simp [mkCell])

theorem addInterfaceValue_halves {s s' : Sheet N V} (h : HalvesOk s) (hg : Good s) {n : N} {v : V}
    (he : addInterfaceValue n v s = (.ok (), s')) : HalvesOk s' := by
  unfold addInterfaceValue pushCell at he
  simp only [bind_gets, bind_modify] at he
  obtain ⟨h1, h2⟩ := insertName_ok he
  subst h2
  refine h.iface (ci := { mkCell .interfaceInput n .none true true true v (Bits.single s.size) 0 none with priority := s.priorityHigh + 1 })
    (co := mkCell .interfaceOutput n .self false false false Values.empty 0 0 (some s.size)) hg h1 rfl (fun i => ?_) ?_ rfl (by simp [mkCell])
  · simp only [Sheet.modCell]
    by_cases hi : i = s.size + 1
    · simp [hi]
    · by_cases hi' : i = s.size
      · simp [hi', mkCell]
      · simp [hi, hi']
  · exact insert_new (noIn hg h1) _

theorem HalvesOk.soft {s s' : Sheet N V} (h : HalvesOk s) (hs : Soft s s') : HalvesOk s' :=
  h.congr hs.size (fun i => (hs.cell i).1) (fun i => (hs.cell i).2.1) hs.inputIndex

theorem update_halves (srt : Sorter) (ord : List Nat) {s : Sheet N V} (h : HalvesOk s) : HalvesOk (update srt ord s).2 := by
  have hs := (update_keeps srt ord s).struct
  have h1 := congrArg Sheet.size hs
  have h2 := congrArg Sheet.inputIndex hs
  have h3 := fun i => congrArg Cell.name (struct_cell hs i)
  exact h.congr h1 (struct_spec hs) h3 h2

theorem reinitialize_halves (ord : List Nat) {s s' : Sheet N V} (h : HalvesOk s) (he : reinitialize ord s = (.ok (), s')) : HalvesOk s' := by
  obtain ⟨s1, h1, h2⟩ := inInitMode_ok he
  cases hx : reinitLoop ord { s with initMode := true } with
  | mk r s2 =>
      cases r with
      | error e => rw [bind_err hx] at h1; cases h1
      | ok u =>
          rw [bind_ok hx] at h1
          have h3 := reinitLoop_soft ord _ s2 rfl hx
          have := (Prod.mk.inj h1).2
          subst h2 this
          exact HalvesOk.congr (s := s2) (HalvesOk.soft (s := { s with initMode := true }) (h.congr rfl (fun _ => rfl) (fun _ => rfl) rfl) h3)
            rfl (fun _ => rfl) (fun _ => rfl) rfl

/-- In every sheet the name of an interface cell finds its input half. -/
theorem Reachable.halves {s : Sheet N V} (h : Reachable s) : HalvesOk s := by
  induction h with
  | empty n0 => rintro k ⟨a, _⟩; cases a
  | @addInput s s' n p h he ih => have := addInput_halves n p _ ih; rw [he] at this; exact this
  | @addOutput s s' n p h he ih => have := addOutput_halves n p _ ih; rw [he] at this; exact this
  | @addInterface s s' n l p q h he ih => exact addInterface_halves ih h.good he
  | @addInterfaceValue s s' n v h he ih => exact addInterfaceValue_halves ih h.good he
  | @addConstant s s' n p h he ih => have := addConstant_halves n p _ ih; rw [he] at this; exact this
  | @addConstantValue s s' n v h he ih => have := addConstantValue_halves n v _ ih; rw [he] at this; exact this
  | @addLogic s s' n p h he ih => have := addLogic_halves n p _ ih; rw [he] at this; exact this
  | @addInvariant s s' n p h he ih => have := addInvariant_halves n p _ ih; rw [he] at this; exact this
  | @addRelation s s' c ts h _ he ih => have := addRelation_halves c ts _ ih; rw [he] at this; exact this
  | @set s s' n v h he ih => exact ih.soft (set_soft he)
  | @touch s s' srt ns h he ih =>
      obtain ⟨s2, h1, h2⟩ := touch_soft srt ns s
      rw [he] at h1
      cases h1
      exact ih.soft h2
  | @reinitialize s s' ord h he ih => exact reinitialize_halves ord ih he
  | @update s s' srt ord ev h _ he ih => have := update_halves srt ord ih; rw [he] at this; exact this
  | @failed s s' srt ord e h _ he _ ih => have := update_halves srt ord ih; rw [he] at this; exact this

end Verif.Adam
