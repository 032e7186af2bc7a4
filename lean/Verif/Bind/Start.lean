import Verif.Bind.Lemmas
import Verif.Adam.Init
/-! The values cells start with. -/
namespace Verif.Bind
open Verif.Adam
open Verif.Decl (codeOf report)
open Verif.Decl.Spec (Decl)

variable {D O V : Type} [DecidableEq V] [Values V]
variable {s s' : Sheet Str V}

theorem in_lt (hg : Good s) {n : Str} {j : Nat} (h : s.inputIndex.find n = some j) : j < s.size := by
  obtain ⟨i, hi, h⟩ := (hg.fit.inp n j).mp h
  rcases h with ⟨_, rfl⟩ | h
  · exact (hg.fit.wf.name n _ hi).1
  · by_cases hs : (s.cell i).spec = .interfaceOutput
    · obtain ⟨j', h1, h2, _⟩ := hg.fit.wf.iface n i hi hs
      rw [h] at h1
      cases h1
      exact h2
    · rw [hg.fit.wf.noInput i hs] at h; cases h

theorem startValue_env (s : Sheet Str V) (n : Str) : startValue s n = (initEnv s n).map (·.1) := by
  unfold startValue initEnv
  cases s.inputIndex.find n with
  | some i => rfl
  | none =>
      dsimp only
      cases s.nameIndex.find n with
      | none => rfl
      | some i => dsimp only; split <;> rfl

theorem initValue_value (s : Sheet Str V) (p : Prog Str V) : (initValue s p).map (·.1) = value (startValue s) p := by
  unfold initValue
  induction p with
  | ret v => rfl
  | fail => rfl
  | ask n k ih =>
      unfold Prog.eval value
      rw [if_neg (by simp), startValue_env]
      cases initEnv s n with
      | none => rfl
      | some w =>
          simp only [Option.bind_some, Option.map_some]
          rw [← ih w.1]
          cases Prog.eval none (initEnv s) none none (k w.1) <;> simp

theorem evaluate_value {p : Prog Str V} (hm : s.initMode = true) {v : V} {s1 : Sheet Str V} (h : evaluate p s = (.ok v, s1)) :
    value (startValue s) p = some v := by
  have h2 := run_exact (f := s.size) p s hm
  have hr : evaluate p s = p.run (get s.size) s := by
    unfold evaluate; simp only [bind_gets]
  rw [← hr, h] at h2
  rw [← initValue_value]
  cases hv : initValue s p with
  | none => rw [hv] at h2; obtain ⟨e, s', h2⟩ := h2; cases h2
  | some w =>
      rw [hv] at h2
      simp only [Prod.mk.injEq, Except.ok.injEq] at h2
      rw [h2.1]
      rfl

theorem value_congr {f g : Str → Option V} (h : ∀ n, f n = g n) (p : Prog Str V) : value f p = value g p := by
  rw [funext h]

theorem startValue_fresh (hg : Good s) {n : Str} (h : s.nameIndex.find n = none) : startValue s n = none := by
  unfold startValue
  rw [noIn hg h]
  dsimp only
  rw [h]

theorem lookup_append (env : List (Str × V)) (n m : Str) (v : V) (h : List.lookup n env = none) :
    List.lookup m (env ++ [(n, v)]) = if m = n then some v else List.lookup m env := by
  rw [List.lookup_append]
  by_cases hm : m = n
  · subst hm; simp [h]
  · have : (m == n) = false := by simpa using hm
    simp [List.lookup_cons, this, hm]

/-- A new cell which has a value in initializers, or none. -/
theorem startValue_named (hg : Good s) {n : Str} {k : Cell Str V} (hnew : s.nameIndex.find n = none)
    (hcell : ∀ i, s'.cell i = if i = s.size then k else s.cell i) (hname : s'.nameIndex = s.nameIndex ++ [(n, s.size)])
    (hin : s'.inputIndex = if k.spec = .input then s.inputIndex ++ [(n, s.size)] else s.inputIndex) (m : Str) :
    startValue s' m = if m = n then (if k.spec = .input ∨ k.spec = .constant then some k.state else none) else startValue s m := by
  unfold startValue
  have hni := noIn hg hnew
  by_cases hm : m = n
  · subst hm
    by_cases hs : k.spec = .input
    · rw [hin, if_pos hs, find_append, hni]
      simp [hcell, hs]
    · rw [hin, if_neg hs, hni]
      dsimp only
      rw [hname, find_append, hnew]
      simp [hcell, hs]
  · have h1 : s'.inputIndex.find m = s.inputIndex.find m := by
      rw [hin]
      split
      · rw [find_append]; cases s.inputIndex.find m <;> simp [hm]
      · rfl
    have h2 : s'.nameIndex.find m = s.nameIndex.find m := by
      rw [hname, find_append]; cases s.nameIndex.find m <;> simp [hm]
    rw [h1, h2, if_neg hm]
    cases hf : s.inputIndex.find m with
    | some i =>
        have := in_lt hg hf
        have hne : i ≠ s.size := by omega
        simp [hcell, hne]
    | none =>
        dsimp only
        cases hf2 : s.nameIndex.find m with
        | none => rfl
        | some i =>
            have := (hg.fit.wf.name m i hf2).1
            have hne : i ≠ s.size := by omega
            simp [hcell, hne]

/-- The sheet and the list of values agree. -/
def Agree (s : Sheet Str V) (env : List (Str × V)) : Prop := ∀ m, startValue s m = List.lookup m env

theorem Agree.fresh {env : List (Str × V)} (ha : Agree s env) (hg : Good s) {n : Str} (h : s.nameIndex.find n = none) : List.lookup n env = none := by
  rw [← ha n, startValue_fresh hg h]

theorem Agree.value {env : List (Str × V)} (ha : Agree s env) (p : Prog Str V) : value (startValue s) p = value (fun m => List.lookup m env) p :=
  value_congr ha p

/-- A cell without a value in initializers. -/
theorem Agree.silent {env : List (Str × V)} (ha : Agree s env) (hg : Good s) {n : Str} {k : Cell Str V} (hnew : s.nameIndex.find n = none)
    (hcell : ∀ i, s'.cell i = if i = s.size then k else s.cell i) (hname : s'.nameIndex = s.nameIndex ++ [(n, s.size)])
    (hin : s'.inputIndex = s.inputIndex) (h1 : k.spec ≠ .input) (h2 : k.spec ≠ .constant) : Agree s' env := by
  intro m
  rw [startValue_named hg hnew hcell hname (by rw [if_neg h1]; exact hin) m]
  split
  · rename_i hm
    subst hm
    simp [h1, h2, ha.fresh hg hnew]
  · exact ha m

theorem Agree.add {env : List (Str × V)} (ha : Agree s env) (hg : Good s) {n : Str} {k : Cell Str V} (hnew : s.nameIndex.find n = none)
    (hcell : ∀ i, s'.cell i = if i = s.size then k else s.cell i) (hname : s'.nameIndex = s.nameIndex ++ [(n, s.size)])
    (hin : s'.inputIndex = if k.spec = .input then s.inputIndex ++ [(n, s.size)] else s.inputIndex) (h1 : k.spec = .input ∨ k.spec = .constant) :
    Agree s' (env ++ [(n, k.state)]) := by
  intro m
  rw [startValue_named hg hnew hcell hname hin m, lookup_append _ _ _ _ (ha.fresh hg hnew), if_pos h1, ha m]

theorem output_agree {env : List (Str × V)} (ha : Agree s env) (hg : Good s) {n : Str} {p : Prog Str V} (h : addOutput n p s = (.ok (), s')) : Agree s' env := by
  unfold addOutput pushCell at h
  simp only [bind_gets, bind_modify] at h
  rw [bind_run] at h
  split at h
  · rename_i hx
    obtain ⟨h1, h2⟩ := insertName_ok hx
    have := (Prod.mk.inj h).2
    subst this h2
    exact ha.silent hg (k := mkCell .output n (.expr p) false false false Values.empty 0 0 none) h1 (fun i => rfl) rfl rfl (by simp [mkCell]) (by simp [mkCell])
  · cases h

theorem invariant_agree {env : List (Str × V)} (ha : Agree s env) (hg : Good s) {n : Str} {p : Prog Str V} (h : addInvariant n p s = (.ok (), s')) :
    Agree s' env := by
  unfold addInvariant pushCell at h
  simp only [bind_gets, bind_modify] at h
  rw [bind_run] at h
  split at h
  · rename_i hx
    obtain ⟨h1, h2⟩ := insertName_ok hx
    have := (Prod.mk.inj h).2
    subst this h2
    exact ha.silent hg (k := mkCell .invariant n (.expr p) false false false Values.empty 0 0 none) h1 (fun i => rfl) rfl rfl (by simp [mkCell]) (by simp [mkCell])
  · cases h

theorem logic_agree {env : List (Str × V)} (ha : Agree s env) (hg : Good s) {n : Str} {p : Prog Str V} (h : addLogic n p s = (.ok (), s')) : Agree s' env := by
  unfold addLogic pushCell at h
  simp only [bind_modify] at h
  obtain ⟨h1, h2⟩ := insertName_ok h
  subst h2
  exact ha.silent hg (k := mkCell .logic n (.expr p) false false false Values.empty 0 0 none) h1 (fun i => rfl) rfl rfl (by simp [mkCell]) (by simp [mkCell])

theorem constant_agree {env : List (Str × V)} (ha : Agree s env) (hg : Good s) {n : Str} {p : Prog Str V} (h : addConstant n p s = (.ok (), s')) :
    ∃ v, value (fun m => List.lookup m env) p = some v ∧ Agree s' (env ++ [(n, v)]) := by
  obtain ⟨s1, h1, h2⟩ := inInitMode_ok h
  obtain ⟨r, a, hr⟩ := evaluate_init p (s := { s with initMode := true }) rfl
  cases r with
  | error e => rw [bind_err hr] at h1; cases h1
  | ok v =>
      have hv := evaluate_value (s := { s with initMode := true }) rfl hr
      rw [bind_ok hr] at h1
      unfold addConstantValue pushCell at h1
      simp only [bind_modify] at h1
      obtain ⟨g1, g2⟩ := insertName_ok h1
      subst g2 h2
      refine ⟨v, (ha.value p).symm.trans hv, ?_⟩
      exact ha.add hg (k := mkCell .constant n .none false true true v 0 0 none) g1 (fun i => rfl) rfl rfl (Or.inr rfl)

theorem input_agree {env : List (Str × V)} (ha : Agree s env) (hg : Good s) {n : Str} {init : Option (Prog Str V)} (h : addInput n init s = (.ok (), s')) :
    ∃ v, (match init with | none => some Values.empty | some p => value (fun m => List.lookup m env) p) = some v ∧ Agree s' (env ++ [(n, v)]) := by
  obtain ⟨s1, h1, h2⟩ := inInitMode_ok h
  obtain ⟨v, a, he, hv⟩ : ∃ v a, (match init with | none => some Values.empty | some p => value (fun m => List.lookup m env) p) = some v ∧ (do
      let k ← gets (·.size)
      pushCell (mkCell .input n .none false true true v 0 (Bits.single k) none)
      modify fun s => { s with inputIndex := s.inputIndex.insert n k }
      insertName n : M Str V Unit) { s with initMode := true, accumulate := a } = (.ok (), s1) := by
    cases init with
    | none => exact ⟨Values.empty, s.accumulate, rfl, h1⟩
    | some p =>
        obtain ⟨r, a, hr⟩ := evaluate_init p (s := { s with initMode := true }) rfl
        dsimp only at h1
        cases r with
        | error e => rw [bind_err hr] at h1; cases h1
        | ok v =>
            have hv := evaluate_value (s := { s with initMode := true }) rfl hr
            rw [bind_ok hr] at h1; exact ⟨v, a, (ha.value p).symm.trans hv, h1⟩
  unfold pushCell at hv
  simp only [bind_gets, bind_modify] at hv
  obtain ⟨g1, g2⟩ := insertName_ok hv
  subst g2 h2
  refine ⟨v, he, ?_⟩
  refine ha.add hg (k := mkCell .input n .none false true true v 0 (Bits.single s.size) none) g1 (fun i => rfl) rfl ?_ (Or.inl rfl)
  exact insert_new (noIn hg g1) _

/-- The sheet while the initializer of an interface cell is evaluated. -/
theorem startValue_half (hg : Good s) {n : Str} {ci : Cell Str V} (hnew : s.nameIndex.find n = none)
    (hcell : ∀ i, i < s.size → s'.cell i = s.cell i) (hci : s'.cell s.size = ci)
    (hname' : ∀ m, m ≠ n → s'.nameIndex.find m = s.nameIndex.find m)
    (hin : s'.inputIndex = s.inputIndex ++ [(n, s.size)]) (m : Str) :
    startValue s' m = if m = n then some ci.state else startValue s m := by
  have hni := noIn hg hnew
  unfold startValue
  rw [hin, find_append]
  by_cases hm : m = n
  · subst hm
    rw [hni]
    simp [hci]
  · rw [if_neg hm, hname' m hm]
    cases hf : s.inputIndex.find m with
    | some i => simp [hcell i (in_lt hg hf), hm]
    | none =>
        simp only [hm, if_false]
        cases hf2 : s.nameIndex.find m with
        | none => rfl
        | some i => simp [hcell i (hg.fit.wf.name m i hf2).1]

theorem interface_agree {env : List (Str × V)} (ha : Agree s env) (hg : Good s) {n : Str} {linked : Bool} {init expr : Option (Prog Str V)}
    (h : addInterface n linked init expr s = (.ok (), s')) :
    ∃ v, (match init with | none => some Values.empty | some p => value (fun m => List.lookup m (env ++ [(n, Values.empty)])) p) = some v ∧
      Agree s' (env ++ [(n, v)]) := by
  obtain ⟨v, a, b, ph, pr, -, -, g1, hs⟩ := addInterface_form hg h
  have hag : Agree s' (env ++ [(n, v)]) := by
    intro m
    rw [lookup_append _ _ _ _ (ha.fresh hg g1), ← ha m]
    subst hs
    exact startValue_half (s := s) hg (ci := { mkCell .interfaceInput n (Calc.ofInit init) linked true true Values.empty (Bits.single s.size) 0 none with
      state := v, priority := pr, initContributing := b }) g1
      (by intro i hi; have h1 : i ≠ s.size := by omega
          have h2 : i ≠ s.size + 1 := by omega
          simp [h1, h2])
      (by simp)
      (by intro m hm; dsimp only; rw [find_append]; cases s.nameIndex.find m <;> simp [hm]) rfl m
  refine ⟨v, ?_, hag⟩
  have hsv : startValue s' n = some v := by rw [hag n, lookup_append _ _ _ _ (ha.fresh hg g1), if_pos rfl]
  have hstate : (s'.cell s.size).state = v := by
    subst hs; simp
  -- what the initializer gave
  obtain ⟨s1, h1, h2⟩ := inInitMode_ok h
  unfold pushCell at h1
  simp only [bind_gets, bind_modify] at h1
  cases init with
  | none =>
      simp only [Option.isSome_none, Bool.false_eq_true, if_false, bind_modify] at h1
      obtain ⟨-, k2⟩ := insertName_ok h1
      subst k2
      rw [h2] at hstate
      simp [mkCell] at hstate
      simp [hstate]
  | some p =>
      simp only [Option.isSome_some, if_true] at h1
      generalize hci : mkCell .interfaceInput n (Calc.ofInit (some p)) linked true true Values.empty (Bits.single s.size) 0 none = ci at h1
      cases hi : initializeOne s.size { s with initMode := true, size := s.size + 1, inputIndex := s.inputIndex.insert n s.size,
                                                cell := fun j => if j = s.size then ci else s.cell j } with
      | mk r s2 =>
          cases r with
          | error e => rw [bind_err hi] at h1; cases h1
          | ok u =>
              rw [bind_ok hi] at h1
              obtain ⟨w, hw, hst⟩ := initializeOne_exact (p := p) rfl (by simp [← hci, mkCell, Calc.ofInit]) hi
              simp only [bind_modify] at h1
              obtain ⟨-, k2⟩ := insertName_ok h1
              obtain ⟨v', a', b', hs2⟩ := initializeOne_ok rfl hi
              have hsz : s2.size = s.size + 1 := by rw [hs2]; rfl
              have hvw : v = w.1 := by
                rw [← hst, ← hstate, h2, k2]
                simp [hsz]
              have := initValue_value { s with initMode := true, size := s.size + 1, inputIndex := s.inputIndex.insert n s.size,
                                                cell := fun j => if j = s.size then ci else s.cell j } p
              rw [hw] at this
              dsimp only
              rw [hvw]
              refine Eq.trans (value_congr ?_ p) this.symm
              intro m
              rw [lookup_append _ _ _ _ (ha.fresh hg g1), ← ha m]
              symm
              have hce : ci.state = Values.empty := by rw [← hci]; rfl
              rw [← hce]
              refine startValue_half (s := s) hg g1 ?_ ?_ ?_ ?_ m
              · intro i hi
                have h1 : i ≠ s.size := by omega
                simp [h1]
              · simp
              · intro _ _; rfl
              · exact insert_new (noIn hg g1) _

theorem attach_start (r : Nat) : ∀ (l : List Str) (s s' : Sheet Str V), attach r l s = (.ok (), s') → startValue s' = startValue s
  | [], s, s', h => by
      have := (Prod.mk.inj h).2
      subst this
      rfl
  | n :: l, s, s', h => by
      unfold attach at h
      simp only [bind_gets, id] at h
      cases hf : s.outputIndex.find n with
      | none => rw [hf] at h; cases h
      | some i =>
        rw [hf] at h
        simp only [ite_run] at h
        split at h
        · cases h
        · simp only [bind_modify] at h
          refine (attach_start r l _ s' h).trans ?_
          have hc : ∀ j, (((s.modRel r fun rl => { rl with edges := rl.edges ++ [i] }).modCell i fun c =>
              { c with relations := c.relations ++ [r], initialCount := c.initialCount + 1 }).cell j).state = (s.cell j).state ∧
              (((s.modRel r fun rl => { rl with edges := rl.edges ++ [i] }).modCell i fun c =>
              { c with relations := c.relations ++ [r], initialCount := c.initialCount + 1 }).cell j).spec = (s.cell j).spec := by
            intro j
            simp only [Sheet.modCell, Sheet.modRel]
            split <;> exact ⟨rfl, rfl⟩
          funext m
          unfold startValue
          simp only [hc]
          rfl

theorem relation_agree {env : List (Str × V)} (ha : Agree s env) {cond : Option (Prog Str V)} {terms : List (RelTerm Str V)}
    (h : addRelation cond terms s = (.ok (), s')) : Agree s' env := by
  unfold addRelation at h
  simp only [bind_gets, bind_modify] at h
  intro m
  rw [attach_start _ _ _ _ h]
  exact ha m

theorem callback_agree (prog : List (Verif.Expr.Val D O) → Prog Str V) (ext : Bool) (c : Nat → D) (d : Decl D O) (hg : Good s) {env : List (Str × V)}
    (ha : Agree s env) (h : callback prog ext (report c d) s = (.ok (), s')) :
    ∃ env', (∀ ds, start (fun e => prog (Verif.Expr.compile c e)) (d :: ds) env = start (fun e => prog (Verif.Expr.compile c e)) ds env') ∧ Agree s' env' := by
  cases d with
  | interface n linked init define brief detailed =>
      simp only [report, callback, opt_code] at h
      obtain ⟨v, h1, h2⟩ := interface_agree ha hg h
      refine ⟨_, ?_, h2⟩
      intro ds
      cases init with
      | none => simp only [Option.map_none, Option.some.injEq] at h1; simp only [start, h1]
      | some e => simp only [Option.map_some] at h1; simp only [start, h1, Option.bind_some]
  | input n init brief detailed =>
      simp only [report, callback, addCell, opt_code] at h
      obtain ⟨v, h1, h2⟩ := input_agree ha hg h
      refine ⟨_, ?_, h2⟩
      intro ds
      cases init with
      | none => simp only [Option.map_none, Option.some.injEq] at h1; simp only [start, h1]
      | some e => simp only [Option.map_some] at h1; simp only [start, h1, Option.bind_some]
  | constant n e brief detailed =>
      obtain ⟨v, h1, h2⟩ := constant_agree ha hg h
      refine ⟨_, ?_, h2⟩
      intro ds
      simp only [start, h1, Option.bind_some]
  | output n e brief detailed => exact ⟨env, fun _ => rfl, output_agree ha hg h⟩
  | logic n e brief detailed => exact ⟨env, fun _ => rfl, logic_agree ha hg h⟩
  | invariant n e brief detailed => exact ⟨env, fun _ => rfl, invariant_agree ha hg h⟩
  | external n brief detailed =>
      simp only [report, callback] at h
      cases ext with
      | false => cases h
      | true =>
          have := (Prod.mk.inj h).2
          subst this
          exact ⟨env, fun _ => rfl, ha⟩
  | relate cond rs brief detailed =>
      simp only [report, callback] at h
      cases rs with
      | nil => cases h
      | cons r rs => exact ⟨env, fun _ => rfl, relation_agree ha h⟩

theorem build_agree (prog : List (Verif.Expr.Val D O) → Prog Str V) (ext : Bool) (c : Nat → D) : ∀ (ds : List (Decl D O)) (s s' : Sheet Str V)
    (env : List (Str × V)), Good s → Agree s env → build prog ext (ds.map (report c)) s = (.ok (), s') →
    ∃ env', start (fun e => prog (Verif.Expr.compile c e)) ds env = some env' ∧ Agree s' env'
  | [], s, s', env, _, ha, h => by
      have := (Prod.mk.inj h).2
      subst this
      exact ⟨env, rfl, ha⟩
  | d :: ds, s, s', env, hg, ha, h => by
      simp only [List.map_cons, build] at h
      rw [bind_run] at h
      split at h
      · rename_i s1 hx
        have st := callback_step prog ext c d hg hx
        obtain ⟨env1, h1, ha1⟩ := callback_agree prog ext c d hg ha hx
        obtain ⟨env2, h2, ha2⟩ := build_agree prog ext c ds _ s' env1 st.good ha1 h
        exact ⟨env2, (h1 ds).trans h2, ha2⟩
      · cases h

end Verif.Bind
