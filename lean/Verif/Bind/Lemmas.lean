import Verif.Bind.Spec
import Verif.Adam.Ops
/-! What each callback adds to a sheet. -/
namespace Verif.Bind
open Verif.Adam
open Verif.Decl (codeOf report)
open Verif.Decl.Spec (Decl)

variable {D O V : Type} [DecidableEq V] [Values V]
variable {s s' : Sheet Str V}

structure Step (s s' : Sheet Str V) (cs : List (Sig V)) (rs : List (Option (Prog Str V) × List (RelTerm Str V))) (ns : List Str) : Prop where
  good : Good s'
  sigs : sigs s' = sigs s ++ cs
  rels : rels s' = rels s ++ rs
  names : names s' = names s ++ ns
  fresh : ∀ n ∈ ns, n ∉ Bind.names s

theorem compile_ne (c : Nat → D) (e : Verif.Expr.Spec.Expr D O) : Verif.Expr.compile c e ≠ [] := by
  cases e <;> try simp [Verif.Expr.compile]
  rename_i f es
  cases es <;> simp [Verif.Expr.compile]

theorem opt_some (prog : List (Verif.Expr.Val D O) → Prog Str V) (c : Nat → D) (e : Verif.Expr.Spec.Expr D O) :
    opt prog (Verif.Expr.compile c e) = some (prog (Verif.Expr.compile c e)) := by
  have := compile_ne c e
  cases h : Verif.Expr.compile c e with
  | nil => exact absurd h this
  | cons a l => rfl

theorem opt_code (prog : List (Verif.Expr.Val D O) → Prog Str V) (c : Nat → D) (e : Option (Verif.Expr.Spec.Expr D O)) :
    opt prog (codeOf c e) = e.map fun e => prog (Verif.Expr.compile c e) := by
  cases e with
  | none => rfl
  | some e => exact opt_some prog c e

theorem find_none {N : Type} [DecidableEq N] {ix : Index N} {n : N} (h : ix.find n = none) : n ∉ ix.map (·.1) := by
  induction ix with
  | nil => simp
  | cons x ix ih =>
      obtain ⟨m, i⟩ := x
      unfold Index.find at h ih
      rw [List.lookup_cons] at h
      by_cases hm : n = m
      · simp [hm] at h
      · have hb : (n == m) = false := by simpa using hm
        rw [hb] at h
        simp only [List.map_cons, List.mem_cons, not_or]
        exact ⟨hm, ih h⟩

theorem sigs_push {k : Cell Str V} (h1 : s'.size = s.size + 1) (h2 : ∀ i, s'.cell i = if i = s.size then k else s.cell i) :
    sigs s' = sigs s ++ [(k.spec, k.name, k.calculator, k.linked)] := by
  unfold sigs
  rw [h1, List.range_succ, List.map_append]
  congr 1
  · apply List.map_congr_left
    intro i hi
    have : i ≠ s.size := by have := List.mem_range.mp hi; omega
    simp [h2, this]
  · simp [h2]

theorem sigs_push2 {k l : Cell Str V} (h1 : s'.size = s.size + 2)
    (h2 : ∀ i, s'.cell i = if i = s.size + 1 then l else if i = s.size then k else s.cell i) :
    sigs s' = sigs s ++ [(k.spec, k.name, k.calculator, k.linked), (l.spec, l.name, l.calculator, l.linked)] := by
  unfold sigs
  rw [h1, List.range_succ, List.range_succ, List.map_append, List.map_append, List.append_assoc]
  congr 1
  · apply List.map_congr_left
    intro i hi
    have h : i ≠ s.size ∧ i ≠ s.size + 1 := by have := List.mem_range.mp hi; omega
    simp [h2, h.1, h.2]
  · simp [h2]

theorem rels_same (h1 : s'.nrel = s.nrel) (h2 : s'.rel = s.rel) : rels s' = rels s ++ [] := by
  unfold rels; rw [h1, h2, List.append_nil]

theorem Step.named {k : Cell Str V} {n : Str} {j : Nat} (hg : Good s') (h1 : s'.size = s.size + 1) (h2 : ∀ i, s'.cell i = if i = s.size then k else s.cell i)
    (h3 : s'.nrel = s.nrel) (h4 : s'.rel = s.rel) (h5 : s'.nameIndex = s.nameIndex ++ [(n, j)]) (h6 : s.nameIndex.find n = none) :
    Step s s' [(k.spec, k.name, k.calculator, k.linked)] [] [n] := by
  refine ⟨hg, sigs_push h1 h2, rels_same h3 h4, ?_, ?_⟩
  · unfold Bind.names; rw [h5]; simp
  · intro m hm
    simp only [List.mem_singleton] at hm
    subst hm
    exact find_none h6

theorem output_step (hg : Good s) {n : Str} {p : Prog Str V} (h : addOutput n p s = (.ok (), s')) :
    Step s s' [(.output, n, .expr p, false)] [] [n] := by
  have g := addOutput_good hg h
  unfold addOutput pushCell at h
  simp only [bind_gets, bind_modify] at h
  rw [bind_run] at h
  split at h
  · rename_i hx
    obtain ⟨h1, h2⟩ := insertName_ok hx
    have := (Prod.mk.inj h).2
    subst this h2
    exact Step.named (k := mkCell .output n (.expr p) false false false Values.empty 0 0 none) g rfl (fun i => rfl) rfl rfl rfl h1
  · cases h

theorem invariant_step (hg : Good s) {n : Str} {p : Prog Str V} (h : addInvariant n p s = (.ok (), s')) :
    Step s s' [(.invariant, n, .expr p, false)] [] [n] := by
  have g := addInvariant_good hg h
  unfold addInvariant pushCell at h
  simp only [bind_gets, bind_modify] at h
  rw [bind_run] at h
  split at h
  · rename_i hx
    obtain ⟨h1, h2⟩ := insertName_ok hx
    have := (Prod.mk.inj h).2
    subst this h2
    exact Step.named (k := mkCell .invariant n (.expr p) false false false Values.empty 0 0 none) g rfl (fun i => rfl) rfl rfl rfl h1
  · cases h

theorem logic_step (hg : Good s) {n : Str} {p : Prog Str V} (h : addLogic n p s = (.ok (), s')) :
    Step s s' [(.logic, n, .expr p, false)] [] [n] := by
  have g := addLogic_good hg h
  unfold addLogic pushCell at h
  simp only [bind_modify] at h
  obtain ⟨h1, h2⟩ := insertName_ok h
  subst h2
  exact Step.named (k := mkCell .logic n (.expr p) false false false Values.empty 0 0 none) g rfl (fun i => rfl) rfl rfl rfl h1

theorem constant_step (hg : Good s) {n : Str} {p : Prog Str V} (h : addConstant n p s = (.ok (), s')) :
    Step s s' [(.constant, n, .none, false)] [] [n] := by
  have g := addConstant_good hg h
  obtain ⟨s1, h1, h2⟩ := inInitMode_ok h
  obtain ⟨r, a, hr⟩ := evaluate_init p (s := { s with initMode := true }) rfl
  cases r with
  | error e => rw [bind_err hr] at h1; cases h1
  | ok v =>
      rw [bind_ok hr] at h1
      unfold addConstantValue pushCell at h1
      simp only [bind_modify] at h1
      obtain ⟨g1, g2⟩ := insertName_ok h1
      subst g2 h2
      exact Step.named (k := mkCell .constant n .none false true true v 0 0 none) g rfl (fun i => rfl) rfl rfl rfl g1

theorem input_step (hg : Good s) {n : Str} {init : Option (Prog Str V)} (h : addInput n init s = (.ok (), s')) :
    Step s s' [(.input, n, .none, false)] [] [n] := by
  have g := addInput_good hg h
  obtain ⟨s1, h1, h2⟩ := inInitMode_ok h
  obtain ⟨v, a, hv⟩ : ∃ v a, (do
      let k ← gets (·.size)
      pushCell (mkCell .input n .none false true true v 0 (Bits.single k) none)
      modify fun s => { s with inputIndex := s.inputIndex.insert n k }
      insertName n : M Str V Unit) { s with initMode := true, accumulate := a } = (.ok (), s1) := by
    cases init with
    | none => exact ⟨Values.empty, s.accumulate, h1⟩
    | some p =>
        obtain ⟨r, a, hr⟩ := evaluate_init p (s := { s with initMode := true }) rfl
        dsimp only at h1
        cases r with
        | error e => rw [bind_err hr] at h1; cases h1
        | ok v => rw [bind_ok hr] at h1; exact ⟨v, a, h1⟩
  unfold pushCell at hv
  simp only [bind_gets, bind_modify] at hv
  obtain ⟨g1, g2⟩ := insertName_ok hv
  subst g2 h2
  exact Step.named (k := mkCell .input n .none false true true v 0 (Bits.single s.size) none) g rfl (fun i => rfl) rfl rfl rfl g1

theorem interface_step (hg : Good s) {n : Str} {linked : Bool} {init expr : Option (Prog Str V)}
    (h : addInterface n linked init expr s = (.ok (), s')) :
    Step s s' [(.interfaceInput, n, Calc.ofInit init, linked), (.interfaceOutput, n, Calc.ofExpr expr, false)] [] [n] := by
  have g := addInterface_good hg h
  obtain ⟨v, a, b, ph, pr, -, -, g1, hs⟩ := addInterface_form hg h
  subst hs
  refine ⟨g, ?_, rels_same rfl rfl, ?_, ?_⟩
  · exact sigs_push2 (k := { mkCell .interfaceInput n (Calc.ofInit init) linked true true Values.empty (Bits.single s.size) 0 none with
      state := v, priority := pr, initContributing := b })
      (l := mkCell .interfaceOutput n (Calc.ofExpr expr) false false false Values.empty 0 0 (some s.size)) rfl (fun i => rfl)
  · simp [Bind.names]
  · intro m hm
    simp only [List.mem_singleton] at hm
    subst hm
    exact find_none g1

theorem attach_keeps (r : Nat) : ∀ (l : List Str) (s s' : Sheet Str V), attach r l s = (.ok (), s') →
    sigs s' = sigs s ∧ rels s' = rels s ∧ names s' = names s
  | [], s, s', h => by
      have := (Prod.mk.inj h).2
      subst this
      exact ⟨rfl, rfl, rfl⟩
  | n :: l, s, s', h => by
      unfold attach at h
      simp only [bind_gets, id] at h
      cases hf : s.outputIndex.find n with
      | none => rw [hf] at h; cases h
      | some i =>
        rw [hf] at h
        simp only [ite_run] at h
        split at h
        · cases h
        · simp only [bind_modify] at h
          obtain ⟨h1, h2, h3⟩ := attach_keeps r l _ s' h
          refine ⟨h1.trans ?_, h2.trans ?_, h3⟩
          · unfold sigs
            apply List.map_congr_left
            intro i _
            simp only [Sheet.modCell, Sheet.modRel]
            split <;> rfl
          · unfold rels
            apply List.map_congr_left
            intro i _
            simp only [Sheet.modCell, Sheet.modRel]
            split <;> simp_all

theorem relation_step (hg : Good s) {cond : Option (Prog Str V)} {terms : List (RelTerm Str V)} (h : addRelation cond terms s = (.ok (), s')) :
    Step s s' [] [(cond, terms)] [] := by
  have g := (addRelation_good hg h).1
  unfold addRelation at h
  simp only [bind_gets, bind_modify] at h
  obtain ⟨h1, h2, h3⟩ := attach_keeps _ _ _ _ h
  refine ⟨g, h1.trans ?_, h2.trans ?_, h3.trans ?_, by simp⟩
  · simp [sigs]
  · unfold rels
    dsimp only
    rw [List.range_succ, List.map_append]
    congr 1
    · apply List.map_congr_left
      intro i hi
      have : i ≠ s.nrel := by have := List.mem_range.mp hi; omega
      simp [this]
    · simp
  · simp [names]

/-- Each callback adds what the declaration asks for. -/
theorem callback_step (prog : List (Verif.Expr.Val D O) → Prog Str V) (ext : Bool) (c : Nat → D) (d : Decl D O) (hg : Good s)
    (h : callback prog ext (report c d) s = (.ok (), s')) :
    Step s s' (cellsOf (fun e => prog (Verif.Expr.compile c e)) d) (relsOf (fun e => prog (Verif.Expr.compile c e)) d) (nameOf d) := by
  cases d with
  | interface n linked init define brief detailed =>
      simp only [report, callback, opt_code] at h
      have := interface_step hg h
      cases init <;> cases define <;> exact this
  | input n init brief detailed => exact input_step hg h
  | constant n e brief detailed => exact constant_step hg h
  | output n e brief detailed => exact output_step hg h
  | logic n e brief detailed => exact logic_step hg h
  | invariant n e brief detailed => exact invariant_step hg h
  | external n brief detailed =>
      simp only [report, callback] at h
      cases ext with
      | false => cases h
      | true =>
          have := (Prod.mk.inj h).2
          subst this
          exact ⟨hg, by simp [cellsOf], by simp [relsOf], by simp [nameOf], by simp [nameOf]⟩
  | relate cond rs brief detailed =>
      simp only [report, callback] at h
      cases rs with
      | nil => cases h
      | cons r rs =>
          simp only [addRel, List.map_cons, opt_code] at h
          have := relation_step hg h
          simpa [relsOf, cellsOf, nameOf, Verif.Decl.relOf, Function.comp_def] using this

theorem build_step (prog : List (Verif.Expr.Val D O) → Prog Str V) (ext : Bool) (c : Nat → D) : ∀ (ds : List (Decl D O)) (s s' : Sheet Str V), Good s →
    build prog ext (ds.map (report c)) s = (.ok (), s') →
    Good s' ∧ sigs s' = sigs s ++ ds.flatMap (cellsOf fun e => prog (Verif.Expr.compile c e)) ∧
      rels s' = rels s ++ ds.flatMap (relsOf fun e => prog (Verif.Expr.compile c e)) ∧
      names s' = names s ++ ds.flatMap nameOf ∧ ((names s).Nodup → (names s').Nodup)
  | [], s, s', hg, h => by
      have := (Prod.mk.inj h).2
      subst this
      simp [hg]
  | d :: ds, s, s', hg, h => by
      simp only [List.map_cons, build] at h
      rw [bind_run] at h
      split at h
      · rename_i s1 hx
        have st := callback_step prog ext c d hg hx
        obtain ⟨h1, h2, h3, h4, h5⟩ := build_step prog ext c ds _ s' st.good h
        refine ⟨h1, ?_, ?_, ?_, ?_⟩
        · rw [h2, st.sigs]; simp
        · rw [h3, st.rels]; simp
        · rw [h4, st.names]; simp
        · intro hn
          apply h5
          rw [st.names, List.nodup_append]
          refine ⟨hn, ?_, ?_⟩
          · cases d <;> simp [nameOf]
          · rintro a ha b hb rfl
            exact st.fresh a hb ha
      · cases h

end Verif.Bind
