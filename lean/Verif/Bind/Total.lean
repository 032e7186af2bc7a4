import Verif.Bind.Start
import Verif.Adam.Main
/-! When a callback succeeds. -/
namespace Verif.Bind
open Verif.Adam
open Verif.Decl (codeOf report)
open Verif.Decl.Spec (Decl)

variable {D O V : Type} [DecidableEq V] [Values V]
variable {s s' : Sheet Str V}

theorem none_find {N : Type} [DecidableEq N] {ix : Index N} {n : N} (h : n ∉ ix.map (·.1)) : ix.find n = none := by
  induction ix with
  | nil => rfl
  | cons x ix ih =>
      obtain ⟨m, i⟩ := x
      simp only [List.map_cons, List.mem_cons, not_or] at h
      unfold Index.find
      rw [List.lookup_cons]
      have hb : (n == m) = false := by simpa using h.1
      rw [hb]
      exact ih h.2

theorem insertName_total {n : Str} (h : s.nameIndex.find n = none) : ∃ s', insertName n s = (.ok (), s') := by
  unfold insertName
  simp only [bind_gets, id, h]
  exact ⟨_, rfl⟩

theorem evaluate_total {p : Prog Str V} (hm : s.initMode = true) {v : V} (h : value (startValue s) p = some v) :
    ∃ a, evaluate p s = (.ok v, { s with accumulate := a }) := by
  obtain ⟨r, a, hr⟩ := evaluate_init p hm
  have h2 := run_exact (f := s.size) p s hm
  have he : evaluate p s = p.run (get s.size) s := by
    unfold evaluate; simp only [bind_gets]
  rw [← he] at h2
  rw [← initValue_value] at h
  cases hv : initValue s p with
  | none => rw [hv] at h; cases h
  | some w =>
      rw [hv] at h2 h
      simp only [Option.map_some, Option.some.injEq] at h
      subst h
      exact ⟨_, h2⟩

theorem inInitMode_total {x : M Str V Unit} {s1 : Sheet Str V} (h : x { s with initMode := true } = (.ok (), s1)) :
    ∃ s', inInitMode x s = (.ok (), s') := by
  unfold inInitMode
  rw [h]
  exact ⟨_, rfl⟩

theorem output_total {n : Str} {p : Prog Str V} (h : s.nameIndex.find n = none) : ∃ s', addOutput n p s = (.ok (), s') := by
  unfold addOutput pushCell
  simp only [bind_gets, bind_modify]
  obtain ⟨s1, h1⟩ := insertName_total (s := { s with size := s.size + 1, cell := fun j => if j = s.size then mkCell .output n (.expr p) false false false Values.empty 0 0 none else s.cell j, outputIndex := s.outputIndex.insert n s.size }) (n := n) h
  rw [bind_ok h1]
  exact ⟨_, rfl⟩

theorem invariant_total {n : Str} {p : Prog Str V} (h : s.nameIndex.find n = none) : ∃ s', addInvariant n p s = (.ok (), s') := by
  unfold addInvariant pushCell
  simp only [bind_gets, bind_modify]
  obtain ⟨s1, h1⟩ := insertName_total (s := { s with size := s.size + 1, cell := fun j => if j = s.size then mkCell .invariant n (.expr p) false false false Values.empty 0 0 none else s.cell j, outputIndex := s.outputIndex.insert n s.size }) (n := n) h
  rw [bind_ok h1]
  exact ⟨_, rfl⟩

theorem logic_total {n : Str} {p : Prog Str V} (h : s.nameIndex.find n = none) : ∃ s', addLogic n p s = (.ok (), s') := by
  unfold addLogic pushCell
  simp only [bind_modify]
  exact insertName_total h

theorem constant_total {n : Str} {p : Prog Str V} {v : V} (h : s.nameIndex.find n = none) (hv : value (startValue s) p = some v) :
    ∃ s', addConstant n p s = (.ok (), s') := by
  obtain ⟨a, ha⟩ := evaluate_total (s := { s with initMode := true }) rfl (v := v) (p := p) hv
  unfold addConstant
  obtain ⟨s1, h1⟩ : ∃ s1, (do let v ← evaluate p; addConstantValue n v : M Str V Unit) { s with initMode := true } = (.ok (), s1) := by
    rw [bind_ok ha]
    unfold addConstantValue pushCell
    simp only [bind_modify]
    exact insertName_total h
  exact inInitMode_total h1

theorem input_total {n : Str} {init : Option (Prog Str V)} (h : s.nameIndex.find n = none) (hv : ∀ p, init = some p → ∃ v, value (startValue s) p = some v) :
    ∃ s', addInput n init s = (.ok (), s') := by
  have key : ∀ v a, ∃ s1, (do
      let k ← gets (·.size)
      pushCell (mkCell .input n .none false true true v 0 (Bits.single k) none)
      modify fun s => { s with inputIndex := s.inputIndex.insert n k }
      insertName n : M Str V Unit) { s with initMode := true, accumulate := a } = (.ok (), s1) := by
    intro v a
    unfold pushCell
    simp only [bind_gets, bind_modify]
    exact insertName_total h
  unfold addInput
  cases init with
  | none =>
      obtain ⟨s1, h1⟩ := key Values.empty s.accumulate
      exact inInitMode_total (s1 := s1) h1
  | some p =>
      obtain ⟨v, hv⟩ := hv p rfl
      obtain ⟨a, ha⟩ := evaluate_total (s := { s with initMode := true }) rfl (v := v) (p := p) hv
      obtain ⟨s1, h1⟩ := key v a
      refine inInitMode_total (s1 := s1) ?_
      dsimp only
      rw [bind_ok ha]
      exact h1

theorem interface_total (hg : Good s) {n : Str} {linked : Bool} {init expr : Option (Prog Str V)} (h : s.nameIndex.find n = none)
    (hv : ∀ p, init = some p → ∃ v, value (fun m => if m = n then some Values.empty else startValue s m) p = some v) :
    ∃ s', addInterface n linked init expr s = (.ok (), s') := by
  have key : ∀ t : Sheet Str V, t.nameIndex.find n = none → ∃ s1, (do
      pushCell (mkCell .interfaceOutput n (Calc.ofExpr expr) false false false Values.empty 0 0 (some s.size))
      modify fun t => { t with outputIndex := t.outputIndex.insert n (s.size + 1) }
      insertName n : M Str V Unit) t = (.ok (), s1) := by
    intro t ht
    unfold pushCell
    simp only [bind_modify]
    exact insertName_total ht
  unfold addInterface
  obtain ⟨ci, hci⟩ : ∃ ci : Cell Str V, ci = mkCell .interfaceInput n (Calc.ofInit init) linked true true
    Values.empty (Bits.single s.size) 0 none := ⟨_, rfl⟩
  obtain ⟨t, ht⟩ : ∃ t : Sheet Str V, t = { s with initMode := true, size := s.size + 1, inputIndex := s.inputIndex.insert n s.size, cell := fun j => if j = s.size then ci else s.cell j } := ⟨_, rfl⟩
  obtain ⟨t2, ht2, hn2⟩ : ∃ t2, (if init.isSome then initializeOne s.size else pure () : M Str V Unit) t = (.ok (), t2) ∧ t2.nameIndex = s.nameIndex := by
    cases init with
    | none => exact ⟨t, rfl, by rw [ht]⟩
    | some p =>
        obtain ⟨v, hv⟩ := hv p rfl
        have hval : value (startValue t) p = some v := by
          rw [← hv]
          apply value_congr
          intro m
          have hce : ci.state = Values.empty := by rw [hci]; rfl
          rw [← hce, ht]
          refine startValue_half (s := s) hg h ?_ ?_ ?_ ?_ m
          · intro i hi
            have h1 : i ≠ s.size := by omega
            simp [h1]
          · simp
          · intro _ _; rfl
          · exact insert_new (noIn hg h) _
        obtain ⟨a, ha⟩ := evaluate_total (s := { t with accumulate := 0 }) (by rw [ht]) (v := v) (p := p) hval
        have hc : (t.cell s.size).calculator = .expr p := by rw [ht, hci]; simp [mkCell, Calc.ofInit]
        obtain ⟨t2, hi⟩ : ∃ t2, initializeOne s.size t = (.ok (), t2) := by
          unfold initializeOne
          simp only [bind_gets, bind_modify, hc]
          rw [bind_ok ha]
          exact ⟨_, rfl⟩
        obtain ⟨v', a', b', hs2⟩ := initializeOne_ok (by rw [ht]) hi
        exact ⟨t2, hi, by rw [hs2, ht]; rfl⟩
  obtain ⟨s1, h1⟩ := key t2 (by rw [hn2]; exact h)
  refine inInitMode_total (s1 := s1) ?_
  unfold pushCell at h1 ⊢
  simp only [bind_gets, bind_modify] at h1 ⊢
  rw [← hci]
  cases init with
  | none =>
      simp only [Option.isSome_none, Bool.false_eq_true, if_false, bind_modify] at ht2 ⊢
      have := (Prod.mk.inj ht2).2
      rw [← h1, ← this, ht]
  | some p =>
      simp only [Option.isSome_some, if_true] at ht2 ⊢
      rw [ht] at ht2
      rw [bind_ok ht2]
      simp only [bind_modify]
      exact h1

/-- The names of the interface cells of a sheet. -/
def Iface (s : Sheet Str V) (n : Str) : Prop := ∃ i, s.outputIndex.find n = some i ∧ (s.cell i).input.isSome

theorem attach_total (r : Nat) : ∀ (l : List Str) (s : Sheet Str V), (∀ n ∈ l, Iface s n) → ∃ s', attach r l s = (.ok (), s')
  | [], s, _ => ⟨s, rfl⟩
  | n :: l, s, h => by
      obtain ⟨i, h1, h2⟩ := h n (by simp)
      unfold attach
      simp only [bind_gets, id, h1]
      simp only [ite_run]
      rw [if_neg (by cases hx : (s.cell i).input <;> simp_all)]
      simp only [bind_modify]
      apply attach_total r l
      intro m hm
      obtain ⟨j, h3, h4⟩ := h m (by simp [hm])
      refine ⟨j, h3, ?_⟩
      simp only [Sheet.modCell, Sheet.modRel]
      split <;> exact h4

theorem attach_iface (r : Nat) : ∀ (l : List Str) (s s' : Sheet Str V), attach r l s = (.ok (), s') → (∀ n ∈ l, Iface s n) ∧ ∀ m, Iface s' m ↔ Iface s m
  | [], s, s', h => by
      have := (Prod.mk.inj h).2
      subst this
      exact ⟨by simp, fun _ => Iff.rfl⟩
  | n :: l, s, s', h => by
      unfold attach at h
      simp only [bind_gets, id] at h
      cases hf : s.outputIndex.find n with
      | none => rw [hf] at h; cases h
      | some i =>
        rw [hf] at h
        simp only [ite_run] at h
        split at h
        · cases h
        · rename_i hin
          simp only [bind_modify] at h
          obtain ⟨h1, h2⟩ := attach_iface r l _ s' h
          have hk : ∀ m, Iface ((s.modRel r fun rl => { rl with edges := rl.edges ++ [i] }).modCell i fun c =>
              { c with relations := c.relations ++ [r], initialCount := c.initialCount + 1 }) m ↔ Iface s m := by
            intro m
            unfold Iface
            simp only [Sheet.modCell, Sheet.modRel]
            constructor
            · rintro ⟨j, g1, g2⟩
              refine ⟨j, g1, ?_⟩
              split at g2 <;> exact g2
            · rintro ⟨j, g1, g2⟩
              refine ⟨j, g1, ?_⟩
              split <;> exact g2
          refine ⟨?_, fun m => (h2 m).trans (hk m)⟩
          intro m hm
          rcases List.mem_cons.mp hm with rfl | hm
          · exact ⟨i, hf, by cases hx : (s.cell i).input <;> simp_all⟩
          · exact (hk m).mp (h1 m hm)

theorem relation_total {cond : Option (Prog Str V)} {terms : List (RelTerm Str V)} (h : ∀ t ∈ terms, ∀ n ∈ t.names, Iface s n) :
    ∃ s', addRelation cond terms s = (.ok (), s') := by
  unfold addRelation
  simp only [bind_gets, bind_modify]
  apply attach_total
  intro n hn
  rw [List.mem_dedup, List.mem_flatMap] at hn
  obtain ⟨t, ht, hn⟩ := hn
  exact h t ht n hn

theorem relation_iface {cond : Option (Prog Str V)} {terms : List (RelTerm Str V)} (h : addRelation cond terms s = (.ok (), s')) :
    (∀ t ∈ terms, ∀ n ∈ t.names, Iface s n) ∧ ∀ m, Iface s' m ↔ Iface s m := by
  unfold addRelation at h
  simp only [bind_gets, bind_modify] at h
  obtain ⟨h1, h2⟩ := attach_iface _ _ _ _ h
  refine ⟨?_, h2⟩
  intro t ht n hn
  exact h1 n (by rw [List.mem_dedup, List.mem_flatMap]; exact ⟨t, ht, hn⟩)

/-- Interface cells are those whose output half is among the cells. -/
theorem iface_iff (hg : Good s) (n : Str) : Iface s n ↔ ∃ i, s.nameIndex.find n = some i ∧ (s.cell i).spec = .interfaceOutput := by
  constructor
  · rintro ⟨i, h1, h2⟩
    refine ⟨i, ((hg.fit.wf.output n i).mp h1).1, ?_⟩
    by_contra hne
    rw [hg.fit.wf.noInput i hne] at h2
    cases h2
  · rintro ⟨i, h1, h2⟩
    obtain ⟨j, h3, _⟩ := hg.fit.wf.iface n i h1 h2
    exact ⟨i, (hg.fit.wf.output n i).mpr ⟨h1, Or.inr (Or.inl h2)⟩, by rw [h3]; rfl⟩

/-- Every name belongs to one cell, which is not an input half. -/
theorem iface_sigs (hg : Good s) (hl : ((sigs s).filter fun x => x.1 ≠ .interfaceInput).map (·.2.1) = names s) (n : Str) :
    Iface s n ↔ ∃ x ∈ sigs s, x.1 = .interfaceOutput ∧ x.2.1 = n := by
  rw [iface_iff hg]
  constructor
  · rintro ⟨i, h1, h2⟩
    obtain ⟨h3, h4⟩ := hg.fit.wf.name n i h1
    exact ⟨_, List.mem_map.mpr ⟨i, List.mem_range.mpr h3, rfl⟩, h2, h4⟩
  · rintro ⟨x, hx, h1, h2⟩
    obtain ⟨k, hk, rfl⟩ := List.mem_map.mp hx
    dsimp only at h1 h2
    have hnd := hg.fit.wf.nodup
    have hin : n ∈ names s := by
      rw [← hl]
      exact List.mem_map.mpr ⟨_, List.mem_filter.mpr ⟨hx, by simp [h1]⟩, h2⟩
    cases hf : s.nameIndex.find n with
    | none => exact absurd hin (find_none hf)
    | some i =>
        obtain ⟨h3, h4⟩ := hg.fit.wf.name n i hf
        have h5 := hg.fit.wf.spec n i hf
        have hnd' : (names s).Nodup := hnd
        rw [← hl] at hnd'
        unfold sigs at hnd'
        rw [List.filter_map, List.map_map] at hnd'
        have := List.inj_on_of_nodup_map hnd' (x := i) (y := k)
          (List.mem_filter.mpr ⟨List.mem_range.mpr h3, by simpa using h5⟩)
          (List.mem_filter.mpr ⟨hk, by simp [h1]⟩) (by simp [h4, h2])
        subst this
        exact ⟨i, rfl, h1⟩

theorem cellsOf_names (pe : Verif.Expr.Spec.Expr D O → Prog Str V) (ds : List (Decl D O)) :
    ((ds.flatMap (cellsOf pe)).filter fun x => x.1 ≠ .interfaceInput).map (·.2.1) = ds.flatMap nameOf := by
  induction ds with
  | nil => rfl
  | cons d ds ih =>
      rw [List.flatMap_cons, List.filter_append, List.map_append, ih, List.flatMap_cons]
      congr 1
      cases d <;> simp [cellsOf, nameOf]

theorem cellsOf_iface (pe : Verif.Expr.Spec.Expr D O → Prog Str V) (ds : List (Decl D O)) (n : Str) :
    (∃ x ∈ ds.flatMap (cellsOf pe), x.1 = .interfaceOutput ∧ x.2.1 = n) ↔ ∃ d ∈ ds, IsInterface n d := by
  simp only [List.mem_flatMap]
  constructor
  · rintro ⟨x, ⟨d, hd, hx⟩, h1, h2⟩
    refine ⟨d, hd, ?_⟩
    cases d <;> simp only [cellsOf, List.mem_cons, List.not_mem_nil, or_false] at hx
    case interface =>
      rcases hx with rfl | rfl
      · cases h1
      · exact h2
    all_goals (subst hx; cases h1)
  · rintro ⟨d, hd, h⟩
    cases d with
    | interface m linked init define brief detailed =>
        exact ⟨_, ⟨_, hd, List.mem_cons_of_mem _ (List.mem_singleton.mpr rfl)⟩, rfl, h⟩
    | _ => exact h.elim

/-- The sheet after the declarations `pre`. -/
structure After (pe : Verif.Expr.Spec.Expr D O → Prog Str V) (pre : List (Decl D O)) (s : Sheet Str V) : Prop where
  good : Good s
  sigs : sigs s = pre.flatMap (cellsOf pe)
  names : names s = pre.flatMap nameOf

theorem After.iface {pe : Verif.Expr.Spec.Expr D O → Prog Str V} {pre : List (Decl D O)} (h : After pe pre s) (n : Str) :
    Iface s n ↔ ∃ d ∈ pre, IsInterface n d := by
  rw [iface_sigs h.good (by rw [h.sigs, h.names]; exact cellsOf_names pe pre), h.sigs, cellsOf_iface]

theorem callback_total (prog : List (Verif.Expr.Val D O) → Prog Str V) (ext : Bool) (c : Nat → D) (d : Decl D O) {env env' : List (Str × V)}
    {pre ds : List (Decl D O)}
    (h : After (fun e => prog (Verif.Expr.compile c e)) pre s) (ha : Agree s env) (hn : ∀ n ∈ nameOf d, n ∉ pre.flatMap nameOf)
    (hs : start (fun e => prog (Verif.Expr.compile c e)) (d :: ds) env = some env')
    (hr : ∀ cond rs brief detailed, d = .relate cond rs brief detailed → rs ≠ [] ∧ ∀ r ∈ rs, ∀ n ∈ r.names, ∃ d ∈ pre, IsInterface n d)
    (he : IsExternal d → ext = true) : ∃ s', callback prog ext (report c d) s = (.ok (), s') := by
  have hfr : ∀ n ∈ nameOf d, s.nameIndex.find n = none := by
    intro n hm
    apply none_find
    have := hn n hm
    rw [← h.names] at this
    exact this
  cases d with
  | interface n linked init define brief detailed =>
      have hf := hfr n (by simp [nameOf])
      simp only [report, callback, opt_code]
      apply interface_total h.good hf
      intro p hp
      cases init with
      | none => cases hp
      | some e =>
          simp only [Option.map_some, Option.some.injEq] at hp
          subst hp
          simp only [start] at hs
          obtain ⟨v, hv, -⟩ := Option.bind_eq_some_iff.mp hs
          refine ⟨v, ?_⟩
          rw [← hv]
          apply value_congr
          intro m
          rw [lookup_append _ _ _ _ (ha.fresh h.good hf), ha m]
  | input n init brief detailed =>
      have hf := hfr n (by simp [nameOf])
      simp only [report, callback, addCell, opt_code]
      apply input_total hf
      intro p hp
      cases init with
      | none => cases hp
      | some e =>
          simp only [Option.map_some, Option.some.injEq] at hp
          subst hp
          simp only [start] at hs
          obtain ⟨v, hv, -⟩ := Option.bind_eq_some_iff.mp hs
          exact ⟨v, (ha.value _).trans hv⟩
  | constant n e brief detailed =>
      simp only [start] at hs
      obtain ⟨v, hv, -⟩ := Option.bind_eq_some_iff.mp hs
      exact constant_total (hfr n (by simp [nameOf])) ((ha.value _).trans hv)
  | output n e brief detailed => exact output_total (hfr n (by simp [nameOf]))
  | logic n e brief detailed => exact logic_total (hfr n (by simp [nameOf]))
  | invariant n e brief detailed => exact invariant_total (hfr n (by simp [nameOf]))
  | external n brief detailed =>
      rw [he trivial]
      exact ⟨s, rfl⟩
  | relate cond rs brief detailed =>
      obtain ⟨h1, h2⟩ := hr cond rs brief detailed rfl
      cases rs with
      | nil => exact absurd rfl h1
      | cons r rs =>
          simp only [report, callback, addRel, List.map_cons]
          apply relation_total
          intro t ht n hm
          rw [h.iface]
          have ht' : t ∈ (r :: rs).map fun r => ({ names := r.names, prog := prog (Verif.Expr.compile c r.e) } : RelTerm Str V) := by
            rw [List.map_map] at ht
            exact ht
          obtain ⟨r', hr', rfl⟩ := List.mem_map.mp ht'
          exact h2 r' hr' n hm

theorem After.step (prog : List (Verif.Expr.Val D O) → Prog Str V) (ext : Bool) (c : Nat → D) {d : Decl D O} {pre : List (Decl D O)}
    (h : After (fun e => prog (Verif.Expr.compile c e)) pre s) (hx : callback prog ext (report c d) s = (.ok (), s')) :
    After (fun e => prog (Verif.Expr.compile c e)) (pre ++ [d]) s' := by
  have st := callback_step prog ext c d h.good hx
  exact ⟨st.good, by rw [st.sigs, h.sigs]; simp, by rw [st.names, h.names]; simp⟩

theorem build_total (prog : List (Verif.Expr.Val D O) → Prog Str V) (ext : Bool) (c : Nat → D) : ∀ (ds pre : List (Decl D O)) (s : Sheet Str V)
    (env env' : List (Str × V)), After (fun e => prog (Verif.Expr.compile c e)) pre s → Agree s env → ((pre ++ ds).flatMap nameOf).Nodup →
    start (fun e => prog (Verif.Expr.compile c e)) ds env = some env' →
    (∀ a b cond rs brief detailed, ds = a ++ .relate cond rs brief detailed :: b →
      rs ≠ [] ∧ ∀ r ∈ rs, ∀ n ∈ r.names, ∃ d ∈ pre ++ a, IsInterface n d) → (∀ d ∈ ds, IsExternal d → ext = true) →
    ∃ s', build prog ext (ds.map (report c)) s = (.ok (), s')
  | [], pre, s, env, env', _, _, _, _, _, _ => ⟨s, rfl⟩
  | d :: ds, pre, s, env, env', h, ha, hn, hs, hr, he => by
      have hn1 : ∀ n ∈ nameOf d, n ∉ pre.flatMap nameOf := by
        intro n hm hm'
        rw [List.flatMap_append, List.nodup_append] at hn
        exact hn.2.2 n hm' n (by rw [List.flatMap_cons]; exact List.mem_append_left _ hm) rfl
      obtain ⟨s1, hx⟩ := callback_total prog ext c d h ha hn1 hs (by
        intro cond rs brief detailed hd
        have := hr [] ds cond rs brief detailed (by rw [hd]; rfl)
        simpa using this) (he d (by simp))
      obtain ⟨env1, h1, ha1⟩ := callback_agree prog ext c d h.good ha hx
      rw [h1] at hs
      obtain ⟨s', hb⟩ := build_total prog ext c ds (pre ++ [d]) s1 env1 env' (h.step prog ext c hx) ha1 (by simpa using hn) hs (by
        intro a b cond rs brief detailed hd
        have := hr (d :: a) b cond rs brief detailed (by rw [hd]; rfl)
        simpa using this) (fun d' hd' => he d' (by simp [hd']))
      refine ⟨s', ?_⟩
      simp only [List.map_cons, build]
      rw [bind_ok hx]
      exact hb

theorem build_append (prog : List (Verif.Expr.Val D O) → Prog Str V) (ext : Bool) : ∀ (a b : List (Verif.Decl.Call D O)) (s s' : Sheet Str V),
    build prog ext (a ++ b) s = (.ok (), s') → ∃ s1, build prog ext a s = (.ok (), s1) ∧ build prog ext b s1 = (.ok (), s')
  | [], b, s, s', h => ⟨s, rfl, h⟩
  | x :: a, b, s, s', h => by
      simp only [List.cons_append, build] at h ⊢
      rw [bind_run] at h
      split at h
      · rename_i s1 hx
        obtain ⟨s2, h1, h2⟩ := build_append prog ext a b _ s' h
        exact ⟨s2, by rw [bind_ok hx]; exact h1, h2⟩
      · cases h

theorem build_acceptable (prog : List (Verif.Expr.Val D O) → Prog Str V) (ext : Bool) (c : Nat → D) {ds : List (Decl D O)} {n0 : Str}
    (h : build prog ext (ds.map (report c)) (Sheet.empty n0) = (.ok (), s')) : Acceptable (fun e => prog (Verif.Expr.compile c e)) ext ds := by
  have he : Agree (Sheet.empty (V := V) n0) [] := fun m => rfl
  obtain ⟨h1, h2, h3, h4, h5⟩ := build_step prog ext c ds _ s' (empty_good n0) h
  have hmid : ∀ a d b, ds = a ++ d :: b → ∃ s1 s2, After (fun e => prog (Verif.Expr.compile c e)) a s1 ∧ callback prog ext (report c d) s1 = (.ok (), s2) := by
    intro a d b hd
    rw [hd, List.map_append, List.map_cons] at h
    obtain ⟨s1, g1, g2⟩ := build_append prog ext _ _ _ _ h
    obtain ⟨k1, k2, -, k4, -⟩ := build_step prog ext c a _ s1 (empty_good n0) g1
    unfold build at g2
    rw [bind_run] at g2
    split at g2
    · rename_i s2 hx
      exact ⟨s1, s2, ⟨k1, k2, k4⟩, hx⟩
    · cases g2
  refine ⟨?_, ?_, ?_, ?_⟩
  · have := h5 List.nodup_nil
    rw [h4] at this
    exact this
  · obtain ⟨env, g, -⟩ := build_agree prog ext c ds _ s' [] (empty_good n0) he h
    exact ⟨env, g⟩
  · intro a b cond rs brief detailed hd
    obtain ⟨s1, s2, k1, k2⟩ := hmid a _ b hd
    simp only [report, callback] at k2
    cases rs with
    | nil => cases k2
    | cons r rs =>
        refine ⟨by simp, ?_⟩
        intro r' hr' n hn
        have hmem : ({ names := r'.names, prog := prog (Verif.Expr.compile c r'.e) } : RelTerm Str V) ∈
            (r :: rs).map fun r => ({ names := r.names, prog := prog (Verif.Expr.compile c r.e) } : RelTerm Str V) := List.mem_map.mpr ⟨r', hr', rfl⟩
        have := (relation_iface k2).1 { names := r'.names, prog := prog (Verif.Expr.compile c r'.e) } (by
          rw [List.map_map]
          exact hmem) n hn
        exact (k1.iface n).mp this
  · intro d hd hx
    obtain ⟨a, b, hab⟩ := List.append_of_mem hd
    obtain ⟨s1, s2, k1, k2⟩ := hmid a d b hab
    cases d with
    | external n brief detailed =>
        simp only [report, callback] at k2
        cases ext with
        | false => cases k2
        | true => rfl
    | _ => exact hx.elim

end Verif.Bind
