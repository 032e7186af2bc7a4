import Verif.Decl.Total
/-
Completeness: every phrase of the grammar is accepted, and the client is told what it denotes.
-/
namespace Verif.Decl
open Verif.Expr Parser Verif.Decl.Spec

variable {D O α β : Type} {c : Nat → D}

/-- Tokens before which a trailing comment can be missing. -/
def NoTrail (ts : List (Tok D)) : Prop := ts.head? ≠ some .bad ∧ ∀ s, ts.head? ≠ some (.trailComment s)

theorem lead_run {l : List (Tok D)} {s : Str} (h : Lead l s) {rest : List (Tok D)} (hb : rest.head? ≠ some .bad)
    (hr : ∀ n, rest.head? ≠ some (.leadComment n)) (old : Str) (log : List (Call D O)) :
    ∃ s', lead old (l ++ rest) log = .ok s' rest log ∧ (s' = s ∨ s = [] ∧ s' = old) := by
  cases h with
  | none => exact ⟨old, lead_miss hb hr old log, .inr ⟨rfl, rfl⟩⟩
  | some => exact ⟨s, lead_self _ _ _ _, .inl rfl⟩

theorem lead_run' {l : List (Tok D)} {s : Str} (h : Lead l s) {rest : List (Tok D)} (hb : rest.head? ≠ some .bad)
    (hr : ∀ n, rest.head? ≠ some (.leadComment n)) (log : List (Call D O)) : lead [] (l ++ rest) log = .ok s rest log := by
  obtain ⟨s', h1, h2⟩ := lead_run h hb hr [] log
  have : s' = s := by grind
  rw [h1, this]

theorem trail_run {l : List (Tok D)} {s : Str} (h : Trail l s) {rest : List (Tok D)} (hr : NoTrail rest) (old : Str) (log : List (Call D O)) :
    ∃ s', trail old (l ++ rest) log = .ok s' rest log ∧ (s' = s ∨ s = [] ∧ s' = old) := by
  cases h with
  | none => exact ⟨old, trail_miss hr.1 hr.2 old log, .inr ⟨rfl, rfl⟩⟩
  | some => exact ⟨s, trail_self _ _ _ _, .inl rfl⟩

theorem trail_run' {l : List (Tok D)} {s : Str} (h : Trail l s) {rest : List (Tok D)} (hr : NoTrail rest) (log : List (Call D O)) :
    trail [] (l ++ rest) log = .ok s rest log := by
  obtain ⟨s', h1, h2⟩ := trail_run h hr [] log
  have : s' = s := by grind
  rw [h1, this]

theorem end_run {b : List (Tok D)} {s : Str} (h : End b s) {rest : List (Tok D)} (hr : NoTrail rest) (old : Str) (log : List (Call D O)) :
    ∃ s', endStatement old (b ++ rest) log = .ok s' rest log ∧ (s' = s ∨ s = [] ∧ s' = old) := by
  cases h with
  | mk h =>
    unfold endStatement
    rw [List.cons_append, bind_run _ (need_self _ _ _)]
    exact trail_run h hr old log

theorem end_run' {b : List (Tok D)} {s : Str} (h : End b s) {rest : List (Tok D)} (hr : NoTrail rest) (log : List (Call D O)) :
    endStatement [] (b ++ rest) log = .ok s rest log := by
  obtain ⟨s', h1, h2⟩ := end_run h hr [] log
  have : s' = s := by grind
  rw [h1, this]

theorem end_head {b : List (Tok D)} {s : Str} (h : End b s) (rest : List (Tok D)) : ∃ r, b ++ rest = .sym .semicolon :: r := by
  cases h; exact ⟨_, rfl⟩

theorem canFollow_semicolon (r : List (Tok D)) : Expr.Spec.CanFollow (.sym .semicolon :: r) := by
  simp [Expr.Spec.CanFollow, Expr.Spec.continuing]
theorem canFollow_is (r : List (Tok D)) : Expr.Spec.CanFollow (.sym .is :: r) := by simp [Expr.Spec.CanFollow, Expr.Spec.continuing]
theorem canFollow_close (r : List (Tok D)) : Expr.Spec.CanFollow (.sym .closeParen :: r) := by
  simp [Expr.Spec.CanFollow, Expr.Spec.continuing]

theorem initializer_run {i : List (Tok D)} {e : Option (Expr.Spec.Expr D O)} (h : Opt Init i e) {rest : List (Tok D)}
    (hr : ∃ r, rest = .sym .semicolon :: r ∨ rest = .sym .is :: r) (log : List (Call D O)) :
    initializer c (i ++ rest) log = .ok (e.map (compile c)) rest log := by
  unfold initializer
  have hc : Expr.Spec.CanFollow rest := by
    obtain ⟨r, rfl | rfl⟩ := hr
    · exact canFollow_semicolon r
    · exact canFollow_is r
  cases h with
  | none =>
    rw [List.nil_append, bind_run _ (tok_miss _ _ log)]
    · rfl
    · obtain ⟨r, rfl | rfl⟩ := hr <;> simp
    · obtain ⟨r, rfl | rfl⟩ := hr <;> simp
  | some h =>
    cases h with
    | mk h =>
      rw [List.cons_append, bind_run _ (tok_self _ _ _)]
      exact bind_run _ (needExpr_run h hc log)

theorem defineExpr_run {i : List (Tok D)} {e : Option (Expr.Spec.Expr D O)} (h : Opt Define i e) {rest : List (Tok D)}
    (hr : ∃ r, rest = .sym .semicolon :: r) (log : List (Call D O)) :
    defineExpr c (i ++ rest) log = .ok (e.map (compile c)) rest log := by
  unfold defineExpr
  obtain ⟨r, rfl⟩ := hr
  cases h with
  | none =>
    rw [List.nil_append, bind_run _ (tok_miss (by simp) (by simp) log)]
    rfl
  | some h =>
    cases h with
    | mk h =>
      rw [List.cons_append, bind_run _ (tok_self _ _ _)]
      exact bind_run _ (needExpr_run h (canFollow_semicolon _) log)

theorem conditional_run {i : List (Tok D)} {e : Option (Expr.Spec.Expr D O)} (h : Opt Cond i e) {rest : List (Tok D)}
    (hr : ∃ r, rest = .kw "relate".toList :: r) (log : List (Call D O)) :
    conditional c (i ++ rest) log = .ok (e.map (compile c)) rest log := by
  unfold conditional
  obtain ⟨r, rfl⟩ := hr
  cases h with
  | none =>
    rw [List.nil_append, bind_run _ (kw_miss (by simp) (by simp) log)]
    rfl
  | some h =>
    cases h with
    | mk h =>
      simp only [List.cons_append, List.append_assoc]
      rw [bind_run _ (kw_self _ _ _)]
      refine (bind_run _ (need_self _ _ _)).trans ?_
      refine (bind_run _ (needExpr_run h (canFollow_close _) log)).trans ?_
      exact bind_run _ (need_self _ _ _)

theorem namedDecl_run {used : List (Tok D)} {n : Str} {e : Expr.Spec.Expr D O} {b : Str} (h : Named used n e b) {rest : List (Tok D)}
    (hr : NoTrail rest) (log : List (Call D O)) : namedDecl c (used ++ rest) log = .ok (some (n, compile c e, b)) rest log := by
  cases h with
  | mk n hd hb =>
    simp only [List.cons_append, List.append_assoc]
    unfold namedDecl
    rw [bind_run _ (ident_self _ _ _)]
    refine (bind_run _ (defineExpr_run (.some hd) (end_head hb _) log)).trans ?_
    exact bind_run _ (end_run' hb hr log)

theorem names_run {used : List (Tok D)} {ns : List Str} (h : Names used ns) :
    ∃ m us ms, used = .ident m :: us ∧ ns = m :: ms ∧ ∀ (n : Nat) (ns0 : List Str) (rest : List (Tok D)) (log : List (Call D O)),
      us.length < n → rest.head? ≠ some .bad → rest.head? ≠ some (.sym .comma) →
      moreNames n ns0 (us ++ rest) log = .ok (ns0 ++ ms) rest log := by
  induction h with
  | one m =>
    refine ⟨m, [], [], rfl, rfl, ?_⟩
    intro n ns0 rest log hn hb hc
    obtain ⟨n, rfl⟩ : ∃ k, n = k + 1 := ⟨n - 1, by simp at hn; omega⟩
    unfold moreNames
    rw [List.nil_append, bind_run _ (tok_miss hb hc log)]
    simp [pure_def]
  | more m _ ih =>
    obtain ⟨m', us, ms, rfl, rfl, ih⟩ := ih
    refine ⟨m, _, _, rfl, rfl, ?_⟩
    intro n ns0 rest log hn hb hc
    obtain ⟨n, rfl⟩ : ∃ k, n = k + 1 := ⟨n - 1, by simp at hn; omega⟩
    unfold moreNames
    simp only [List.cons_append]
    rw [bind_run _ (tok_self _ _ _)]
    refine (bind_run _ (ident_self _ _ _)).trans ?_
    refine (ih n _ rest log (by simp at hn; omega) hb hc).trans ?_
    simp

theorem define_head {b : List (Tok D)} {e : Expr.Spec.Expr D O} (h : Define b e) (rest : List (Tok D)) :
    ∃ r, b ++ rest = .sym .is :: r := by
  cases h; exact ⟨_, rfl⟩

theorem relateExpr_run {used : List (Tok D)} {d : RelDecl D O} (h : RelateExpr used d) {rest : List (Tok D)} (hr : NoTrail rest)
    {n : Nat} (hn : used.length ≤ n) {r : Rel D O} (log : List (Call D O)) : ∃ r',
    relateExpr c n r (used ++ rest) log = .ok (some r') rest log ∧ (r.code = [] → RelWeak c r' d) ∧ (r = {} → r' = relOf c d) := by
  cases h with
  | @mk l un ud ub det names e brief hl hnames hd hb =>
    obtain ⟨m, us, ms, rfl, rfl, hm⟩ := names_run hnames
    simp only [List.append_assoc, List.cons_append]
    obtain ⟨det', h1, hdet⟩ := lead_run hl (rest := .ident m :: (us ++ (ud ++ (ub ++ rest)))) (by simp) (by simp) r.detailed log
    obtain ⟨br, h2, hbr⟩ := end_run hb hr r.brief log
    refine ⟨⟨r.names ++ [m] ++ ms, r.code ++ compile c e, det', br⟩, ?_, ?_, ?_⟩
    · unfold relateExpr
      rw [bind_run _ h1]
      refine (bind_run _ (ident_self _ _ _)).trans ?_
      refine (bind_run _ (hm n _ _ log ?_ ?_ ?_)).trans ?_
      · simp at hn; omega
      · obtain ⟨r, hr⟩ := define_head hd (ub ++ rest); rw [hr]; simp
      · obtain ⟨r, hr⟩ := define_head hd (ub ++ rest); rw [hr]; simp
      refine (bind_run _ (defineExpr_run (.some hd) (end_head hb _) log)).trans ?_
      exact bind_run _ h2
    · intro hcode
      refine ⟨by simp [hcode], ⟨r.names, by simp⟩, ?_, ?_⟩
      · intro hne; simp only at hne ⊢; grind
      · intro hne; simp only at hne ⊢; grind
    · rintro rfl
      simp only [relOf, List.nil_append]
      congr 1
      · simp only at hdet; grind
      · simp only at hbr; grind

theorem relateExpr_head {used : List (Tok D)} {d : RelDecl D O} (h : RelateExpr used d) (rest : List (Tok D)) :
    NoTrail (used ++ rest) := by
  cases h with
  | mk hl hn _ _ =>
    obtain ⟨m, us, ms, rfl, rfl, -⟩ := names_run (O := O) hn
    cases hl <;> simp [NoTrail]

theorem relateExprs_head {lax} {used : List (Tok D)} {ds : List (RelDecl D O)} (h : RelateExprs lax used ds) {rest : List (Tok D)}
    (hr : NoTrail rest) : NoTrail (used ++ rest) := by
  cases h with
  | nil => exact hr
  | cons h _ => rw [List.append_assoc]; exact relateExpr_head h _
  | dangling => simp [NoTrail]

theorem relateExpr_stop {n : Nat} {r : Rel D O} (ts : List (Tok D)) (log : List (Call D O)) :
    relateExpr c n r (.sym .closeBrace :: ts) log = .ok none (.sym .closeBrace :: ts) log := by
  unfold relateExpr
  rw [bind_run _ (lead_miss (by simp) (by simp) _ log)]
  exact bind_run _ (ident_miss (by simp) (by simp) log)

theorem relateExpr_stop' {n : Nat} {r : Rel D O} (s : Str) (ts : List (Tok D)) (log : List (Call D O)) :
    relateExpr c n r (.leadComment s :: .sym .closeBrace :: ts) log = .ok none (.sym .closeBrace :: ts) log := by
  unfold relateExpr
  rw [bind_run _ (lead_self _ _ _ log)]
  exact bind_run _ (ident_miss (by simp) (by simp) log)

theorem relateLoop_run {lax exact : Bool} {reset : Rel D O → Rel D O} (hreset : ResetOk exact reset) {used : List (Tok D)}
    {ds : List (RelDecl D O)} (h : RelateExprs lax used ds) (rest : List (Tok D)) (log : List (Call D O)) :
    ∀ (n : Nat) (r : Rel D O), used.length < n → r.code = [] → (exact = true → r = {}) →
      ∃ rs, relateLoop c reset n r (used ++ .sym .closeBrace :: rest) log = .ok rs (.sym .closeBrace :: rest) log ∧ RelsOk c exact rs ds := by
  induction h with
  | nil =>
    intro n r hn hc he
    obtain ⟨n, rfl⟩ : ∃ k, n = k + 1 := ⟨n - 1, by omega⟩
    unfold relateLoop
    rw [List.nil_append, bind_run _ (relateExpr_stop _ log)]
    exact ⟨[], rfl, .nil, fun _ => rfl⟩
  | dangling s =>
    intro n r hn hc he
    obtain ⟨n, rfl⟩ : ∃ k, n = k + 1 := ⟨n - 1, by omega⟩
    unfold relateLoop
    rw [List.cons_append, List.nil_append, bind_run _ (relateExpr_stop' _ _ log)]
    exact ⟨[], rfl, .nil, fun _ => rfl⟩
  | cons hd hds ih =>
    intro n r hn hc he
    obtain ⟨n, rfl⟩ : ∃ k, n = k + 1 := ⟨n - 1, by omega⟩
    have hp := relateExpr_pos hd
    simp only [List.length_append] at hn
    unfold relateLoop
    rw [List.append_assoc]
    obtain ⟨r', h1, h2, h3⟩ := relateExpr_run (c := c) hd (relateExprs_head hds (rest := .sym .closeBrace :: rest) (by simp [NoTrail]))
      (n := n) (by omega) (r := r) log
    obtain ⟨rs, h4, h5, h6⟩ := ih n (reset r') (by omega) (hreset r').1 (hreset r').2
    refine ⟨r' :: rs, ?_, .cons (h2 hc) h5, fun hx => ?_⟩
    · rw [bind_run _ h1]
      exact bind_run _ h4
    · rw [h6 hx, h3 (he hx)]; rfl

/-- What may follow the declarations of a section. -/
def StopCells (ts : List (Tok D)) : Prop := ∃ r, ts = .sym .closeBrace :: r ∨
  ∃ k, ts = .kw k :: r ∧ k ≠ "unlink".toList ∧ k ≠ "when".toList ∧ k ≠ "relate".toList

theorem StopCells.noTrail {ts : List (Tok D)} (h : StopCells ts) : NoTrail ts := by
  obtain ⟨r, rfl | ⟨k, rfl, -⟩⟩ := h <;> simp [NoTrail]
theorem StopCells.noLead {ts : List (Tok D)} (h : StopCells ts) (s : Str) : ts.head? ≠ some (.leadComment s) := by
  obtain ⟨r, rfl | ⟨k, rfl, -⟩⟩ := h <;> simp
theorem StopCells.noIdent {ts : List (Tok D)} (h : StopCells ts) (s : Str) : ts.head? ≠ some (.ident s) := by
  obtain ⟨r, rfl | ⟨k, rfl, -⟩⟩ := h <;> simp
theorem StopCells.noKw {ts : List (Tok D)} (h : StopCells ts) {k : Str} (hk : k ∈ ["unlink".toList, "when".toList, "relate".toList]) :
    ts.head? ≠ some (.kw k) := by
  simp only [List.mem_cons, List.not_mem_nil, or_false] at hk
  obtain ⟨r, rfl | ⟨k', rfl, h⟩⟩ := h
  · simp
  · rintro h'
    simp only [List.head?_cons, Option.some.injEq, Tok.kw.injEq] at h'
    subst h'
    grind

/-- What a function for declarations does on the declarations of its section, and where there is none. -/
structure CellRun (c : Nat → D) (exact : Bool) (n : Nat) (sec : Section) (x : Str → A D O Bool) : Prop where
  run : ∀ {lax : Bool} {detailed : Str} {used : List (Tok D)} {d : Decl D O}, Cell lax detailed sec used d → used.length < n →
    ∀ {rest : List (Tok D)}, NoTrail rest → ∀ log, ∃ call, x detailed (used ++ rest) log = .ok true rest (log ++ [call]) ∧
      Reports c exact call d
  stop : ∀ (detailed : Str) {rest : List (Tok D)}, StopCells rest → ∀ log, x detailed rest log = .ok false rest log
  unlink : sec = .interface → ∀ (detailed : Str) {rest : List (Tok D)}, StopCells rest → ∀ log,
    x detailed (.kw "unlink".toList :: rest) log = .ok false rest log

theorem getD_code (e : Option (Expr.Spec.Expr D O)) : (e.map (compile c)).getD [] = codeOf c e := by cases e <;> rfl

theorem opt_define_head {d b : List (Tok D)} {e : Option (Expr.Spec.Expr D O)} {s : Str} (hd : Opt Define d e) (hb : End b s)
    (rest : List (Tok D)) : ∃ r, d ++ (b ++ rest) = .sym .semicolon :: r ∨ d ++ (b ++ rest) = .sym .is :: r := by
  cases hd with
  | none => obtain ⟨r, hr⟩ := end_head hb rest; exact ⟨r, .inl hr⟩
  | some hd => obtain ⟨r, hr⟩ := define_head hd (b ++ rest); exact ⟨r, .inr hr⟩

theorem interfaceCell_run (exact : Bool) (n : Nat) : CellRun (O := O) c exact n .interface (interfaceCell c) where
  run := by
    intro lax detailed used d h hn rest hr log
    cases h with
    | @interface m u i d b linked init define brief hu hi hd hb =>
      refine ⟨_, ?_, .inl rfl⟩
      simp only [List.append_assoc, List.cons_append]
      have hk : kw "unlink".toList (u ++ .ident m :: (i ++ (d ++ (b ++ rest)))) log = .ok (!linked) (.ident m :: (i ++ (d ++ (b ++ rest)))) log := by
        cases hu with
        | linked => exact kw_miss (by simp) (by simp) log
        | unlinked => exact kw_self _ _ _
      unfold interfaceCell
      rw [bind_run _ hk]
      refine (bind_run _ (ident_self _ _ _)).trans ?_
      refine (bind_run _ (initializer_run hi (opt_define_head hd hb rest) log)).trans ?_
      refine (bind_run _ (defineExpr_run hd (end_head hb _) log)).trans ?_
      refine (bind_run _ (end_run' hb hr log)).trans ?_
      rw [getD_code, getD_code]
      simp [bind_def, emit, pure_def, report]
  stop := by
    intro detailed rest hr log
    unfold interfaceCell
    rw [bind_run _ (kw_miss hr.noTrail.1 (hr.noKw (by simp)) log)]
    exact bind_run _ (ident_miss hr.noTrail.1 hr.noIdent log)
  unlink := by
    intro _ detailed rest hr log
    unfold interfaceCell
    rw [bind_run _ (kw_self _ _ log)]
    exact bind_run _ (ident_miss hr.noTrail.1 hr.noIdent log)

theorem inputCell_run (exact : Bool) (n : Nat) : CellRun (O := O) c exact n .input (inputCell c) where
  run := by
    intro lax detailed used d h hn rest hr log
    cases h with
    | @input m i b init brief hi hb =>
      refine ⟨_, ?_, .inl rfl⟩
      simp only [List.append_assoc, List.cons_append]
      unfold inputCell
      rw [bind_run _ (ident_self _ _ _)]
      obtain ⟨r, hr'⟩ := end_head hb rest
      refine (bind_run _ (initializer_run hi ⟨r, .inl hr'⟩ log)).trans ?_
      refine (bind_run _ (end_run' hb hr log)).trans ?_
      rw [getD_code]
      simp [bind_def, emit, pure_def, report]
  stop := by
    intro detailed rest hr log
    unfold inputCell
    exact bind_run _ (ident_miss hr.noTrail.1 hr.noIdent log)
  unlink := by intro h; cases h

theorem constantCell_run (exact : Bool) (n : Nat) : CellRun (O := O) c exact n .constant (constantCell c) where
  run := by
    intro lax detailed used d h hn rest hr log
    cases h with
    | @constant m i b init brief hi hb =>
      refine ⟨_, ?_, .inl rfl⟩
      simp only [List.append_assoc, List.cons_append]
      unfold constantCell
      rw [bind_run _ (ident_self _ _ _)]
      obtain ⟨r, hr'⟩ := end_head hb rest
      refine (bind_run _ (initializer_run (.some hi) ⟨r, .inl hr'⟩ log)).trans ?_
      exact (bind_run _ (end_run' hb hr log)).trans rfl
  stop := by
    intro detailed rest hr log
    unfold constantCell
    exact bind_run _ (ident_miss hr.noTrail.1 hr.noIdent log)
  unlink := by intro h; cases h

theorem externalCell_run (exact : Bool) (n : Nat) : CellRun (O := O) c exact n .external externalCell where
  run := by
    intro lax detailed used d h hn rest hr log
    cases h with
    | @external m b brief hb =>
      refine ⟨_, ?_, .inl rfl⟩
      simp only [List.cons_append]
      unfold externalCell
      rw [bind_run _ (ident_self _ _ _)]
      exact (bind_run _ (end_run' hb hr log)).trans rfl
  stop := by
    intro detailed rest hr log
    unfold externalCell
    exact bind_run _ (ident_miss hr.noTrail.1 hr.noIdent log)
  unlink := by intro h; cases h

theorem namedDecl_stop {rest : List (Tok D)} (hr : StopCells rest) (log : List (Call D O)) :
    namedDecl c rest log = .ok none rest log := by
  unfold namedDecl
  exact bind_run _ (ident_miss hr.noTrail.1 hr.noIdent log)

theorem outputCell_run (exact : Bool) (n : Nat) : CellRun (O := O) c exact n .output (outputCell c) where
  run := by
    intro lax detailed used d h hn rest hr log
    cases h with
    | output h => exact ⟨_, (bind_run _ (namedDecl_run h hr log)).trans rfl, .inl rfl⟩
  stop := by
    intro detailed rest hr log
    exact bind_run _ (namedDecl_stop hr log)
  unlink := by intro h; cases h

theorem invariantCell_run (exact : Bool) (n : Nat) : CellRun (O := O) c exact n .invariant (invariantCell c) where
  run := by
    intro lax detailed used d h hn rest hr log
    cases h with
    | invariant h => exact ⟨_, (bind_run _ (namedDecl_run h hr log)).trans rfl, .inl rfl⟩
  stop := by
    intro detailed rest hr log
    exact bind_run _ (namedDecl_stop hr log)
  unlink := by intro h; cases h

theorem logicCell_run {exact : Bool} {reset : Rel D O → Rel D O} (hreset : ResetOk exact reset) (n : Nat) :
    CellRun c exact n .logic (logicCell c reset n) where
  run := by
    intro lax detailed used d h hn rest hr log
    cases h with
    | logic h => exact ⟨_, (bind_run _ (namedDecl_run h hr log)).trans rfl, .inl rfl⟩
    | @relate uc u1 u2 us ut cond d1 d2 ds brief hc h1 h2 hs ht =>
      simp only [List.length_append, List.length_cons] at hn
      have p1 := relateExpr_pos h1
      have p2 := relateExpr_pos h2
      have hclose : NoTrail (Tok.sym .closeBrace :: (ut ++ rest)) := by simp [NoTrail]
      obtain ⟨r1, a1, -, b1⟩ := relateExpr_run (c := c) h1 (relateExpr_head h2 (us ++ .sym .closeBrace :: (ut ++ rest))) (n := n) (by omega) (r := {}) log
      obtain ⟨r2, a2, -, b2⟩ := relateExpr_run (c := c) h2 (relateExprs_head hs hclose) (n := n) (by omega) (r := {}) log
      obtain ⟨rs, a3, hrs⟩ := relateLoop_run (c := c) hreset hs (ut ++ rest) log n (reset r1) (by omega) (hreset _).1 (hreset _).2
      refine ⟨_, ?_, reports_relate hrs⟩
      have hnone : namedDecl c (uc ++ .kw "relate".toList :: .sym .openBrace :: (u1 ++ u2 ++ us ++ .sym .closeBrace :: ut) ++ rest) log =
          .ok none (uc ++ .kw "relate".toList :: .sym .openBrace :: (u1 ++ u2 ++ us ++ .sym .closeBrace :: ut) ++ rest) log := by
        unfold namedDecl
        refine bind_run _ (ident_miss ?_ ?_ log) <;> cases hc with
          | none => simp
          | some hc => cases hc; simp
      refine (bind_run _ hnone).trans ?_
      have hrel : relateDecl c reset n (uc ++ .kw "relate".toList :: .sym .openBrace :: (u1 ++ u2 ++ us ++ .sym .closeBrace :: ut) ++ rest) log =
          .ok (some (codeOf c cond, relOf c d1 :: relOf c d2 :: rs, brief)) rest log := by
        unfold relateDecl
        simp only [List.append_assoc, List.cons_append]
        rw [bind_run _ (conditional_run hc ⟨_, rfl⟩ log)]
        refine (bind_run _ (kw_self _ _ _)).trans ?_
        refine (bind_run _ (need_self _ _ _)).trans ?_
        refine (bind_run _ a1).trans ?_
        refine (bind_run _ a2).trans ?_
        refine (bind_run _ a3).trans ?_
        refine (bind_run _ (need_self _ _ _)).trans ?_
        refine (bind_run _ (trail_run' ht hr log)).trans ?_
        rw [b1 rfl, b2 rfl, getD_code]
        rfl
      exact (bind_run _ hrel).trans rfl
  stop := by
    intro detailed rest hr log
    refine (bind_run _ (namedDecl_stop hr log)).trans ?_
    have : relateDecl c reset n rest log = .ok none rest log := by
      unfold relateDecl
      have hc : conditional c rest log = .ok none rest log := by
        unfold conditional
        exact bind_run _ (kw_miss hr.noTrail.1 (hr.noKw (by simp)) log)
      rw [bind_run _ hc]
      exact bind_run _ (kw_miss hr.noTrail.1 (hr.noKw (by simp)) log)
    exact bind_run _ this
  unlink := by intro h; cases h

theorem cell_noLead {lax detailed sec} {used : List (Tok D)} {d : Decl D O} (h : Cell lax detailed sec used d) (rest : List (Tok D)) :
    (used ++ rest).head? ≠ some .bad ∧ (∀ s, (used ++ rest).head? ≠ some (.leadComment s)) ∧
      ∀ s, (used ++ rest).head? ≠ some (.trailComment s) := by
  cases h with
  | output h => cases h; simp
  | logic h => cases h; simp
  | invariant h => cases h; simp
  | interface _ hu => cases hu <;> simp
  | input => simp
  | constant => simp
  | relate hc =>
    cases hc with
    | none => simp
    | some hc => cases hc; simp
  | external => simp

theorem cells_head {lax sec} {used : List (Tok D)} {ds : List (Decl D O)} (h : Cells lax sec used ds) {rest : List (Tok D)}
    (hr : NoTrail rest) : NoTrail (used ++ rest) := by
  cases h with
  | nil => exact hr
  | cons hl hc _ =>
    cases hl with
    | none =>
      simp only [List.nil_append, List.append_assoc]
      exact ⟨(cell_noLead hc _).1, (cell_noLead hc _).2.2⟩
    | some => simp [NoTrail]
  | dangling => simp [NoTrail]
  | danglingUnlink _ _ hl => cases hl <;> simp [NoTrail]

theorem cells_run {exact : Bool} {sec : Section} {item : Str → A D O Bool} {N : Nat} (hi : CellRun c exact N sec item) {lax : Bool}
    {used : List (Tok D)} {ds : List (Decl D O)} (h : Cells lax sec used ds) {rest : List (Tok D)} (hr : StopCells rest) :
    ∀ (n : Nat) log, used.length < n → used.length < N → ∃ calls, loop n (do
      let detailed ← lead []
      item detailed) (used ++ rest) log = .ok () rest (log ++ calls) ∧ Calls c exact calls ds := by
  induction h with
  | nil =>
    intro n log hn hN
    obtain ⟨n, rfl⟩ : ∃ k, n = k + 1 := ⟨n - 1, by omega⟩
    refine ⟨[], ?_, .nil⟩
    unfold loop
    simp only [List.nil_append, List.append_nil]
    refine (bind_run _ ((bind_run _ (lead_miss hr.noTrail.1 hr.noLead _ log)).trans (hi.stop _ hr log))).trans rfl
  | dangling s =>
    intro n log hn hN
    obtain ⟨n, rfl⟩ : ∃ k, n = k + 1 := ⟨n - 1, by omega⟩
    refine ⟨[], ?_, .nil⟩
    unfold loop
    simp only [List.cons_append, List.nil_append, List.append_nil]
    refine (bind_run _ ((bind_run _ (lead_self _ _ _ log)).trans (hi.stop _ hr log))).trans rfl
  | danglingUnlink _ hs hl =>
    intro n log hn hN
    obtain ⟨n, rfl⟩ : ∃ k, n = k + 1 := ⟨n - 1, by omega⟩
    refine ⟨[], ?_, .nil⟩
    unfold loop
    simp only [List.append_assoc, List.cons_append, List.nil_append, List.append_nil]
    refine (bind_run _ ((bind_run _ (lead_run' hl (by simp) (by simp) log)).trans (hi.unlink hs _ hr log))).trans rfl
  | cons hl hc hcs ih =>
    intro n log hn hN
    obtain ⟨n, rfl⟩ : ∃ k, n = k + 1 := ⟨n - 1, by omega⟩
    have hp := cell_pos hc
    simp only [List.length_append] at hn hN
    obtain ⟨call, h1, h2⟩ := hi.run hc (by omega) (cells_head hcs hr.noTrail) log
    obtain ⟨calls, h3, h4⟩ := ih n (log ++ [call]) (by omega) (by omega)
    refine ⟨call :: calls, ?_, .cons h2 h4⟩
    unfold loop
    simp only [List.append_assoc]
    refine (bind_run _ ((bind_run _ (lead_run' hl (cell_noLead hc _).1 (cell_noLead hc _).2.1 log)).trans h1)).trans ?_
    refine Eq.trans h3 ?_
    simp

theorem setDecl_run {exact : Bool} {sec : Section} {item : Str → A D O Bool} {n : Nat} (hi : CellRun c exact n sec item) {lax : Bool}
    {used : List (Tok D)} {ds : List (Decl D O)} (h : Cells lax sec used ds) {rest : List (Tok D)} (hr : StopCells rest) (hn : used.length < n)
    (k : Str) (log : List (Call D O)) :
    ∃ calls, setDecl n k item (.kw k :: .sym .colon :: (used ++ rest)) log = .ok true rest (log ++ calls) ∧ Calls c exact calls ds := by
  obtain ⟨calls, h1, h2⟩ := cells_run hi h hr n log hn hn
  refine ⟨calls, ?_, h2⟩
  unfold setDecl
  rw [bind_run _ (kw_self _ _ _)]
  refine (bind_run _ (need_self _ _ _)).trans ?_
  exact bind_run _ h1

theorem setDecl_miss {item : Str → A D O Bool} {n : Nat} {k : Str} {ts : List (Tok D)} (hb : ts.head? ≠ some .bad)
    (h : ts.head? ≠ some (.kw k)) (log : List (Call D O)) : setDecl n k item ts log = .ok false ts log := by
  unfold setDecl
  exact bind_run _ (kw_miss hb h log)

/-- What a function for sections does on a section, and where there is none. -/
structure SectionRun (c : Nat → D) (exact : Bool) (ok : Section → Prop) (n : Nat) (x : A D O Bool) : Prop where
  run : ∀ {lax : Bool} {sec : Section} {used : List (Tok D)} {ds : List (Decl D O)}, ok sec → Cells lax sec used ds → used.length < n →
    ∀ {rest : List (Tok D)}, StopCells rest → ∀ log, ∃ calls,
      x (.kw sec.keyword :: .sym .colon :: (used ++ rest)) log = .ok true rest (log ++ calls) ∧ Calls c exact calls ds
  stop : ∀ {ts : List (Tok D)}, ts.head? ≠ some .bad → (∀ sec : Section, ok sec → ts.head? ≠ some (.kw sec.keyword)) →
    ∀ log, x ts log = .ok false ts log

theorem anyOf_hit {x : A D O Bool} {xs : List (A D O Bool)} {ts log t l} (h : x ts log = .ok true t l) :
    anyOf (x :: xs) ts log = .ok true t l := by
  unfold anyOf; rw [bind_run _ h]; rfl
theorem anyOf_next {x : A D O Bool} {xs : List (A D O Bool)} {ts log} (h : x ts log = .ok false ts log) :
    anyOf (x :: xs) ts log = anyOf xs ts log := by
  conv_lhs => unfold anyOf
  rw [bind_run _ h]; rfl

theorem adamSection_run (n : Nat) : SectionRun (O := O) c true (fun _ => True) n (adamSection c n) where
  run := by
    intro lax sec used ds _ h hn rest hr log
    have miss : ∀ {item : Str → A D O Bool} {k : Str}, k ≠ sec.keyword →
        setDecl n k item (.kw sec.keyword :: .sym .colon :: (used ++ rest)) log = .ok false (.kw sec.keyword :: .sym .colon :: (used ++ rest)) log :=
      fun hk => setDecl_miss (by simp) (by simp; exact fun h => hk h.symm) log
    unfold adamSection
    cases sec with
    | interface =>
      obtain ⟨calls, h1, h2⟩ := setDecl_run (interfaceCell_run true n) h hr hn "interface".toList log
      exact ⟨calls, anyOf_hit h1, h2⟩
    | input =>
      obtain ⟨calls, h1, h2⟩ := setDecl_run (inputCell_run true n) h hr hn "input".toList log
      refine ⟨calls, ?_, h2⟩
      iterate 1 rw [anyOf_next (miss (by decide))]
      exact anyOf_hit h1
    | output =>
      obtain ⟨calls, h1, h2⟩ := setDecl_run (outputCell_run true n) h hr hn "output".toList log
      refine ⟨calls, ?_, h2⟩
      iterate 2 rw [anyOf_next (miss (by decide))]
      exact anyOf_hit h1
    | constant =>
      obtain ⟨calls, h1, h2⟩ := setDecl_run (constantCell_run true n) h hr hn "constant".toList log
      refine ⟨calls, ?_, h2⟩
      iterate 3 rw [anyOf_next (miss (by decide))]
      exact anyOf_hit h1
    | logic =>
      obtain ⟨calls, h1, h2⟩ := setDecl_run (logicCell_run adamReset_ok n) h hr hn "logic".toList log
      refine ⟨calls, ?_, h2⟩
      iterate 4 rw [anyOf_next (miss (by decide))]
      exact anyOf_hit h1
    | invariant =>
      obtain ⟨calls, h1, h2⟩ := setDecl_run (invariantCell_run true n) h hr hn "invariant".toList log
      refine ⟨calls, ?_, h2⟩
      iterate 5 rw [anyOf_next (miss (by decide))]
      exact anyOf_hit h1
    | external =>
      obtain ⟨calls, h1, h2⟩ := setDecl_run (externalCell_run (c := c) true n) h hr hn "external".toList log
      refine ⟨calls, ?_, h2⟩
      iterate 6 rw [anyOf_next (miss (by decide))]
      exact anyOf_hit h1
  stop := by
    intro ts hb hs log
    unfold adamSection
    refine (anyOf_next (setDecl_miss hb (hs .interface trivial) log)).trans ?_
    refine (anyOf_next (setDecl_miss hb (hs .input trivial) log)).trans ?_
    refine (anyOf_next (setDecl_miss hb (hs .output trivial) log)).trans ?_
    refine (anyOf_next (setDecl_miss hb (hs .constant trivial) log)).trans ?_
    refine (anyOf_next (setDecl_miss hb (hs .logic trivial) log)).trans ?_
    refine (anyOf_next (setDecl_miss hb (hs .invariant trivial) log)).trans ?_
    refine (anyOf_next (setDecl_miss hb (hs .external trivial) log)).trans ?_
    rfl

theorem eveSection_run (n : Nat) : SectionRun (O := O) c false InLayout n (eveSection c n) where
  run := by
    intro lax sec used ds hok h hn rest hr log
    have miss : ∀ {item : Str → A D O Bool} {k : Str}, k ≠ sec.keyword →
        setDecl n k item (.kw sec.keyword :: .sym .colon :: (used ++ rest)) log = .ok false (.kw sec.keyword :: .sym .colon :: (used ++ rest)) log :=
      fun hk => setDecl_miss (by simp) (by simp; exact fun h => hk h.symm) log
    unfold eveSection
    rcases hok with rfl | rfl | rfl
    · obtain ⟨calls, h1, h2⟩ := setDecl_run (interfaceCell_run false n) h hr hn "interface".toList log
      exact ⟨calls, anyOf_hit h1, h2⟩
    · obtain ⟨calls, h1, h2⟩ := setDecl_run (constantCell_run false n) h hr hn "constant".toList log
      refine ⟨calls, ?_, h2⟩
      iterate 1 rw [anyOf_next (miss (by decide))]
      exact anyOf_hit h1
    · obtain ⟨calls, h1, h2⟩ := setDecl_run (logicCell_run eveReset_ok n) h hr hn "logic".toList log
      refine ⟨calls, ?_, h2⟩
      iterate 2 rw [anyOf_next (miss (by decide))]
      exact anyOf_hit h1
  stop := by
    intro ts hb hs log
    unfold eveSection
    refine (anyOf_next (setDecl_miss hb (hs .interface (.inl rfl)) log)).trans ?_
    refine (anyOf_next (setDecl_miss hb (hs .constant (.inr (.inl rfl))) log)).trans ?_
    refine (anyOf_next (setDecl_miss hb (hs .logic (.inr (.inr rfl))) log)).trans ?_
    rfl

theorem sections_stop {lax ok} {used : List (Tok D)} {ds : List (Decl D O)} (h : Sections lax ok used ds) {rest : List (Tok D)}
    (hr : StopCells rest) : StopCells (used ++ rest) := by
  cases h with
  | nil => exact hr
  | @cons sec ts us ds es hok _ _ => exact ⟨_, .inr ⟨sec.keyword, rfl, by cases sec <;> decide⟩⟩

theorem sections_run {exact : Bool} {ok : Section → Prop} {N : Nat} {x : A D O Bool} (hx : SectionRun c exact ok N x) {lax : Bool}
    {used : List (Tok D)} {ds : List (Decl D O)} (h : Sections lax ok used ds) {rest : List (Tok D)} (hr : StopCells rest)
    (hs : ∀ sec : Section, ok sec → rest.head? ≠ some (.kw sec.keyword)) :
    ∀ (n : Nat) log, used.length < n → used.length < N → ∃ calls, loop n x (used ++ rest) log = .ok () rest (log ++ calls) ∧
      Calls c exact calls ds := by
  induction h with
  | nil =>
    intro n log hn hN
    obtain ⟨n, rfl⟩ : ∃ k, n = k + 1 := ⟨n - 1, by omega⟩
    refine ⟨[], ?_, .nil⟩
    unfold loop
    simp only [List.nil_append, List.append_nil]
    exact (bind_run _ (hx.stop hr.noTrail.1 hs log)).trans rfl
  | cons hok hc hcs ih =>
    intro n log hn hN
    obtain ⟨n, rfl⟩ : ∃ k, n = k + 1 := ⟨n - 1, by omega⟩
    simp only [List.length_cons, List.length_append] at hn hN
    obtain ⟨calls, h1, h2⟩ := hx.run hok hc (by omega) (sections_stop hcs hr) log
    obtain ⟨calls', h3, h4⟩ := ih n (log ++ calls) (by omega) (by omega)
    refine ⟨calls ++ calls', ?_, List.rel_append h2 h4⟩
    unfold loop
    simp only [List.cons_append, List.append_assoc]
    refine (bind_run _ h1).trans ?_
    refine Eq.trans h3 ?_
    simp

theorem sheets_head {lax} {ts : List (Tok D)} {ds : List (Decl D O)} (h : Sheets lax ts ds) : NoTrail ts := by
  cases h with
  | nil => simp [NoTrail]
  | dangling => simp [NoTrail]
  | cons _ hl _ _ _ => cases hl <;> simp [NoTrail]

theorem sheets_run {lax : Bool} {ts : List (Tok D)} {ds : List (Decl D O)} (h : Sheets lax ts ds) :
    ∀ (n N : Nat) (log : List (Call D O)), ts.length < n → ts.length < N →
      loop n (sheetSpecifier c N) ts log = .ok () [] (log ++ ds.map (report c)) := by
  induction h with
  | nil =>
    intro n N log hn hN
    obtain ⟨n, rfl⟩ : ∃ k, n = k + 1 := ⟨n - 1, by omega⟩
    unfold loop
    simp only [List.map_nil, List.append_nil]
    have : sheetSpecifier c N [] log = .ok false [] log := rfl
    exact (bind_run _ this).trans rfl
  | dangling s =>
    intro n N log hn hN
    obtain ⟨n, rfl⟩ : ∃ k, n = k + 1 := ⟨n - 1, by omega⟩
    unfold loop
    simp only [List.map_nil, List.append_nil]
    have : sheetSpecifier c N [.leadComment s] log = .ok false [] log := rfl
    exact (bind_run _ this).trans rfl
  | @cons m l ts t us s s' ds es hl hs ht hus ih =>
    intro n N log hn hN
    obtain ⟨n, rfl⟩ : ∃ k, n = k + 1 := ⟨n - 1, by omega⟩
    simp only [List.length_cons, List.length_append] at hn hN
    obtain ⟨calls, h1, h2⟩ := sections_run (adamSection_run (c := c) N) hs (rest := .sym .closeBrace :: (t ++ us)) ⟨_, .inl rfl⟩
      (by simp) N log (by omega) (by omega)
    unfold loop
    have : sheetSpecifier c N (l ++ .kw "sheet".toList :: .ident m :: .sym .openBrace :: (ts ++ .sym .closeBrace :: (t ++ us))) log =
        .ok true us (log ++ calls) := by
      unfold sheetSpecifier
      rw [bind_run _ (lead_run' hl (by simp) (by simp) log)]
      refine (bind_run _ (kw_self _ _ _)).trans ?_
      refine (bind_run _ (ident_self _ _ _)).trans ?_
      refine (bind_run _ (need_self _ _ _)).trans ?_
      refine (bind_run _ h1).trans ?_
      refine (bind_run _ (need_self _ _ _)).trans ?_
      exact (bind_run _ (trail_run' ht (sheets_head hus) _)).trans rfl
    refine (bind_run _ this).trans ?_
    refine (ih n N _ (by omega) (by omega)).trans ?_
    rw [calls_exact h2]
    simp

theorem adamParse_run {lax : Bool} {ts : List (Tok D)} {ds : List (Decl D O)} (h : Sheets lax ts ds) (log : List (Call D O)) :
    adamParse c ts log = .ok () [] (log ++ ds.map (report c)) :=
  (bind_run _ (sheets_run h _ _ _ (by omega) (by omega))).trans rfl

end Verif.Decl
