import Verif.Decl.Lemmas
/-
Soundness: what the functions of the parsers accept are phrases of the (lax) grammar, and the client is told what they denote.
-/
namespace Verif.Decl
open Verif.Expr Parser Verif.Decl.Spec

variable {D O α β : Type} {c : Nat → D}

theorem initializer_ok {ts log r ts' log'} (h : initializer (O := O) c ts log = .ok r ts' log') :
    log' = log ∧ ∃ used e, ts = used ++ ts' ∧ Opt Init used e ∧ r = e.map (compile c) := by
  refine ⟨Quiet.initializer.log h, ?_⟩
  obtain ⟨a, t1, l1, h1, h2⟩ := bind_ok h
  obtain ⟨rfl, ⟨rfl, rfl⟩ | ⟨rfl, rfl⟩⟩ := tok_ok h1
  · obtain ⟨a, t2, l2, h3, h4⟩ := bind_ok h2
    obtain ⟨-, used, e, rfl, hd, rfl⟩ := needExpr_ok h3
    cases h4
    exact ⟨.sym .colon :: used, some e, rfl, .some (.mk hd), rfl⟩
  · cases h2
    exact ⟨[], none, rfl, .none, rfl⟩

theorem defineExpr_ok {ts log r ts' log'} (h : defineExpr (O := O) c ts log = .ok r ts' log') :
    log' = log ∧ ∃ used e, ts = used ++ ts' ∧ Opt Define used e ∧ r = e.map (compile c) := by
  refine ⟨Quiet.defineExpr.log h, ?_⟩
  obtain ⟨a, t1, l1, h1, h2⟩ := bind_ok h
  obtain ⟨rfl, ⟨rfl, rfl⟩ | ⟨rfl, rfl⟩⟩ := tok_ok h1
  · obtain ⟨a, t2, l2, h3, h4⟩ := bind_ok h2
    obtain ⟨-, used, e, rfl, hd, rfl⟩ := needExpr_ok h3
    cases h4
    exact ⟨.sym .is :: used, some e, rfl, .some (.mk hd), rfl⟩
  · cases h2
    exact ⟨[], none, rfl, .none, rfl⟩

theorem conditional_ok {ts log r ts' log'} (h : conditional (O := O) c ts log = .ok r ts' log') :
    log' = log ∧ ∃ used e, ts = used ++ ts' ∧ Opt Cond used e ∧ r = e.map (compile c) := by
  refine ⟨Quiet.conditional.log h, ?_⟩
  obtain ⟨a, t1, l1, h1, h2⟩ := bind_ok h
  obtain ⟨rfl, ⟨rfl, rfl⟩ | ⟨rfl, rfl⟩⟩ := kw_ok h1
  · obtain ⟨_, t2, l2, h3, h4⟩ := bind_ok h2
    obtain ⟨rfl, rfl⟩ := need_ok h3
    obtain ⟨a, t3, l3, h5, h6⟩ := bind_ok h4
    obtain ⟨rfl, used, e, rfl, hd, rfl⟩ := needExpr_ok h5
    obtain ⟨_, t4, l4, h7, h8⟩ := bind_ok h6
    obtain ⟨rfl, rfl⟩ := need_ok h7
    cases h8
    exact ⟨.kw _ :: .sym .openParen :: (used ++ [.sym .closeParen]), some e, by simp, .some (.mk hd), rfl⟩
  · cases h2
    exact ⟨[], none, rfl, .none, rfl⟩

theorem end_ok {old : Str} {ts log s ts' log'} (h : endStatement (D := D) (O := O) old ts log = .ok s ts' log') :
    log' = log ∧ ∃ used b, ts = used ++ ts' ∧ End used b ∧ (s = b ∨ b = [] ∧ s = old) := by
  refine ⟨(Quiet.endStatement _).log h, ?_⟩
  obtain ⟨a, t1, l1, h1, h2⟩ := bind_ok h
  obtain ⟨rfl, rfl⟩ := need_ok h1
  obtain ⟨-, rfl | ⟨rfl, rfl⟩⟩ := trail_ok h2
  · exact ⟨[.sym .semicolon, .trailComment s], s, rfl, .mk (.some s), .inl rfl⟩
  · exact ⟨[.sym .semicolon], [], rfl, .mk .none, .inr ⟨rfl, rfl⟩⟩

theorem lead_ok' {old : Str} {ts log s ts' log'} (h : lead (D := D) (O := O) old ts log = .ok s ts' log') :
    log' = log ∧ ∃ used b, ts = used ++ ts' ∧ Lead used b ∧ (s = b ∨ b = [] ∧ s = old) := by
  obtain ⟨rfl, rfl | ⟨rfl, rfl⟩⟩ := lead_ok h
  · exact ⟨rfl, [.leadComment s], s, rfl, .some s, .inl rfl⟩
  · exact ⟨rfl, [], [], rfl, .none, .inr ⟨rfl, rfl⟩⟩

theorem trail_ok' {old : Str} {ts log s ts' log'} (h : trail (D := D) (O := O) old ts log = .ok s ts' log') :
    log' = log ∧ ∃ used b, ts = used ++ ts' ∧ Trail used b ∧ (s = b ∨ b = [] ∧ s = old) := by
  obtain ⟨rfl, rfl | ⟨rfl, rfl⟩⟩ := trail_ok h
  · exact ⟨rfl, [.trailComment s], s, rfl, .some s, .inl rfl⟩
  · exact ⟨rfl, [], [], rfl, .none, .inr ⟨rfl, rfl⟩⟩

theorem namedDecl_ok {ts log r ts' log'} (h : namedDecl (O := O) c ts log = .ok r ts' log') :
    log' = log ∧ ((r = none ∧ ts' = ts) ∨ ∃ used n e b, ts = used ++ ts' ∧ Named used n e b ∧ r = some (n, compile c e, b)) := by
  refine ⟨Quiet.namedDecl.log h, ?_⟩
  obtain ⟨a, t1, l1, h1, h2⟩ := bind_ok h
  obtain ⟨rfl, ⟨n, rfl, rfl⟩ | ⟨rfl, rfl⟩⟩ := ident_ok h1
  · obtain ⟨_, t2, l2, h3, h4⟩ := bind_ok h2
    obtain ⟨rfl, used, e, rfl, hd, rfl⟩ := defineExpr_ok h3
    cases hd with
    | none => cases h4
    | some hd =>
      rename_i e
      obtain ⟨b, t3, l3, h5, h6⟩ := bind_ok h4
      obtain ⟨rfl, used', b', rfl, hb, hs⟩ := end_ok h5
      have : b = b' := by grind
      subst this
      cases h6
      exact .inr ⟨.ident n :: (used ++ used'), n, e, b, by simp, .mk n hd hb, rfl⟩
  · cases h2
    exact .inl ⟨rfl, rfl⟩

theorem moreNames_ok (n : Nat) : ∀ {ns : List Str} {ts : List (Tok D)} {log : List (Call D O)} {r ts' log'},
    moreNames n ns ts log = .ok r ts' log' →
      log' = log ∧ ∃ used ms, ts = used ++ ts' ∧ r = ns ++ ms ∧ ∀ m, Names (.ident m :: used) (m :: ms) := by
  induction n with
  | zero => intro ns ts log r ts' log' h; cases h
  | succ n ih =>
    intro ns ts log r ts' log' h
    obtain ⟨a, t1, l1, h1, h2⟩ := bind_ok h
    obtain ⟨rfl, ⟨rfl, rfl⟩ | ⟨rfl, rfl⟩⟩ := tok_ok h1
    · obtain ⟨a, t2, l2, h3, h4⟩ := bind_ok h2
      obtain ⟨rfl, ⟨m, rfl, rfl⟩ | ⟨rfl, rfl⟩⟩ := ident_ok h3
      · obtain ⟨rfl, used, ms, rfl, rfl, hm⟩ := ih h4
        exact ⟨rfl, .sym .comma :: .ident m :: used, m :: ms, rfl, by simp, fun k => .more k (hm m)⟩
      · cases h4
    · cases h2
      exact ⟨rfl, [], [], rfl, by simp, fun m => .one m⟩

theorem relateExpr_ok {n : Nat} {r : Rel D O} {ts log x ts' log'} (h : relateExpr c n r ts log = .ok x ts' log') :
    log' = log ∧ ((x = none ∧ (ts' = ts ∨ ∃ s, ts = .leadComment s :: ts')) ∨
      ∃ r' used d, x = some r' ∧ ts = used ++ ts' ∧ RelateExpr used d ∧ (r.code = [] → RelWeak c r' d) ∧ (r = {} → r' = relOf c d)) := by
  refine ⟨(Quiet.relateExpr _ _).log h, ?_⟩
  obtain ⟨det, t1, l1, h1, h2⟩ := bind_ok h
  obtain ⟨rfl, ul, b, rfl, hl, hdet⟩ := lead_ok' h1
  obtain ⟨a, t2, l2, h3, h4⟩ := bind_ok h2
  obtain ⟨rfl, ⟨m, rfl, rfl⟩ | ⟨rfl, rfl⟩⟩ := ident_ok h3
  · obtain ⟨names, t3, l3, h5, h6⟩ := bind_ok h4
    obtain ⟨rfl, un, ms, rfl, rfl, hm⟩ := moreNames_ok n h5
    obtain ⟨_, t4, l4, h7, h8⟩ := bind_ok h6
    obtain ⟨rfl, ud, e, rfl, hd, rfl⟩ := defineExpr_ok h7
    cases hd with
    | none => cases h8
    | some hd =>
      rename_i e
      obtain ⟨br, t5, l5, h9, h10⟩ := bind_ok h8
      obtain ⟨rfl, ub, b', rfl, hb, hs⟩ := end_ok h9
      cases h10
      refine .inr ⟨_, _, _, rfl, ?_, .mk hl (hm m) hd hb, ?_, ?_⟩
      · simp
      · intro hr
        refine ⟨by simp [hr], ⟨r.names, by simp⟩, ?_, ?_⟩
        · intro hne
          grind
        · intro hne
          grind
      · rintro rfl
        simp only [relOf, List.nil_append]
        congr 1
        · simp only at hdet; grind
        · simp only at hs; grind
  · cases h4
    refine .inl ⟨rfl, ?_⟩
    cases hl with
    | none => exact .inl rfl
    | some s => exact .inr ⟨_, rfl⟩

/-- What a parser does between the relate expressions: it clears the code, and if `exact` everything. -/
def ResetOk (exact : Bool) (reset : Rel D O → Rel D O) : Prop := ∀ r, (reset r).code = [] ∧ (exact = true → reset r = {})

theorem adamReset_ok : ResetOk (D := D) (O := O) true adamReset := fun _ => ⟨rfl, fun _ => rfl⟩
theorem eveReset_ok : ResetOk (D := D) (O := O) false eveReset := fun _ => ⟨rfl, fun h => by cases h⟩

/-- The third relate expression and those which follow are reported rightly. -/
def RelsOk (c : Nat → D) (exact : Bool) (rs : List (Rel D O)) (ds : List (RelDecl D O)) : Prop :=
  List.Forall₂ (RelWeak c) rs ds ∧ (exact = true → rs = ds.map (relOf c))

theorem relateLoop_ok {exact : Bool} {reset : Rel D O → Rel D O} (hr : ResetOk exact reset) (n : Nat) :
    ∀ {r : Rel D O} {ts log rs ts' log'}, r.code = [] → (exact = true → r = {}) → relateLoop c reset n r ts log = .ok rs ts' log' →
      log' = log ∧ ∃ used ds, ts = used ++ ts' ∧ RelateExprs true used ds ∧ RelsOk c exact rs ds := by
  induction n with
  | zero => intro r ts log rs ts' log' _ _ h; cases h
  | succ n ih =>
    intro r ts log rs ts' log' hcode hex h
    obtain ⟨x, t1, l1, h1, h2⟩ := bind_ok h
    obtain ⟨rfl, ⟨rfl, hx⟩ | ⟨r', used, d, rfl, rfl, hd, hw, he⟩⟩ := relateExpr_ok h1
    · cases h2
      rcases hx with rfl | ⟨s, rfl⟩
      · exact ⟨rfl, [], [], rfl, .nil, .nil, fun _ => rfl⟩
      · exact ⟨rfl, [_], [], rfl, .dangling s rfl, .nil, fun _ => rfl⟩
    · obtain ⟨rs', t2, l2, h3, h4⟩ := bind_ok h2
      obtain ⟨rfl, used', ds, rfl, hds, hf, hfe⟩ := ih (hr r').1 (hr r').2 h3
      cases h4
      refine ⟨rfl, used ++ used', d :: ds, by simp, .cons hd hds, .cons (hw hcode) hf, fun h => ?_⟩
      rw [hfe h, he (hex h)]; rfl

theorem relateDecl_ok {exact : Bool} {reset : Rel D O → Rel D O} (hr : ResetOk exact reset) {n : Nat} {ts log x ts' log'}
    (h : relateDecl c reset n ts log = .ok x ts' log') :
    log' = log ∧ ((x = none ∧ ts' = ts) ∨ ∃ used uc cond u1 d1 u2 d2 us ds rs ut b, x = some (codeOf c cond, relOf c d1 :: relOf c d2 :: rs, b) ∧
      ts = used ++ ts' ∧ used = uc ++ .kw "relate".toList :: .sym .openBrace :: (u1 ++ u2 ++ us ++ .sym .closeBrace :: ut) ∧
      Opt Cond uc cond ∧ RelateExpr u1 d1 ∧ RelateExpr u2 d2 ∧ RelateExprs true us ds ∧ Trail ut b ∧ RelsOk c exact rs ds) := by
  refine ⟨(Quiet.relateDecl _ _).log h, ?_⟩
  obtain ⟨cond, t1, l1, h1, h2⟩ := bind_ok h
  obtain ⟨rfl, uc, e, rfl, hc, rfl⟩ := conditional_ok h1
  obtain ⟨b, t2, l2, h3, h4⟩ := bind_ok h2
  obtain ⟨rfl, ⟨rfl, rfl⟩ | ⟨rfl, rfl⟩⟩ := kw_ok h3
  · obtain ⟨_, t3, l3, h5, h6⟩ := bind_ok h4
    obtain ⟨rfl, rfl⟩ := need_ok h5
    obtain ⟨x1, t4, l4, h7, h8⟩ := bind_ok h6
    obtain ⟨rfl, ⟨rfl, hx⟩ | ⟨r1, u1, d1, rfl, rfl, hd1, hw1, he1⟩⟩ := relateExpr_ok h7
    · cases h8
    · obtain ⟨x2, t5, l5, h9, h10⟩ := bind_ok h8
      obtain ⟨rfl, ⟨rfl, hx⟩ | ⟨r2, u2, d2, rfl, rfl, hd2, hw2, he2⟩⟩ := relateExpr_ok h9
      · cases h10
      · obtain ⟨rs, t6, l6, h11, h12⟩ := bind_ok h10
        obtain ⟨rfl, us, ds, rfl, hds, hrs⟩ := relateLoop_ok hr n (hr r1).1 (hr r1).2 h11
        obtain ⟨_, t7, l7, h13, h14⟩ := bind_ok h12
        obtain ⟨rfl, rfl⟩ := need_ok h13
        obtain ⟨br, t8, l8, h15, h16⟩ := bind_ok h14
        obtain ⟨rfl, ut, b, rfl, hb, hs⟩ := trail_ok' h15
        have : br = b := by grind
        subst this
        rw [he1 rfl, he2 rfl] at h16
        cases h16
        refine .inr ⟨_, uc, e, u1, d1, u2, d2, us, ds, rs, ut, br, ?_, ?_, rfl, hc, hd1, hd2, hds, hb, hrs⟩
        · cases e <;> rfl
        · simp
  · cases hc with
    | none => cases h4; exact .inl ⟨rfl, rfl⟩
    | some hc => cases h4

/-- What a function for the declarations of a section does. -/
def CellOk (c : Nat → D) (exact : Bool) (sec : Section) (x : Str → A D O Bool) : Prop :=
  ∀ detailed ts log b ts' log', x detailed ts log = .ok b ts' log' →
    (b = true ∧ ∃ used d call, ts = used ++ ts' ∧ Cell true detailed sec used d ∧ log' = log ++ [call] ∧ Reports c exact call d) ∨
    (b = false ∧ log' = log ∧ (ts' = ts ∨ sec = .interface ∧ ts = .kw "unlink".toList :: ts'))

theorem interfaceCell_ok (exact : Bool) : CellOk (O := O) c exact .interface (interfaceCell c) := by
  intro detailed ts log b ts' log' h
  obtain ⟨u, t1, l1, h1, h2⟩ := bind_ok h
  obtain ⟨rfl, hu⟩ := kw_ok h1
  obtain ⟨a, t2, l2, h3, h4⟩ := bind_ok h2
  obtain ⟨rfl, ⟨m, rfl, rfl⟩ | ⟨rfl, rfl⟩⟩ := ident_ok h3
  · obtain ⟨a, t3, l3, h5, h6⟩ := bind_ok h4
    obtain ⟨rfl, ui, e, rfl, hi, rfl⟩ := initializer_ok h5
    obtain ⟨a, t4, l4, h7, h8⟩ := bind_ok h6
    obtain ⟨rfl, ud, e', rfl, hd, rfl⟩ := defineExpr_ok h7
    obtain ⟨br, t5, l5, h9, h10⟩ := bind_ok h8
    obtain ⟨rfl, ub, b', rfl, hb, hs⟩ := end_ok h9
    have : br = b' := by grind
    subst this
    cases h10
    left
    have hcode : ∀ e : Option (Expr.Spec.Expr D O), (e.map (compile c)).getD [] = codeOf c e := by intro e; cases e <;> rfl
    rw [hcode, hcode]
    obtain ⟨rfl, rfl⟩ | ⟨rfl, rfl⟩ := hu
    · exact ⟨rfl, _, _, _, by simp, .interface m .unlinked hi hd hb, rfl, .inl rfl⟩
    · exact ⟨rfl, _, _, _, by simp, .interface m .linked hi hd hb, rfl, .inl rfl⟩
  · cases h4
    right
    obtain ⟨rfl, rfl⟩ | ⟨rfl, rfl⟩ := hu
    · exact ⟨rfl, rfl, .inr ⟨rfl, rfl⟩⟩
    · exact ⟨rfl, rfl, .inl rfl⟩

theorem inputCell_ok (exact : Bool) : CellOk (O := O) c exact .input (inputCell c) := by
  intro detailed ts log b ts' log' h
  obtain ⟨a, t2, l2, h3, h4⟩ := bind_ok h
  obtain ⟨rfl, ⟨m, rfl, rfl⟩ | ⟨rfl, rfl⟩⟩ := ident_ok h3
  · obtain ⟨a, t3, l3, h5, h6⟩ := bind_ok h4
    obtain ⟨rfl, ui, e, rfl, hi, rfl⟩ := initializer_ok h5
    obtain ⟨br, t5, l5, h9, h10⟩ := bind_ok h6
    obtain ⟨rfl, ub, b', rfl, hb, hs⟩ := end_ok h9
    have : br = b' := by grind
    subst this
    cases h10
    left
    have hcode : ∀ e : Option (Expr.Spec.Expr D O), (e.map (compile c)).getD [] = codeOf c e := by intro e; cases e <;> rfl
    rw [hcode]
    exact ⟨rfl, _, _, _, by simp, .input m hi hb, rfl, .inl rfl⟩
  · cases h4
    exact .inr ⟨rfl, rfl, .inl rfl⟩

theorem constantCell_ok (exact : Bool) : CellOk (O := O) c exact .constant (constantCell c) := by
  intro detailed ts log b ts' log' h
  obtain ⟨a, t2, l2, h3, h4⟩ := bind_ok h
  obtain ⟨rfl, ⟨m, rfl, rfl⟩ | ⟨rfl, rfl⟩⟩ := ident_ok h3
  · obtain ⟨a, t3, l3, h5, h6⟩ := bind_ok h4
    obtain ⟨rfl, ui, e, rfl, hi, rfl⟩ := initializer_ok h5
    cases hi with
    | none => cases h6
    | some hi =>
      obtain ⟨br, t5, l5, h9, h10⟩ := bind_ok h6
      obtain ⟨rfl, ub, b', rfl, hb, hs⟩ := end_ok h9
      have : br = b' := by grind
      subst this
      cases h10
      left
      exact ⟨rfl, _, _, _, by simp, .constant m hi hb, rfl, .inl rfl⟩
  · cases h4
    exact .inr ⟨rfl, rfl, .inl rfl⟩

theorem externalCell_ok (exact : Bool) : CellOk (O := O) c exact .external externalCell := by
  intro detailed ts log b ts' log' h
  obtain ⟨a, t2, l2, h3, h4⟩ := bind_ok h
  obtain ⟨rfl, ⟨m, rfl, rfl⟩ | ⟨rfl, rfl⟩⟩ := ident_ok h3
  · obtain ⟨br, t5, l5, h9, h10⟩ := bind_ok h4
    obtain ⟨rfl, ub, b', rfl, hb, hs⟩ := end_ok h9
    have : br = b' := by grind
    subst this
    cases h10
    left
    exact ⟨rfl, _, _, _, by simp, .external m hb, rfl, .inl rfl⟩
  · cases h4
    exact .inr ⟨rfl, rfl, .inl rfl⟩

theorem outputCell_ok (exact : Bool) : CellOk (O := O) c exact .output (outputCell c) := by
  intro detailed ts log b ts' log' h
  obtain ⟨a, t2, l2, h3, h4⟩ := bind_ok h
  obtain ⟨rfl, ⟨rfl, rfl⟩ | ⟨used, n, e, br, rfl, hn, rfl⟩⟩ := namedDecl_ok h3
  · cases h4
    exact .inr ⟨rfl, rfl, .inl rfl⟩
  · cases h4
    exact .inl ⟨rfl, _, _, _, rfl, .output hn, rfl, .inl rfl⟩

theorem invariantCell_ok (exact : Bool) : CellOk (O := O) c exact .invariant (invariantCell c) := by
  intro detailed ts log b ts' log' h
  obtain ⟨a, t2, l2, h3, h4⟩ := bind_ok h
  obtain ⟨rfl, ⟨rfl, rfl⟩ | ⟨used, n, e, br, rfl, hn, rfl⟩⟩ := namedDecl_ok h3
  · cases h4
    exact .inr ⟨rfl, rfl, .inl rfl⟩
  · cases h4
    exact .inl ⟨rfl, _, _, _, rfl, .invariant hn, rfl, .inl rfl⟩

theorem reports_relate {exact : Bool} {cond : Option (Expr.Spec.Expr D O)} {d1 d2 ds rs brief detailed} (h : RelsOk c exact rs ds) :
    Reports c exact (.relation (codeOf c cond) (relOf c d1 :: relOf c d2 :: rs) brief detailed)
      (.relate cond (d1 :: d2 :: ds) brief detailed) := by
  cases exact with
  | true => left; rw [h.2 rfl]; rfl
  | false =>
    by_cases hds : ds = []
    · subst hds
      have := h.1
      cases this
      left; rfl
    · exact .inr ⟨rfl, _, _, _, _, _, _, _, rfl, rfl, hds, h.1⟩

theorem logicCell_ok {exact : Bool} {reset : Rel D O → Rel D O} (hr : ResetOk exact reset) (n : Nat) :
    CellOk c exact .logic (logicCell c reset n) := by
  intro detailed ts log b ts' log' h
  obtain ⟨a, t2, l2, h3, h4⟩ := bind_ok h
  obtain ⟨rfl, ⟨rfl, rfl⟩ | ⟨used, n, e, br, rfl, hn, rfl⟩⟩ := namedDecl_ok h3
  · obtain ⟨a, t3, l3, h5, h6⟩ := bind_ok h4
    obtain ⟨rfl, ⟨rfl, rfl⟩ | ⟨used, uc, cond, u1, d1, u2, d2, us, ds, rs, ut, b', rfl, rfl, rfl, hc, hd1, hd2, hds, hb, hrs⟩⟩ :=
      relateDecl_ok hr h5
    · cases h6
      exact .inr ⟨rfl, rfl, .inl rfl⟩
    · cases h6
      exact .inl ⟨rfl, _, _, _, rfl, .relate hc hd1 hd2 hds hb, rfl, reports_relate hrs⟩
  · cases h4
    exact .inl ⟨rfl, _, _, _, rfl, .logic hn, rfl, .inl rfl⟩

/-- The calls of a list of declarations. -/
def Calls (c : Nat → D) (exact : Bool) (calls : List (Call D O)) (ds : List (Decl D O)) : Prop :=
  List.Forall₂ (Reports c exact) calls ds

theorem cells_ok {exact : Bool} {sec : Section} {item : Str → A D O Bool} (hi : CellOk c exact sec item) (n : Nat) :
    ∀ {ts log u ts' log'}, loop n (do
      let detailed ← lead []
      item detailed) ts log = .ok u ts' log' →
      ∃ used ds calls, ts = used ++ ts' ∧ Cells true sec used ds ∧ log' = log ++ calls ∧ Calls c exact calls ds := by
  induction n with
  | zero => intro ts log u ts' log' h; cases h
  | succ n ih =>
    intro ts log u ts' log' h
    obtain ⟨b, t1, l1, h1, h2⟩ := bind_ok h
    obtain ⟨det, t2, l2, h3, h4⟩ := bind_ok h1
    obtain ⟨rfl, ul, b', rfl, hl, hdet⟩ := lead_ok' h3
    have : det = b' := by grind
    subst this
    obtain ⟨rfl, used, d, call, rfl, hd, rfl, hrep⟩ | ⟨rfl, rfl, hx⟩ := hi _ _ _ _ _ _ h4
    · obtain ⟨used', ds, calls, rfl, hds, rfl, hc⟩ := ih h2
      exact ⟨_, _, call :: calls, by simp, .cons hl hd hds, by simp, .cons hrep hc⟩
    · cases h2
      rcases hx with rfl | ⟨rfl, rfl⟩
      · refine ⟨ul, [], [], rfl, ?_, by simp, .nil⟩
        cases hl with
        | none => exact .nil
        | some s => exact .dangling _ rfl
      · exact ⟨_, [], [], by simp, .danglingUnlink rfl rfl hl, by simp, .nil⟩

/-- What a function for sections does. -/
def SectionOk (c : Nat → D) (exact : Bool) (ok : Section → Prop) (x : A D O Bool) : Prop :=
  ∀ ts log b ts' log', x ts log = .ok b ts' log' →
    (b = true ∧ ∃ sec used ds calls, ok sec ∧ ts = .kw sec.keyword :: .sym .colon :: (used ++ ts') ∧ Cells true sec used ds ∧
      log' = log ++ calls ∧ Calls c exact calls ds) ∨
    (b = false ∧ log' = log ∧ ts' = ts)

theorem setDecl_ok {exact : Bool} {ok : Section → Prop} {sec : Section} {item : Str → A D O Bool} (hok : ok sec)
    (hi : CellOk c exact sec item) (n : Nat) : SectionOk c exact ok (setDecl n sec.keyword item) := by
  intro ts log b ts' log' h
  obtain ⟨b, t1, l1, h1, h2⟩ := bind_ok h
  obtain ⟨rfl, ⟨rfl, rfl⟩ | ⟨rfl, rfl⟩⟩ := kw_ok h1
  · obtain ⟨_, t2, l2, h3, h4⟩ := bind_ok h2
    obtain ⟨rfl, rfl⟩ := need_ok h3
    obtain ⟨_, t3, l3, h5, h6⟩ := bind_ok h4
    obtain ⟨used, ds, calls, rfl, hds, rfl, hc⟩ := cells_ok hi n h5
    cases h6
    exact .inl ⟨rfl, sec, used, ds, calls, hok, rfl, hds, rfl, hc⟩
  · cases h2
    exact .inr ⟨rfl, rfl, rfl⟩

theorem anyOf_ok {exact : Bool} {ok : Section → Prop} {xs : List (A D O Bool)} (h : ∀ x ∈ xs, SectionOk c exact ok x) :
    SectionOk c exact ok (anyOf xs) := by
  induction xs with
  | nil => intro ts log b ts' log' h; cases h; exact .inr ⟨rfl, rfl, rfl⟩
  | cons x xs ih =>
    intro ts log b ts' log' hx
    obtain ⟨b1, t1, l1, h1, h2⟩ := bind_ok hx
    obtain ⟨rfl, r⟩ | ⟨rfl, rfl, rfl⟩ := h x (by simp) _ _ _ _ _ h1
    · cases h2
      exact .inl ⟨rfl, r⟩
    · exact ih (fun y hy => h y (by simp [hy])) _ _ _ _ _ h2

theorem adamSection_ok (n : Nat) : SectionOk (O := O) c true (fun _ => True) (adamSection c n) := by
  refine anyOf_ok ?_
  simp only [List.mem_cons, List.not_mem_nil, or_false]
  rintro x (rfl | rfl | rfl | rfl | rfl | rfl | rfl)
  · exact setDecl_ok (sec := .interface) trivial (interfaceCell_ok _) n
  · exact setDecl_ok (sec := .input) trivial (inputCell_ok _) n
  · exact setDecl_ok (sec := .output) trivial (outputCell_ok _) n
  · exact setDecl_ok (sec := .constant) trivial (constantCell_ok _) n
  · exact setDecl_ok (sec := .logic) trivial (logicCell_ok adamReset_ok n) n
  · exact setDecl_ok (sec := .invariant) trivial (invariantCell_ok _) n
  · exact setDecl_ok (sec := .external) trivial (externalCell_ok _) n

theorem eveSection_ok (n : Nat) : SectionOk (O := O) c false InLayout (eveSection c n) := by
  refine anyOf_ok ?_
  simp only [List.mem_cons, List.not_mem_nil, or_false]
  rintro x (rfl | rfl | rfl)
  · exact setDecl_ok (sec := .interface) (.inl rfl) (interfaceCell_ok _) n
  · exact setDecl_ok (sec := .constant) (.inr (.inl rfl)) (constantCell_ok _) n
  · exact setDecl_ok (sec := .logic) (.inr (.inr rfl)) (logicCell_ok eveReset_ok n) n

theorem sections_ok {exact : Bool} {ok : Section → Prop} {x : A D O Bool} (hx : SectionOk c exact ok x) (n : Nat) :
    ∀ {ts log u ts' log'}, loop n x ts log = .ok u ts' log' →
      ∃ used ds calls, ts = used ++ ts' ∧ Sections true ok used ds ∧ log' = log ++ calls ∧ Calls c exact calls ds := by
  induction n with
  | zero => intro ts log u ts' log' h; cases h
  | succ n ih =>
    intro ts log u ts' log' h
    obtain ⟨b, t1, l1, h1, h2⟩ := bind_ok h
    obtain ⟨rfl, sec, used, ds, calls, hok, rfl, hds, rfl, hc⟩ | ⟨rfl, rfl, rfl⟩ := hx _ _ _ _ _ h1
    · obtain ⟨used', ds', calls', rfl, hds', rfl, hc'⟩ := ih h2
      exact ⟨_, _, calls ++ calls', by simp, .cons hok hds hds', by simp, List.rel_append hc hc'⟩
    · cases h2
      exact ⟨[], [], [], rfl, .nil, by simp, .nil⟩

theorem sheetSpecifier_ok {n : Nat} {ts log b ts' log'} (h : sheetSpecifier (O := O) c n ts log = .ok b ts' log') :
    (b = true ∧ ∃ l s m used ds calls t s', ts = l ++ .kw "sheet".toList :: .ident m :: .sym .openBrace ::
        (used ++ .sym .closeBrace :: (t ++ ts')) ∧ Lead l s ∧ Sections true (fun _ => True) used ds ∧ Trail t s' ∧
        log' = log ++ calls ∧ Calls c true calls ds) ∨
    (b = false ∧ log' = log ∧ ∃ l s, Lead l s ∧ ts = l ++ ts') := by
  obtain ⟨_, t0, l0, h1', h2'⟩ := bind_ok h
  obtain ⟨rfl, ul, s, rfl, hl, -⟩ := lead_ok' h1'
  obtain ⟨b, t1, l1, h1, h2⟩ := bind_ok h2'
  obtain ⟨rfl, ⟨rfl, rfl⟩ | ⟨rfl, rfl⟩⟩ := kw_ok h1
  · obtain ⟨a, t2, l2, h3, h4⟩ := bind_ok h2
    obtain ⟨rfl, ⟨m, rfl, rfl⟩ | ⟨rfl, rfl⟩⟩ := ident_ok h3
    · obtain ⟨_, t3, l3, h5, h6⟩ := bind_ok h4
      obtain ⟨rfl, rfl⟩ := need_ok h5
      obtain ⟨_, t4, l4, h7, h8⟩ := bind_ok h6
      obtain ⟨used, ds, calls, rfl, hds, rfl, hc⟩ := sections_ok (adamSection_ok n) n h7
      obtain ⟨_, t5, l5, h9, h10⟩ := bind_ok h8
      obtain ⟨rfl, rfl⟩ := need_ok h9
      obtain ⟨_, t6, l6, h11, h12⟩ := bind_ok h10
      obtain ⟨rfl, ut, s', rfl, ht, -⟩ := trail_ok' h11
      cases h12
      exact .inl ⟨rfl, ul, s, m, used, ds, calls, ut, s', rfl, hl, hds, ht, rfl, hc⟩
    · cases h4
  · cases h2
    exact .inr ⟨rfl, rfl, ul, s, hl, rfl⟩

theorem calls_exact {calls : List (Call D O)} {ds : List (Decl D O)} (h : Calls c true calls ds) : calls = ds.map (report c) := by
  induction h with
  | nil => rfl
  | cons h _ ih =>
    rw [ih]
    rcases h with rfl | ⟨h, -⟩
    · rfl
    · cases h

theorem sheets_ok (n m : Nat) : ∀ {ts log u ts' log'}, loop (O := O) n (sheetSpecifier c m) ts log = .ok u ts' log' →
    ts' = [] → ∃ ds, Sheets true ts ds ∧ log' = log ++ ds.map (report c) := by
  induction n with
  | zero => intro ts log u ts' log' h; cases h
  | succ n ih =>
    intro ts log u ts' log' h he
    obtain ⟨b, t1, l1, h1, h2⟩ := bind_ok h
    obtain ⟨rfl, l, s, k, used, ds, calls, t, s', rfl, hl, hds, ht, rfl, hc⟩ | ⟨rfl, rfl, l, s, hl, rfl⟩ := sheetSpecifier_ok h1
    · obtain ⟨ds', hds', rfl⟩ := ih h2 he
      rw [calls_exact hc]
      exact ⟨ds ++ ds', .cons k hl hds ht hds', by simp⟩
    · cases h2
      subst he
      refine ⟨[], ?_, by simp⟩
      cases hl with
      | none => exact .nil
      | some s => exact .dangling _ rfl

theorem adamParse_ok {ts log u ts' log'} (h : adamParse (O := O) c ts log = .ok u ts' log') :
    ts' = [] ∧ ∃ ds, Sheets true ts ds ∧ log' = log ++ ds.map (report c) := by
  obtain ⟨_, t1, l1, h1, h2⟩ := bind_ok h
  cases t1 with
  | nil => cases h2; exact ⟨rfl, sheets_ok _ _ h1 rfl⟩
  | cons => cases h2

/-! ### Layouts -/

theorem viewClass_ok {ts log r ts' log'} (h : viewClass (O := O) c ts log = .ok r ts' log') :
    log' = log ∧ ((r = none ∧ ts' = ts) ∨ ∃ used n e, ts = used ++ ts' ∧ Class used n e ∧ r = some (n, compile c e)) := by
  obtain ⟨a, t1, l1, h1, h2⟩ := bind_ok h
  obtain ⟨rfl, ⟨n, rfl, rfl⟩ | ⟨rfl, rfl⟩⟩ := ident_ok h1
  · obtain ⟨_, t2, l2, h3, h4⟩ := bind_ok h2
    obtain ⟨rfl, rfl⟩ := need_ok h3
    obtain ⟨⟨b, st⟩, t3, l3, h5, h6⟩ := bind_ok h4
    obtain ⟨h5', rfl⟩ := lift_ok h5
    obtain ⟨_, t4, l4, h7, h8⟩ := bind_ok h6
    obtain ⟨rfl, rfl⟩ := need_ok h7
    cases h8
    refine ⟨rfl, .inr ?_⟩
    obtain ⟨rfl, used, ms, rfl, hd, rfl⟩ | ⟨rfl, rfl, rfl⟩ := (parse_sound _ _ _ _ _ _ _ h5' : PostNamed c _ _ _ _ _)
    · exact ⟨_, n, .dict ms, by simp, .args n hd, rfl⟩
    · exact ⟨[.ident n, .sym .openParen, .sym .closeParen], n, _, rfl, .noArgs n, rfl⟩
  · cases h2
    exact ⟨rfl, .inl ⟨rfl, rfl⟩⟩

theorem viewCount_append (a b : List (Call D O)) : viewCount (a ++ b) = viewCount a + viewCount b := by
  induction a with
  | nil => simp [viewCount]
  | cons x a ih => cases x <;> simp [viewCount, ih] <;> omega

mutual
theorem viewCount_view (parent next : Nat) : ∀ v : View D O, viewCount (reportView c parent next v) = size v
  | .mk _ _ _ _ vs => by simp [reportView, viewCount, size, viewCount_views _ _ vs]
theorem viewCount_views (parent next : Nat) : ∀ vs : List (View D O), viewCount (reportViews c parent next vs) = sizes vs
  | [] => rfl
  | v :: vs => by simp [reportViews, viewCount_append, sizes, viewCount_view _ _ v, viewCount_views _ _ vs]
end

/-- What `is_view_definition` does. -/
def ViewOk (c : Nat → D) (x : Nat → A D O Bool) : Prop := ∀ loc ts log b ts' log', x loc ts log = .ok b ts' log' →
  (b = true ∧ ∃ used v, ts = used ++ ts' ∧ ViewDef true used v ∧ log' = log ++ reportView c loc (viewCount log + 1) v) ∨
  (b = false ∧ log' = log ∧ ∃ l s, Lead l s ∧ ts = l ++ ts')

def ViewsOk (c : Nat → D) (x : Nat → A D O Unit) : Prop := ∀ loc ts log u ts' log', x loc ts log = .ok u ts' log' →
  ∃ used vs, ts = used ++ ts' ∧ ViewDefs true used vs ∧ log' = log ++ reportViews c loc (viewCount log + 1) vs

theorem view_ok (n : Nat) : ViewOk (O := O) c (viewDef c n) ∧ ViewsOk (O := O) c (viewSeq c n) := by
  induction n with
  | zero =>
    constructor
    · intro _ _ _ _ _ _ h; rw [viewDef] at h; cases h
    · intro _ _ _ _ _ _ h; rw [viewSeq] at h; cases h
  | succ n ih =>
    obtain ⟨ih1, ih2⟩ := ih
    constructor
    · intro loc ts log b ts' log' h
      rw [viewDef] at h
      obtain ⟨det, t0, l0, h0, h1⟩ := bind_ok h
      obtain ⟨rfl, ul, s, rfl, hl, hdet⟩ := lead_ok' h0
      have : det = s := by grind
      subst this
      obtain ⟨a, t2, l2, h3, h4⟩ := bind_ok h1
      obtain ⟨rfl, ⟨rfl, rfl⟩ | ⟨used, k, e, rfl, hn, rfl⟩⟩ := viewClass_ok h3
      · cases h4
        exact .inr ⟨rfl, rfl, ul, _, hl, rfl⟩
      · obtain ⟨leaf, t3, l3, h5, h6⟩ := bind_ok h4
        obtain ⟨br, t4, l4, h7, h8⟩ := bind_ok h6
        obtain ⟨rfl, ut, b', rfl, hb, hs⟩ := trail_ok' h7
        have : br = b' := by grind
        subst this
        obtain ⟨node, t5, l5, h9, h10⟩ := bind_ok h8
        cases h9
        obtain ⟨rfl, ⟨rfl, rfl⟩ | ⟨rfl, rfl⟩⟩ := tok_ok h5
        · cases h10
          refine .inl ⟨rfl, _, _, ?_, .leaf hl hn hb, ?_⟩
          · simp
          · simp [reportView, reportViews]
        · obtain ⟨_, t6, l6, h13, h14⟩ := bind_ok h10
          obtain ⟨rfl, rfl⟩ := need_ok h13
          obtain ⟨_, t8, l8, h15, h16⟩ := bind_ok h14
          obtain ⟨used', vs, rfl, hvs, rfl⟩ := ih2 _ _ _ _ _ _ h15
          obtain ⟨_, t9, l9, h17, h18⟩ := bind_ok h16
          obtain ⟨rfl, rfl⟩ := need_ok h17
          cases h18
          refine .inl ⟨rfl, _, _, ?_, .node hl hn hb hvs, ?_⟩
          · simp
          · simp [reportView, viewCount_append, viewCount]
    · intro loc ts log u ts' log' h
      rw [viewSeq] at h
      obtain ⟨b, t1, l1, h1, h2⟩ := bind_ok h
      obtain ⟨rfl, used, v, rfl, hv, rfl⟩ | ⟨rfl, rfl, l, s, hl, rfl⟩ := ih1 _ _ _ _ _ _ h1
      · obtain ⟨used', vs, rfl, hvs, rfl⟩ := ih2 _ _ _ _ _ _ h2
        refine ⟨_, v :: vs, by simp, .cons hv hvs, ?_⟩
        simp [reportViews, viewCount_append, viewCount_view]
        congr 1
        omega
      · cases h2
        refine ⟨l, [], rfl, ?_, by simp [reportViews]⟩
        cases hl with
        | none => exact .nil
        | some s => exact .dangling _ rfl

theorem viewCount_calls {exact : Bool} {calls : List (Call D O)} {ds : List (Decl D O)} (h : Calls c exact calls ds) :
    viewCount calls = 0 := by
  induction h with
  | nil => rfl
  | @cons x d _ _ h _ ih =>
    rcases h with rfl | ⟨-, _, _, _, _, _, _, _, rfl, rfl, -⟩
    · cases d <;> exact ih
    · exact ih

theorem eveParse_ok {ts u ts' log'} (h : eveParse (O := O) c ts [] = .ok u ts' log') :
    ∃ used ds v calls, ts = used ++ ts' ∧ Layout true used ds v ∧ Calls c false calls ds ∧
      log' = calls ++ .finalize :: reportView c 0 1 v := by
  obtain ⟨b, t1, l1, h1, h2⟩ := bind_ok h
  cases b with
  | false => cases h2
  | true =>
    cases h2
    obtain ⟨_, t2, l2, h3, h4⟩ := bind_ok h1
    obtain ⟨rfl, ul, s, hts, hl, -⟩ := lead_ok' h3
    obtain ⟨b, t3, l3, h5, h6⟩ := bind_ok h4
    obtain ⟨rfl, ⟨rfl, rfl⟩ | ⟨rfl, rfl⟩⟩ := kw_ok h5
    · obtain ⟨a, t4, l4, h7, h8⟩ := bind_ok h6
      obtain ⟨rfl, ⟨m, rfl, rfl⟩ | ⟨rfl, rfl⟩⟩ := ident_ok h7
      · obtain ⟨_, t5, l5, h9, h10⟩ := bind_ok h8
        obtain ⟨rfl, rfl⟩ := need_ok h9
        obtain ⟨_, t6, l6, h11, h12⟩ := bind_ok h10
        obtain ⟨used, ds, calls, rfl, hds, rfl, hc⟩ := sections_ok (eveSection_ok _) _ h11
        obtain ⟨_, t7, l7, h13, h14⟩ := bind_ok h12
        cases h13
        obtain ⟨b, t8, l8, h15, h16⟩ := bind_ok h14
        obtain ⟨rfl, ⟨rfl, rfl⟩ | ⟨rfl, rfl⟩⟩ := kw_ok h15
        · obtain ⟨b, t9, l9, h17, h18⟩ := bind_ok h16
          obtain ⟨rfl, usedv, v, rfl, hv, rfl⟩ | ⟨rfl, -⟩ := (view_ok _).1 _ _ _ _ _ _ h17
          · obtain ⟨_, t10, l10, h19, h20⟩ := bind_ok h18
            obtain ⟨rfl, rfl⟩ := need_ok h19
            obtain ⟨_, t11, l11, h21, h22⟩ := bind_ok h20
            obtain ⟨rfl, ut, s', rfl, ht, -⟩ := trail_ok' h21
            cases h22
            refine ⟨_, ds, v, _, ?_, .mk m hl hds hv ht, hc, ?_⟩
            · rw [hts]; simp
            · simp [viewCount_append, viewCount_calls hc, viewCount]
          · cases h18
        · cases h16
      · cases h8
    · cases h6

end Verif.Decl
