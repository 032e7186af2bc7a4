import Verif.Decl.Throw
/-
C76-C79: the parsers of property models and of layouts.

`D`: numbers, `O`: other values of a client; `c` turns a count into a number (C46).
-/
namespace Verif.Decl
open Verif.Expr Verif.Decl.Spec

variable {D O : Type}

/-! ### C76: property models -/

/-- C76: parsing a property model ends, whatever the input (`fuel` stands for a loop which exceeds its bound). -/
theorem C76_terminates (c : Nat → D) (ts : List (Tok D)) (log : List (Call D O)) : adamParse c ts log ≠ .fuel := adamParse_nf ts log

/-- C76: every text of the documented grammar is accepted, and the client is called once for each declaration, in the order of the
text, with its name, the code of its expressions and its comments. -/
theorem C76_complete (c : Nat → D) (ts : List (Tok D)) (ds : List (Decl D O)) (h : Sheets false ts ds) :
    adamParse c ts [] = .ok () [] (ds.map (report c)) := adamParse_run h []

/-- C76: what is accepted, exactly: the documented grammar, with comments which precede nothing and `unlink` which precedes nothing
(`lax = true`); either way the client is told what the text says. -/
theorem C76_accepts_iff_partial (c : Nat → D) (ts : List (Tok D)) (log : List (Call D O)) :
    (∃ rest, adamParse c ts [] = .ok () rest log) ↔ ∃ ds : List (Decl D O), Sheets true ts ds ∧ log = ds.map (report c) := by
  constructor
  · rintro ⟨rest, h⟩
    obtain ⟨-, ds, h1, h2⟩ := adamParse_ok h
    exact ⟨ds, h1, by simpa using h2⟩
  · rintro ⟨ds, h, rfl⟩
    exact ⟨[], adamParse_run h []⟩

/-- The additions do not change what a text of the documented grammar means. -/
theorem C76_unambiguous (c : Nat → D) (ts : List (Tok D)) (ds ds' : List (Decl D O)) (lax lax' : Bool) (h : Sheets lax ts ds)
    (h' : Sheets lax' ts ds') : ds.map (report c) = ds'.map (report c) := by
  have h1 := adamParse_run (c := c) h []
  have h2 := adamParse_run (c := c) h' []
  rw [h1] at h2
  simpa using h2

/-- `sheet s { interface: unlink }` -/
def danglingUnlink : List (Tok D) := [.kw "sheet".toList, .ident "s".toList, .sym .openBrace, .kw "interface".toList, .sym .colon,
  .kw "unlink".toList, .sym .closeBrace]

theorem danglingUnlink_lax : Sheets (D := D) (O := O) true danglingUnlink [] := by
  have h : Sections (D := D) (O := O) true (fun _ => True) [.kw "interface".toList, .sym .colon, .kw "unlink".toList] [] :=
    Sections.cons (sec := .interface) (ts := [.kw "unlink".toList]) (us := []) trivial (.danglingUnlink (l := []) rfl rfl .none) .nil
  exact Sheets.cons (l := []) "s".toList .none h .none .nil

theorem kw_ne {a b : Str} (h : a ≠ b) {x y : List (Tok D)} : (.kw a :: x : List (Tok D)) ≠ .kw b :: y := by
  intro h'; injection h' with h1; injection h1 with h1; exact h h1

theorem danglingUnlink_strict (ds : List (Decl D O)) : ¬ Sheets false danglingUnlink ds := by
  intro h
  generalize hts : (danglingUnlink : List (Tok D)) = ts at h
  rw [danglingUnlink] at hts
  cases h with
  | nil => cases hts
  | dangling _ h => cases h
  | @cons n l ss t us s s' ds es hl hs ht hus =>
    cases hl with
    | some => cases hts
    | none =>
      simp only [List.nil_append, List.cons.injEq, true_and] at hts
      obtain ⟨-, hts⟩ := hts
      cases hs with
      | nil => cases hts
      | @cons sec cs ss ds es hok hc hss =>
        simp only [List.cons_append, List.append_assoc, List.cons.injEq, true_and] at hts
        obtain ⟨-, hts⟩ := hts
        cases hc with
        | nil =>
          cases hss with
          | nil => cases hts
          | @cons sec' =>
            rw [List.nil_append] at hts
            refine absurd hts (kw_ne ?_)
            cases sec' <;> decide
        | dangling _ h => cases h
        | danglingUnlink h => cases h
        | cons hl hcell _ =>
          cases hl with
          | some => cases hts
          | none =>
            cases hcell with
            | interface m hu _ _ _ => cases hu <;> cases hts
            | input => cases hts
            | output h => cases h; cases hts
            | constant => cases hts
            | logic h => cases h; cases hts
            | relate hcond =>
              cases hcond with
              | none => exact absurd hts (kw_ne (by decide))
              | some h => cases h; exact absurd hts (kw_ne (by decide))
            | invariant h => cases h; cases hts
            | external => cases hts

/-- C76, violated: a text which the documented grammar does not generate is accepted without complaint. -/
theorem C76_rejects_others_violated (c : Nat → D) : ¬ ∀ (ts : List (Tok D)) (rest : List (Tok D)) (log : List (Call D O)),
    adamParse c ts [] = .ok () rest log → ∃ ds : List (Decl D O), Sheets false ts ds := by
  intro h
  obtain ⟨ds, hds⟩ := h danglingUnlink [] [] (adamParse_run danglingUnlink_lax [])
  exact danglingUnlink_strict ds hds

/-! ### C77: what the client was told when parsing fails -/

/-- C77: when the parsing of a property model ends with an exception, the calls of the client up to then are those of the
declarations of a beginning of the text, each once, in order and exactly as for a text without an error: this beginning, at most
with a closing brace after it, is a text of its own. -/
theorem C77_sheet_failure (c : Nat → D) (ts : List (Tok D)) (log : List (Call D O)) (h : adamParse c ts [] = .throw log) :
    ∃ used rest close ds, ts = used ++ rest ∧ (close = [] ∨ close = [.sym .closeBrace]) ∧ Sheets true (used ++ close) ds ∧
      log = ds.map (report c) := by
  obtain ⟨used, rest, ds, h1, h2 | h2, h3⟩ := adamParse_throw h
  · exact ⟨used, rest, [], ds, h1, .inl rfl, by simpa using h2, by simpa using h3⟩
  · exact ⟨used, rest, _, ds, h1, .inr rfl, h2, by simpa using h3⟩

/-- C77: the same for a layout, where `calls` are the calls for the cells.  Either the parser stopped before the first view: then the
text up to there, with any view after it, is a layout; or in the view: then only closing (or empty) braces are missing, and the
client has been given the views read. -/
theorem C77_layout_failure (c : Nat → D) (ts : List (Tok D)) (log : List (Call D O)) (h : eveParse c ts [] = .throw log) :
    log = [] ∨
    (∃ used rest ds calls, ts = used ++ rest ∧
      (∀ n, Layout true (used ++ [.kw "view".toList, .ident n, .sym .openParen, .sym .closeParen, .sym .semicolon, .sym .closeBrace]) ds
        (.mk n (.const (.dict [])) [] [] [])) ∧
      List.Forall₂ (Reports c false) calls ds ∧ (log = calls ∨ log = calls ++ [.finalize])) ∨
    (∃ used rest close ds v calls, ts = used ++ rest ∧ (∀ t ∈ close, t = .sym .openBrace ∨ t = .sym .closeBrace) ∧
      Layout true (used ++ close) ds v ∧ List.Forall₂ (Reports c false) calls ds ∧ log = calls ++ .finalize :: reportView c 0 1 v) :=
  eveParse_throw h

/-! ### C78: layouts -/

/-- C78: parsing a layout ends, whatever the input. -/
theorem C78_terminates (c : Nat → D) (ts : List (Tok D)) (log : List (Call D O)) : eveParse c ts log ≠ .fuel := eveParse_nf ts log

/-- No relation of more than two relate expressions. -/
def Simple : Decl D O → Prop
  | .relate _ rels _ _ => rels.length = 2
  | _ => True

theorem reports_simple {c : Nat → D} {x : Call D O} {d : Decl D O} (h : Reports c false x d) (hs : Simple d) : x = report c d := by
  rcases h with rfl | ⟨-, cond, d1, d2, ds, rs, brief, detailed, rfl, rfl, hne, -⟩
  · rfl
  · simp only [Simple, List.length_cons] at hs
    exact absurd (List.length_eq_zero_iff.1 (by omega)) hne

theorem calls_simple {c : Nat → D} {calls : List (Call D O)} {ds : List (Decl D O)} (h : Calls c false calls ds) (hs : ∀ d ∈ ds, Simple d) :
    calls = ds.map (report c) := by
  induction h with
  | nil => rfl
  | cons h _ ih =>
    rw [List.map_cons, ← reports_simple h (hs _ (by simp)), ← ih fun d hd => hs d (by simp [hd])]

/-- C78: every layout of the documented grammar whose relations have two relate expressions each is accepted, whatever follows it but
a trailing comment or characters which are no token; the client is called once for each cell, in order, then told that the cells are
complete, then given the views, each before those it contains and with the position which was returned for the view around it. -/
theorem C78_complete_partial (c : Nat → D) (ts rest : List (Tok D)) (ds : List (Decl D O)) (v : View D O) (h : Layout false ts ds v)
    (hs : ∀ d ∈ ds, Simple d) (hr : ∀ t r, rest = t :: r → t ≠ .bad ∧ ∀ s, t ≠ .trailComment s) :
    eveParse c (ts ++ rest) [] = .ok () rest (ds.map (report c) ++ .finalize :: reportView c 0 1 v) := by
  obtain ⟨calls, h1, h2⟩ := eveParse_run (c := c) h (rest := rest) (by
    rcases rest with _ | ⟨t, r⟩
    · simp [NoTrail]
    · have := hr t r rfl; simpa [NoTrail] using this)
  rw [h1, calls_simple h2 hs]

/-- C78: every layout of the documented grammar is accepted; the calls for the cells and relations are right but for the names and
comments of the third relate expression of a relation and those which follow. -/
theorem C78_complete_weak_partial (c : Nat → D) (ts rest : List (Tok D)) (ds : List (Decl D O)) (v : View D O) (h : Layout false ts ds v)
    (hr : ∀ t r, rest = t :: r → t ≠ .bad ∧ ∀ s, t ≠ .trailComment s) :
    ∃ calls, eveParse c (ts ++ rest) [] = .ok () rest (calls ++ .finalize :: reportView c 0 1 v) ∧ List.Forall₂ (Reports c false) calls ds := by
  refine eveParse_run (c := c) h (rest := rest) ?_
  rcases rest with _ | ⟨t, r⟩
  · simp [NoTrail]
  · have := hr t r rfl; simpa [NoTrail] using this

/-- C78: what is accepted is a layout (with the additions of C76), followed by anything; the client is told what it says, with the
same exception. -/
theorem C78_sound_partial (c : Nat → D) (ts rest : List (Tok D)) (log : List (Call D O)) (h : eveParse c ts [] = .ok () rest log) :
    ∃ used ds v calls, ts = used ++ rest ∧ Layout true used ds v ∧ List.Forall₂ (Reports c false) calls ds ∧
      log = calls ++ .finalize :: reportView c 0 1 v ∧ ((∀ d ∈ ds, Simple d) → calls = ds.map (report c)) := by
  obtain ⟨used, ds, v, calls, h1, h2, h3, h4⟩ := eveParse_ok h
  exact ⟨used, ds, v, calls, h1, h2, h3, h4, fun hs => calls_simple h3 hs⟩

/-- A tree of views with code instead of expressions: what a client can know of it. -/
inductive Tree (D O : Type) where
  | mk (cls : Str) (args : List (Val D O)) (brief detailed : Str) (children : List (Tree D O))

mutual
def tree (c : Nat → D) : View D O → Tree D O
  | .mk cls args brief detailed vs => .mk cls (compile c args) brief detailed (trees c vs)
def trees (c : Nat → D) : List (View D O) → List (Tree D O)
  | [] => []
  | v :: vs => tree c v :: trees c vs
end

/-- The first call of a list, if there is one, is that of a view below a position before `n` other than `p`. -/
def Before (p n : Nat) : List (Call D O) → Prop
  | [] => True
  | .view q _ _ _ _ :: _ => q < n ∧ q ≠ p
  | _ :: _ => True

theorem before_views {c : Nat → D} {p n m q : Nat} (hp : p < n) (hq : q = n) : ∀ (vs : List (View D O)) {A : List (Call D O)}, Before p n A →
    Before q (n + 1) (reportViews c p m vs ++ A)
  | [], A, h => by
    rcases A with _ | ⟨x, A⟩
    · trivial
    · cases x <;> simp_all [Before, reportViews]
      omega
  | .mk _ _ _ _ _ :: _, A, h => by simp [Before, reportViews, reportView]; omega

mutual
theorem view_inj (c : Nat → D) : ∀ (v w : View D O) (p n : Nat) (A B : List (Call D O)), p < n →
    (∀ q, q = n → Before q (n + 1) A) → (∀ q, q = n → Before q (n + 1) B) →
    reportView c p n v ++ A = reportView c p n w ++ B → tree c v = tree c w ∧ size v = size w ∧ A = B
  | .mk cls args brief detailed vs, .mk cls' args' brief' detailed' ws, p, n, A, B, hp, hA, hB, h => by
    simp only [reportView, List.cons_append, List.cons.injEq, Call.view.injEq, true_and] at h
    obtain ⟨⟨rfl, h1, rfl, rfl⟩, h2⟩ := h
    obtain ⟨h3, h4, h5⟩ := views_inj c vs ws n (n + 1) A B (by omega) (hA n rfl) (hB n rfl) h2
    exact ⟨by simp [tree, h1, h3], by simp [size, h4], h5⟩
theorem views_inj (c : Nat → D) : ∀ (vs ws : List (View D O)) (p n : Nat) (A B : List (Call D O)), p < n → Before p n A → Before p n B →
    reportViews c p n vs ++ A = reportViews c p n ws ++ B → trees c vs = trees c ws ∧ sizes vs = sizes ws ∧ A = B
  | [], [], p, n, A, B, hp, hA, hB, h => by simpa [reportViews, trees, sizes] using h
  | [], .mk _ _ _ _ _ :: _, p, n, A, B, hp, hA, hB, h => by
    simp only [reportViews, reportView, List.nil_append, List.cons_append] at h
    subst h
    simp [Before] at hA
  | .mk _ _ _ _ _ :: _, [], p, n, A, B, hp, hA, hB, h => by
    simp only [reportViews, reportView, List.nil_append, List.cons_append] at h
    subst h
    simp [Before] at hB
  | v :: vs, w :: ws, p, n, A, B, hp, hA, hB, h => by
    simp only [reportViews, List.append_assoc] at h
    obtain ⟨h1, h2, h3⟩ := view_inj c v w p n _ _ hp (fun q hq => before_views hp hq vs hA) (fun q hq => before_views hp hq ws hB) h
    rw [h2] at h3
    have hb : ∀ {A : List (Call D O)}, Before p n A → Before p (n + size w) A := by
      intro A hA
      rcases A with _ | ⟨x, A⟩
      · trivial
      · cases x <;> simp_all [Before]
        omega
    obtain ⟨h4, h5, h6⟩ := views_inj c vs ws p _ A B (by omega) (hb hA) (hb hB) h3
    exact ⟨by simp [trees, h1, h4], by simp [sizes, h2, h5], h6⟩
end

/-- C78: from the calls for the views the client can tell the whole tree: layouts whose trees of views differ (in a class, in the
code of the arguments, in a comment, in the order or in the nesting) give different calls. -/
theorem C78_views_faithful (c : Nat → D) (v w : View D O) (h : reportView c 0 1 v = reportView c 0 1 w) : tree c v = tree c w :=
  (view_inj c v w 0 1 [] [] (by omega) (fun _ _ => trivial) (fun _ _ => trivial) (by simpa using h)).1

mutual
theorem view_parent (c : Nat → D) : ∀ (v : View D O) (p n : Nat), p < n → ∀ i q cls args brief detailed,
    (reportView c p n v)[i]? = some (Call.view q cls args brief detailed) → q < n + i
  | .mk _ _ _ _ vs, p, n, hp, 0, q, cls, args, brief, detailed, h => by
    simp [reportView] at h; omega
  | .mk _ _ _ _ vs, p, n, hp, i + 1, q, cls, args, brief, detailed, h => by
    simp only [reportView, List.getElem?_cons_succ] at h
    have := views_parent c vs n (n + 1) (by omega) i q _ _ _ _ h
    omega
theorem views_parent (c : Nat → D) : ∀ (vs : List (View D O)) (p n : Nat), p < n → ∀ i q cls args brief detailed,
    (reportViews c p n vs)[i]? = some (Call.view q cls args brief detailed) → q < n + i
  | [], p, n, hp, i, q, cls, args, brief, detailed, h => by simp [reportViews] at h
  | v :: vs, p, n, hp, i, q, cls, args, brief, detailed, h => by
    simp only [reportViews] at h
    rw [List.getElem?_append] at h
    have hl : (reportView c p n v).length = size v := view_length c v p n
    split at h
    · exact view_parent c v p n hp i q _ _ _ _ h
    · have := views_parent c vs p (n + size v) (by omega) _ q _ _ _ _ h
      omega
theorem view_length (c : Nat → D) : ∀ (v : View D O) (p n : Nat), (reportView c p n v).length = size v
  | .mk _ _ _ _ vs, p, n => by simp [reportView, size, views_length c vs]
theorem views_length (c : Nat → D) : ∀ (vs : List (View D O)) (p n : Nat), (reportViews c p n vs).length = sizes vs
  | [], p, n => rfl
  | v :: vs, p, n => by simp [reportViews, sizes, view_length c v, views_length c vs]
end

/-- C78: the client is given as many views as there are, and the parent of a view is always a position it has returned before (the
`i`-th call, counting from 0, returns `i + 1`). -/
theorem C78_parents_known (c : Nat → D) (v : View D O) : (reportView c 0 1 v).length = size v ∧
    ∀ i parent cls args brief detailed, (reportView c 0 1 v)[i]? = some (Call.view parent cls args brief detailed) → parent ≤ i := by
  refine ⟨view_length c v 0 1, fun i parent cls args brief detailed h => ?_⟩
  have := view_parent c v 0 1 (by omega) i parent _ _ _ _ h
  omega

/-! #### The third relate expression -/

theorem var_expr (n : Str) : Expr.Spec.Derives (D := D) (O := O) .expression [.ident n] (.e (.var n)) := by
  have h : ∀ k, k ≤ 10 → Expr.Spec.Derives (D := D) (O := O) (.level k) [.ident n] (.e (.var n)) := by
    intro k
    induction k with
    | zero => intro _; exact .postfix (.primary (.var n))
    | succ k ih => intro hk; exact .level (by omega) (ih (by omega))
  exact .expr (h 10 (by omega))

/-- `n <== m;` -/
def relTokens (n m : Str) : List (Tok D) := [.ident n, .sym .is, .ident m, .sym .semicolon]
theorem relate_one (n m : Str) : RelateExpr (D := D) (O := O) (relTokens n m) ⟨[n], .var m, [], []⟩ :=
  RelateExpr.mk (l := []) (n := [.ident n]) (d := [.sym .is, .ident m]) (b := [.sym .semicolon]) .none (.one n) (.mk (var_expr m)) (.mk .none)

/-- `layout l { logic: relate { x <== y; y <== x; z <== x; } view v(); }` -/
def threeRelations : List (Tok D) := [.kw "layout".toList, .ident "l".toList, .sym .openBrace, .kw "logic".toList, .sym .colon,
    .kw "relate".toList, .sym .openBrace] ++ relTokens "x".toList "y".toList ++ relTokens "y".toList "x".toList ++
    relTokens "z".toList "x".toList ++ [.sym .closeBrace, .kw "view".toList, .ident "v".toList, .sym .openParen, .sym .closeParen,
    .sym .semicolon, .sym .closeBrace]

def threeRelationsDecl : Decl D O := .relate none [⟨["x".toList], .var "y".toList, [], []⟩, ⟨["y".toList], .var "x".toList, [], []⟩,
  ⟨["z".toList], .var "x".toList, [], []⟩] [] []

theorem threeRelations_layout : Layout (D := D) (O := O) false threeRelations [threeRelationsDecl]
    (.mk "v".toList (.const (.dict [])) [] [] []) := by
  have h1 : Cell (D := D) (O := O) false [] .logic ([] ++ .kw "relate".toList :: .sym .openBrace :: (relTokens "x".toList "y".toList ++
      relTokens "y".toList "x".toList ++ (relTokens "z".toList "x".toList ++ []) ++ .sym .closeBrace :: [])) threeRelationsDecl :=
    .relate .none (relate_one _ _) (relate_one _ _) (.cons (relate_one _ _) .nil) .none
  have h2 := Sections.cons (lax := false) (ok := InLayout) (sec := .logic) (.inr (.inr rfl)) (.cons (l := []) .none h1 .nil) .nil
  exact Layout.mk (l := []) (t := []) "l".toList .none h2 (ViewDef.leaf (l := []) (t := []) .none (.noArgs "v".toList) .none) .none

/-- C78, violated: a layout of the documented grammar with three relate expressions in a relation, about which the client is told
something wrong (the third relate expression is reported with the names of the first as well). -/
theorem C78_reports_exactly_violated (c : Nat → D) : ¬ ∀ (ts : List (Tok D)) (ds : List (Decl D O)) (v : View D O), Layout false ts ds v →
    eveParse c ts [] = .ok () [] (ds.map (report c) ++ .finalize :: reportView c 0 1 v) := by
  intro h
  have h1 := h _ _ _ threeRelations_layout
  have h2 : eveParse (O := O) c threeRelations [] = .ok () [] ([.relation [] [
      { names := ["x".toList], code := [.name "y".toList, .name Vm.variable_k] },
      { names := ["y".toList], code := [.name "x".toList, .name Vm.variable_k] },
      { names := ["x".toList, "z".toList], code := [.name "x".toList, .name Vm.variable_k] }] [] []] ++
      .finalize :: reportView c 0 1 (.mk "v".toList (.const (.dict [])) [] [] [])) := by
    rfl
  rw [h1] at h2
  simp [threeRelationsDecl, report, relOf] at h2

/-! ### C79: expressions on their own -/

/-- C79: `parse_adam_expression` gives the code of an expression with which its input begins (and ends with an exception when there is
none), and does so for every expression. -/
theorem C79_expression_partial (c : Nat → D) (ts : List (Tok D)) :
    (∀ code rest log, parseAdamExpression (O := O) c ts [] = .ok code rest log →
      log = [] ∧ ∃ used e, ts = used ++ rest ∧ Expr.Spec.Derives .expression used (.e e) ∧ code = compile c e) ∧
    (∀ e, Expr.Spec.Derives .expression ts (.e e) → parseAdamExpression (O := O) c ts [] = .ok (compile c e) [] []) ∧
    parseAdamExpression (O := O) c ts [] ≠ .fuel := by
  refine ⟨fun code rest log h => ?_, fun e h => ?_, Nf.needExpr _ _⟩
  · obtain ⟨rfl, used, e, h1, h2, h3⟩ := needExpr_ok h
    exact ⟨rfl, used, e, h1, h2, h3⟩
  · have := needExpr_run (c := c) h (rest := []) trivial []
    simp only [List.append_nil] at this
    exact this

/-- C79, violated: input which is no expression but only begins with one is accepted, and the rest of it ignored. -/
theorem C79_whole_input_violated (c : Nat → D) : ¬ ∀ (ts rest : List (Tok D)) (code : List (Val D O)),
    parseAdamExpression (O := O) c ts [] = .ok code rest [] → ∃ e : Expr.Spec.Expr D O, Expr.Spec.Derives .expression ts (.e e) := by
  intro h
  have h1 := needExpr_run (c := c) (O := O) (var_expr "a".toList) (rest := [.ident "b".toList]) trivial []
  obtain ⟨e, he⟩ := h _ _ _ h1
  have h2 := needExpr_run (c := c) he (rest := []) trivial []
  simp only [List.append_nil] at h2
  rw [h1] at h2
  injection h2 with _ h2
  cases h2

end Verif.Decl
