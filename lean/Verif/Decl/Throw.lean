import Verif.Decl.CompleteEve
/-
When parsing fails: what the client was told up to then is right.
-/
namespace Verif.Decl
open Verif.Expr Parser Verif.Decl.Spec

variable {D O α β : Type} {c : Nat → D}

theorem bind_throw {x : A D O α} {f : α → A D O β} {ts log log'} (h : (x >>= f) ts log = .throw log') :
    x ts log = .throw log' ∨ ∃ a t1 l1, x ts log = .ok a t1 l1 ∧ f a t1 l1 = .throw log' := by
  rw [bind_def] at h
  cases hx : x ts log with
  | ok a t1 l1 => rw [hx] at h; exact .inr ⟨a, t1, l1, rfl, h⟩
  | throw l => rw [hx] at h; cases h; exact .inl rfl
  | fuel => rw [hx] at h; cases h

theorem Quiet.thrown {x : A D O α} (h : Quiet x) {ts log log'} (hx : x ts log = .throw log') : log' = log := by
  have := h ts log
  rw [hx] at this
  exact this

/-- The client is called only when nothing can fail any more. -/
def Late (x : A D O α) : Prop := ∀ ts log log', x ts log = .throw log' → log' = log

theorem Quiet.late {x : A D O α} (h : Quiet x) : Late x := fun _ _ _ hx => h.thrown hx
theorem Late.bind {x : A D O α} {f : α → A D O β} (h : Quiet x) (h' : ∀ a, Late (f a)) : Late (x >>= f) := by
  intro ts log log' hx
  obtain hx | ⟨a, t1, l1, h1, h2⟩ := bind_throw hx
  · exact h.thrown hx
  · rw [h' _ _ _ _ h2, h.log h1]
theorem Late.emit (x : Call D O) (a : α) : Late (do emit x; pure a) := fun _ _ _ h => by cases h

theorem interfaceCell_late (s : Str) : Late (interfaceCell (O := O) c s) := by
  refine Late.bind (Quiet.kw _) fun _ => Late.bind Quiet.ident fun a => ?_
  cases a with
  | none => exact (Quiet.pure _).late
  | some => exact Late.bind Quiet.initializer fun _ => Late.bind Quiet.defineExpr fun _ => Late.bind (Quiet.endStatement _) fun _ => Late.emit _ _
theorem inputCell_late (s : Str) : Late (inputCell (O := O) c s) := by
  refine Late.bind Quiet.ident fun a => ?_
  cases a with
  | none => exact (Quiet.pure _).late
  | some => exact Late.bind Quiet.initializer fun _ => Late.bind (Quiet.endStatement _) fun _ => Late.emit _ _
theorem externalCell_late (s : Str) : Late (externalCell (D := D) (O := O) s) := by
  refine Late.bind Quiet.ident fun a => ?_
  cases a with
  | none => exact (Quiet.pure _).late
  | some => exact Late.bind (Quiet.endStatement _) fun _ => Late.emit _ _
theorem constantCell_late (s : Str) : Late (constantCell (O := O) c s) := by
  refine Late.bind Quiet.ident fun a => ?_
  cases a with
  | none => exact (Quiet.pure _).late
  | some =>
    refine Late.bind Quiet.initializer fun a => ?_
    cases a with
    | none => exact Quiet.throw.late
    | some => exact Late.bind (Quiet.endStatement _) fun _ => Late.emit _ _
theorem outputCell_late (s : Str) : Late (outputCell (O := O) c s) := by
  refine Late.bind Quiet.namedDecl fun a => ?_
  cases a with
  | none => exact (Quiet.pure _).late
  | some => exact Late.emit _ _
theorem invariantCell_late (s : Str) : Late (invariantCell (O := O) c s) := by
  refine Late.bind Quiet.namedDecl fun a => ?_
  cases a with
  | none => exact (Quiet.pure _).late
  | some => exact Late.emit _ _
theorem logicCell_late (reset : Rel D O → Rel D O) (n : Nat) (s : Str) : Late (logicCell c reset n s) := by
  refine Late.bind Quiet.namedDecl fun a => ?_
  cases a with
  | some => exact Late.emit _ _
  | none =>
    refine Late.bind (Quiet.relateDecl _ _) fun a => ?_
    cases a with
    | none => exact (Quiet.pure _).late
    | some => exact Late.emit _ _

theorem cells_throw {exact : Bool} {sec : Section} {item : Str → A D O Bool} (hi : CellOk c exact sec item) (hl : ∀ s, Late (item s)) (n : Nat) :
    ∀ {ts log log'}, loop n (do
      let detailed ← lead []
      item detailed) ts log = .throw log' →
      ∃ used rest ds calls, ts = used ++ rest ∧ Cells true sec used ds ∧ log' = log ++ calls ∧ Calls c exact calls ds := by
  induction n with
  | zero => intro ts log log' h; cases h
  | succ n ih =>
    intro ts log log' h
    obtain h | ⟨b, t1, l1, h1, h2⟩ := bind_throw h
    · have := Late.bind (Quiet.lead []) hl _ _ _ h
      subst this
      exact ⟨[], ts, [], [], rfl, .nil, by simp, .nil⟩
    · obtain ⟨det, t2, l2, h3, h4⟩ := bind_ok h1
      obtain ⟨rfl, ul, b', rfl, hl', hdet⟩ := lead_ok' h3
      have : det = b' := by grind
      subst this
      obtain ⟨rfl, used, d, call, rfl, hd, rfl, hrep⟩ | ⟨rfl, rfl, hx⟩ := hi _ _ _ _ _ _ h4
      · obtain ⟨used', rest, ds, calls, rfl, hds, rfl, hc⟩ := ih h2
        exact ⟨_, rest, _, call :: calls, by simp, .cons hl' hd hds, by simp, .cons hrep hc⟩
      · cases h2

/-- What a function for sections does when it fails. -/
def SectionThrow (c : Nat → D) (exact : Bool) (ok : Section → Prop) (x : A D O Bool) : Prop :=
  ∀ ts log log', x ts log = .throw log' →
    ∃ used rest ds calls, ts = used ++ rest ∧ Sections true ok used ds ∧ log' = log ++ calls ∧ Calls c exact calls ds

theorem SectionThrow.nothing {exact : Bool} {ok : Section → Prop} (ts : List (Tok D)) (log : List (Call D O)) :
    ∃ used rest ds calls, ts = used ++ rest ∧ Sections true ok used ds ∧ log = log ++ calls ∧ Calls c exact calls ds :=
  ⟨[], ts, [], [], rfl, .nil, by simp, .nil⟩

theorem setDecl_throw {exact : Bool} {ok : Section → Prop} {sec : Section} {item : Str → A D O Bool} (hok : ok sec)
    (hi : CellOk c exact sec item) (hl : ∀ s, Late (item s)) (n : Nat) : SectionThrow c exact ok (setDecl n sec.keyword item) := by
  intro ts log log' h
  obtain h | ⟨b, t1, l1, h1, h2⟩ := bind_throw h
  · rw [(Quiet.kw _).thrown h]; exact SectionThrow.nothing ts log
  · obtain ⟨rfl, ⟨rfl, rfl⟩ | ⟨rfl, rfl⟩⟩ := kw_ok h1
    · obtain h | ⟨_, t2, l2, h3, h4⟩ := bind_throw h2
      · rw [(Quiet.need _).thrown h]; exact SectionThrow.nothing _ _
      · obtain ⟨rfl, rfl⟩ := need_ok h3
        obtain h | ⟨_, t2, l2, h3, h4⟩ := bind_throw h4
        · obtain ⟨used, rest, ds, calls, rfl, hds, rfl, hc⟩ := cells_throw hi hl n h
          exact ⟨.kw sec.keyword :: .sym .colon :: (used ++ []), rest, ds ++ [], calls, by simp, .cons hok hds .nil, rfl, by simpa using hc⟩
        · cases h4
    · cases h2

theorem anyOf_throw {exact : Bool} {ok : Section → Prop} {xs : List (A D O Bool)} (ho : ∀ x ∈ xs, SectionOk c exact ok x)
    (h : ∀ x ∈ xs, SectionThrow c exact ok x) : SectionThrow c exact ok (anyOf xs) := by
  induction xs with
  | nil => intro ts log log' h; cases h
  | cons x xs ih =>
    intro ts log log' hx
    obtain h1 | ⟨b1, t1, l1, h1, h2⟩ := bind_throw hx
    · exact h x (by simp) _ _ _ h1
    · obtain ⟨rfl, r⟩ | ⟨rfl, rfl, rfl⟩ := ho x (by simp) _ _ _ _ _ h1
      · cases h2
      · exact ih (fun y hy => ho y (by simp [hy])) (fun y hy => h y (by simp [hy])) _ _ _ h2

theorem adamSection_throw (n : Nat) : SectionThrow (O := O) c true (fun _ => True) (adamSection c n) := by
  refine anyOf_throw ?_ ?_
  all_goals
    simp only [List.mem_cons, List.not_mem_nil, or_false]
    rintro x (rfl | rfl | rfl | rfl | rfl | rfl | rfl)
  · exact setDecl_ok (sec := .interface) trivial (interfaceCell_ok _) n
  · exact setDecl_ok (sec := .input) trivial (inputCell_ok _) n
  · exact setDecl_ok (sec := .output) trivial (outputCell_ok _) n
  · exact setDecl_ok (sec := .constant) trivial (constantCell_ok _) n
  · exact setDecl_ok (sec := .logic) trivial (logicCell_ok adamReset_ok n) n
  · exact setDecl_ok (sec := .invariant) trivial (invariantCell_ok _) n
  · exact setDecl_ok (sec := .external) trivial (externalCell_ok _) n
  · exact setDecl_throw (sec := .interface) trivial (interfaceCell_ok _) interfaceCell_late n
  · exact setDecl_throw (sec := .input) trivial (inputCell_ok _) inputCell_late n
  · exact setDecl_throw (sec := .output) trivial (outputCell_ok _) outputCell_late n
  · exact setDecl_throw (sec := .constant) trivial (constantCell_ok _) constantCell_late n
  · exact setDecl_throw (sec := .logic) trivial (logicCell_ok adamReset_ok n) (logicCell_late _ n) n
  · exact setDecl_throw (sec := .invariant) trivial (invariantCell_ok _) invariantCell_late n
  · exact setDecl_throw (sec := .external) trivial (externalCell_ok _) externalCell_late n

theorem eveSection_throw (n : Nat) : SectionThrow (O := O) c false InLayout (eveSection c n) := by
  refine anyOf_throw ?_ ?_
  all_goals
    simp only [List.mem_cons, List.not_mem_nil, or_false]
    rintro x (rfl | rfl | rfl)
  · exact setDecl_ok (sec := .interface) (.inl rfl) (interfaceCell_ok _) n
  · exact setDecl_ok (sec := .constant) (.inr (.inl rfl)) (constantCell_ok _) n
  · exact setDecl_ok (sec := .logic) (.inr (.inr rfl)) (logicCell_ok eveReset_ok n) n
  · exact setDecl_throw (sec := .interface) (.inl rfl) (interfaceCell_ok _) interfaceCell_late n
  · exact setDecl_throw (sec := .constant) (.inr (.inl rfl)) (constantCell_ok _) constantCell_late n
  · exact setDecl_throw (sec := .logic) (.inr (.inr rfl)) (logicCell_ok eveReset_ok n) (logicCell_late _ n) n

theorem sections_throw {exact : Bool} {ok : Section → Prop} {x : A D O Bool} (hx : SectionOk c exact ok x) (ht : SectionThrow c exact ok x)
    (n : Nat) : ∀ {ts log log'}, loop n x ts log = .throw log' →
      ∃ used rest ds calls, ts = used ++ rest ∧ Sections true ok used ds ∧ log' = log ++ calls ∧ Calls c exact calls ds := by
  induction n with
  | zero => intro ts log log' h; cases h
  | succ n ih =>
    intro ts log log' h
    obtain h | ⟨b, t1, l1, h1, h2⟩ := bind_throw h
    · exact ht _ _ _ h
    · obtain ⟨rfl, sec, used, ds, calls, hok, rfl, hds, rfl, hc⟩ | ⟨rfl, rfl, rfl⟩ := hx _ _ _ _ _ h1
      · obtain ⟨used', rest, ds', calls', rfl, hds', rfl, hc'⟩ := ih h2
        exact ⟨_, rest, _, calls ++ calls', by simp, .cons hok hds hds', by simp, List.rel_append hc hc'⟩
      · cases h2

/-! ### Property models -/

/-- The text `used` of a property model, in which at most a closing brace is missing, and its declarations. -/
def OpenSheets (used : List (Tok D)) (ds : List (Decl D O)) : Prop :=
  Sheets true used ds ∨ Sheets true (used ++ [.sym .closeBrace]) ds

theorem sheetSpecifier_throw {n : Nat} {ts log log'} (h : sheetSpecifier (O := O) c n ts log = .throw log') :
    ∃ used rest ds, ts = used ++ rest ∧ OpenSheets used ds ∧ log' = log ++ ds.map (report c) := by
  have nothing : ∃ used rest ds, ts = used ++ rest ∧ OpenSheets used ds ∧ log = log ++ ds.map (report c) :=
    ⟨[], ts, [], rfl, .inl .nil, by simp⟩
  obtain h | ⟨_, t1, l1, h1, h2⟩ := bind_throw h
  · rw [(Quiet.lead _).thrown h]; exact nothing
  obtain ⟨rfl, ul, s, rfl, hl, -⟩ := lead_ok' h1
  obtain h | ⟨b, t2, l2, h3, h4⟩ := bind_throw h2
  · rw [(Quiet.kw _).thrown h]; exact nothing
  obtain ⟨rfl, ⟨rfl, rfl⟩ | ⟨rfl, rfl⟩⟩ := kw_ok h3
  · obtain h | ⟨a, t3, l3, h5, h6⟩ := bind_throw h4
    · rw [Quiet.ident.thrown h]; exact nothing
    obtain ⟨rfl, ⟨m, rfl, rfl⟩ | ⟨rfl, rfl⟩⟩ := ident_ok h5
    · obtain h | ⟨a, t3, l3, h7, h8⟩ := bind_throw h6
      · rw [(Quiet.need _).thrown h]; exact nothing
      obtain ⟨rfl, rfl⟩ := need_ok h7
      obtain h | ⟨a, t3, l3, h9, h10⟩ := bind_throw h8
      · obtain ⟨used, rest, ds, calls, rfl, hds, rfl, hc⟩ := sections_throw (adamSection_ok n) (adamSection_throw n) _ h
        refine ⟨ul ++ .kw "sheet".toList :: .ident m :: .sym .openBrace :: used, rest, ds ++ [], by simp, .inr ?_, ?_⟩
        · have := Sheets.cons (lax := true) m hl hds .none .nil
          simpa using this
        · rw [calls_exact hc]; simp
      · obtain ⟨used, ds, calls, rfl, hds, rfl, hc⟩ := sections_ok (adamSection_ok n) _ h9
        obtain h | ⟨a, t3, l3, h11, h12⟩ := bind_throw h10
        · rw [(Quiet.need _).thrown h]
          refine ⟨ul ++ .kw "sheet".toList :: .ident m :: .sym .openBrace :: used, t3, ds ++ [], by simp, .inr ?_, ?_⟩
          · have := Sheets.cons (lax := true) m hl hds .none .nil
            simpa using this
          · rw [calls_exact hc]; simp
        · obtain ⟨rfl, rfl⟩ := need_ok h11
          obtain h | ⟨a, t4, l4, h13, h14⟩ := bind_throw h12
          · rw [(Quiet.trail _).thrown h]
            refine ⟨ul ++ .kw "sheet".toList :: .ident m :: .sym .openBrace :: used, .sym .closeBrace :: t3, ds ++ [], by simp, .inr ?_, ?_⟩
            · have := Sheets.cons (lax := true) m hl hds .none .nil
              simpa using this
            · rw [calls_exact hc]; simp
          · cases h14
    · cases h6; exact nothing
  · cases h4

theorem sheets_throw (n m : Nat) : ∀ {ts log log'}, loop (O := O) n (sheetSpecifier c m) ts log = .throw log' →
    ∃ used rest ds, ts = used ++ rest ∧ OpenSheets used ds ∧ log' = log ++ ds.map (report c) := by
  induction n with
  | zero => intro ts log log' h; cases h
  | succ n ih =>
    intro ts log log' h
    obtain h | ⟨b, t1, l1, h1, h2⟩ := bind_throw h
    · exact sheetSpecifier_throw h
    · obtain ⟨rfl, l, s, k, used, ds, calls, t, s', rfl, hl, hds, ht, rfl, hc⟩ | ⟨rfl, -⟩ := sheetSpecifier_ok h1
      · obtain ⟨used', rest, ds', rfl, hds', rfl⟩ := ih h2
        refine ⟨l ++ .kw "sheet".toList :: .ident k :: .sym .openBrace :: (used ++ .sym .closeBrace :: (t ++ used')), rest, ds ++ ds', by simp, ?_, ?_⟩
        · rcases hds' with hds' | hds'
          · exact .inl (.cons k hl hds ht hds')
          · right
            have := Sheets.cons k hl hds ht hds'
            simpa using this
        · rw [calls_exact hc]; simp
      · cases h2

theorem sheets_prefix (n m : Nat) : ∀ {ts log u ts' log'}, loop (O := O) n (sheetSpecifier c m) ts log = .ok u ts' log' →
    ∃ used ds, ts = used ++ ts' ∧ Sheets true used ds ∧ log' = log ++ ds.map (report c) := by
  induction n with
  | zero => intro ts log u ts' log' h; cases h
  | succ n ih =>
    intro ts log u ts' log' h
    obtain ⟨b, t1, l1, h1, h2⟩ := bind_ok h
    obtain ⟨rfl, l, s, k, used, ds, calls, t, s', rfl, hl, hds, ht, rfl, hc⟩ | ⟨rfl, rfl, l, s, hl, rfl⟩ := sheetSpecifier_ok h1
    · obtain ⟨used', ds', rfl, hds', rfl⟩ := ih h2
      rw [calls_exact hc]
      exact ⟨_, ds ++ ds', by simp, .cons k hl hds ht hds', by simp⟩
    · cases h2
      refine ⟨l, [], rfl, ?_, by simp⟩
      cases hl with
      | none => exact .nil
      | some s => exact .dangling _ rfl

theorem adamParse_throw {ts log log'} (h : adamParse (O := O) c ts log = .throw log') :
    ∃ used rest ds, ts = used ++ rest ∧ OpenSheets used ds ∧ log' = log ++ ds.map (report c) := by
  obtain h | ⟨b, t1, l1, h1, h2⟩ := bind_throw h
  · exact sheets_throw _ _ h
  · obtain ⟨used, ds, rfl, hds, rfl⟩ := sheets_prefix _ _ h1
    refine ⟨used, t1, ds, rfl, .inl hds, ?_⟩
    cases t1 <;> cases h2
    rfl

/-! ### Layouts -/

theorem Quiet.viewClass : Quiet (viewClass (O := O) c) := by
  refine Quiet.ident.bind fun a => ?_
  cases a with
  | none => exact .pure _
  | some n => exact (Quiet.need _).bind fun _ => (Quiet.lift _).bind fun _ => (Quiet.need _).bind fun _ => .pure _

/-- Nothing but braces. -/
def Braces (ts : List (Tok D)) : Prop := ∀ t ∈ ts, t = .sym .openBrace ∨ t = .sym .closeBrace

theorem view_throw (n : Nat) :
    (∀ loc ts log log', viewDef (O := O) c n loc ts log = .throw log' → log' = log ∨ ∃ used rest close v, ts = used ++ rest ∧ Braces close ∧
      ViewDef true (used ++ close) v ∧ log' = log ++ reportView c loc (viewCount log + 1) v) ∧
    (∀ loc ts log log', viewSeq (O := O) c n loc ts log = .throw log' → ∃ used rest close vs, ts = used ++ rest ∧ Braces close ∧
      ViewDefs true (used ++ close) vs ∧ log' = log ++ reportViews c loc (viewCount log + 1) vs) := by
  induction n with
  | zero =>
    constructor
    · intro _ _ _ _ h; rw [viewDef] at h; cases h
    · intro _ _ _ _ h; rw [viewSeq] at h; cases h
  | succ n ih =>
    obtain ⟨ih1, ih2⟩ := ih
    constructor
    · intro loc ts log log' h
      rw [viewDef] at h
      obtain h | ⟨det, t0, l0, h0, h1⟩ := bind_throw h
      · exact .inl ((Quiet.lead _).thrown h)
      obtain ⟨rfl, ul, s, rfl, hl, hdet⟩ := lead_ok' h0
      have : det = s := by grind
      subst this
      obtain h | ⟨a, t2, l2, h3, h4⟩ := bind_throw h1
      · exact .inl (Quiet.viewClass.thrown h)
      obtain ⟨rfl, ⟨rfl, rfl⟩ | ⟨used, k, e, rfl, hn, rfl⟩⟩ := viewClass_ok h3
      · cases h4
      · obtain h | ⟨leaf, t3, l3, h5, h6⟩ := bind_throw h4
        · exact .inl ((Quiet.tok _).thrown h)
        obtain h | ⟨br, t4, l4, h7, h8⟩ := bind_throw h6
        · rw [(Quiet.trail _).thrown h, (Quiet.tok _).log h5]; exact .inl rfl
        obtain ⟨rfl, ut, b', rfl, hb, hs⟩ := trail_ok' h7
        have : br = b' := by grind
        subst this
        obtain h9 | ⟨node, t5, l5, h9, h10⟩ := bind_throw h8
        · cases h9
        cases h9
        obtain ⟨rfl, ⟨rfl, rfl⟩ | ⟨rfl, rfl⟩⟩ := tok_ok h5
        · cases h10
        · right
          have stop : ∀ (l3 : List (Call D O)) (rest : List (Tok D)), ∃ used' rest' close v, ul ++ (used ++ (ut ++ rest)) = used' ++ rest' ∧ Braces close ∧
              ViewDef true (used' ++ close) v ∧ l3 ++ [Call.view loc k (compile c e) br det] = l3 ++ reportView c loc (viewCount l3 + 1) v := by
            intro l3 rest
            refine ⟨ul ++ used ++ ut, rest, [.sym .openBrace, .sym .closeBrace], _, by simp, by simp [Braces],
              ViewDef.node (us := []) hl hn hb .nil, ?_⟩
            simp [reportView, reportViews]
          obtain h | ⟨_, t6, l6, h13, h14⟩ := bind_throw h10
          · rw [(Quiet.need _).thrown h]; exact stop _ _
          obtain ⟨rfl, rfl⟩ := need_ok h13
          obtain h | ⟨_, t8, l8, h15, h16⟩ := bind_throw h14
          · obtain ⟨used', rest, close, vs, rfl, hcl, hvs, rfl⟩ := ih2 _ _ _ _ h
            refine ⟨ul ++ used ++ ut ++ .sym .openBrace :: used', rest, close ++ [.sym .closeBrace], .mk k e br det vs, by simp, ?_, ?_, ?_⟩
            · intro t ht
              rcases List.mem_append.1 ht with ht | ht
              · exact hcl t ht
              · simp at ht; exact .inr ht
            · have := ViewDef.node (lax := true) hl hn hb hvs
              simpa using this
            · simp [reportView, viewCount_append, viewCount]
          · obtain ⟨used', vs, rfl, hvs, rfl⟩ := (view_ok _).2 _ _ _ _ _ _ h15
            obtain h | ⟨_, t8, l8, h15, h16⟩ := bind_throw h16
            · rw [(Quiet.need _).thrown h]
              refine ⟨ul ++ used ++ ut ++ .sym .openBrace :: used', t8, [.sym .closeBrace], .mk k e br det vs, by simp, by simp [Braces], ?_, ?_⟩
              · have := ViewDef.node hl hn hb hvs
                simpa using this
              · simp [reportView, viewCount_append, viewCount]
            · cases h16
    · intro loc ts log log' h
      rw [viewSeq] at h
      obtain h | ⟨b, t1, l1, h1, h2⟩ := bind_throw h
      · obtain rfl | ⟨used, rest, close, v, rfl, hcl, hv, rfl⟩ := ih1 _ _ _ _ h
        · exact ⟨[], ts, [], [], rfl, by simp [Braces], .nil, by simp [reportViews]⟩
        · refine ⟨used, rest, close, [v], rfl, hcl, ?_, by simp [reportViews]⟩
          have := ViewDefs.cons hv .nil
          simpa using this
      · obtain ⟨rfl, used, v, rfl, hv, rfl⟩ | ⟨rfl, rfl, l, s, hl, rfl⟩ := (view_ok _).1 _ _ _ _ _ _ h1
        · obtain ⟨used', rest, close, vs, rfl, hcl, hvs, rfl⟩ := ih2 _ _ _ _ h2
          refine ⟨used ++ used', rest, close, v :: vs, by simp, hcl, ?_, ?_⟩
          · have := ViewDefs.cons hv hvs
            simpa using this
          · simp [reportViews, viewCount_append, viewCount_view]
            congr 1
            omega
        · cases h2

/-- `view v(); }` -/
def anyView (n : Str) : List (Tok D) :=
  [.kw "view".toList, .ident n, .sym .openParen, .sym .closeParen, .sym .semicolon, .sym .closeBrace]

theorem eveParse_throw {ts log'} (h : eveParse (O := O) c ts [] = .throw log') :
    log' = [] ∨
    (∃ used rest ds calls, ts = used ++ rest ∧ (∀ n, Layout true (used ++ anyView n) ds (.mk n (.const (.dict [])) [] [] [])) ∧
      Calls c false calls ds ∧ (log' = calls ∨ log' = calls ++ [.finalize])) ∨
    (∃ used rest close ds v calls, ts = used ++ rest ∧ Braces close ∧ Layout true (used ++ close) ds v ∧
      Calls c false calls ds ∧ log' = calls ++ .finalize :: reportView c 0 1 v) := by
  obtain h | ⟨b, t1, l1, h1, h2⟩ := bind_throw h
  · obtain h | ⟨_, t2, l2, h3, h4⟩ := bind_throw h
    · exact .inl ((Quiet.lead _).thrown h)
    obtain ⟨rfl, ul, s, hts, hl, -⟩ := lead_ok' h3
    obtain h | ⟨b, t3, l3, h5, h6⟩ := bind_throw h4
    · exact .inl ((Quiet.kw _).thrown h)
    obtain ⟨rfl, ⟨rfl, rfl⟩ | ⟨rfl, rfl⟩⟩ := kw_ok h5
    · obtain h | ⟨a, t4, l4, h7, h8⟩ := bind_throw h6
      · exact .inl (Quiet.ident.thrown h)
      obtain ⟨rfl, ⟨m, rfl, rfl⟩ | ⟨rfl, rfl⟩⟩ := ident_ok h7
      · obtain h | ⟨_, t5, l5, h9, h10⟩ := bind_throw h8
        · exact .inl ((Quiet.need _).thrown h)
        obtain ⟨rfl, rfl⟩ := need_ok h9
        have any : ∀ {used : List (Tok D)} {ds : List (Decl D O)}, Sections true InLayout used ds → ∀ n,
            Layout true ((ul ++ .kw "layout".toList :: .ident m :: .sym .openBrace :: used) ++ anyView n) ds
              (.mk n (.const (.dict [])) [] [] []) := by
          intro used ds h n
          have := Layout.mk (lax := true) m hl h (ViewDef.leaf .none (Class.noArgs n) .none) .none
          simpa [anyView] using this
        obtain h | ⟨_, t6, l6, h11, h12⟩ := bind_throw h10
        · obtain ⟨used, rest, ds, calls, rfl, hds, rfl, hc⟩ := sections_throw (eveSection_ok _) (eveSection_throw _) _ h
          exact .inr (.inl ⟨_, rest, ds, log', by rw [hts]; simp, any hds, hc, .inl rfl⟩)
        obtain ⟨used, ds, calls, rfl, hds, rfl, hc⟩ := sections_ok (eveSection_ok _) _ h11
        obtain h | ⟨_, t7, l7, h13, h14⟩ := bind_throw h12
        · cases h
        cases h13
        have fin : ∃ used rest ds calls, ts = used ++ rest ∧ (∀ n, Layout true (used ++ anyView n) ds (.mk n (.const (.dict [])) [] [] [])) ∧
            Calls c false calls ds ∧ (l6 ++ [.finalize] = calls ∨ l6 ++ [.finalize] = calls ++ [.finalize]) :=
          ⟨_, t6, ds, l6, by rw [hts]; simp, any hds, hc, .inr rfl⟩
        obtain h | ⟨b, t8, l8, h15, h16⟩ := bind_throw h14
        · rw [(Quiet.kw _).thrown h]; exact .inr (.inl fin)
        obtain ⟨rfl, ⟨rfl, rfl⟩ | ⟨rfl, rfl⟩⟩ := kw_ok h15
        · obtain h | ⟨b, t9, l9, h17, h18⟩ := bind_throw h16
          · obtain rfl | ⟨usedv, rest, close, v, rfl, hcl, hv, rfl⟩ := (view_throw _).1 _ _ _ _ h
            · exact .inr (.inl fin)
            · refine .inr (.inr ⟨ul ++ .kw "layout".toList :: .ident m :: .sym .openBrace :: (used ++ .kw "view".toList :: usedv), rest,
                close ++ [.sym .closeBrace], ds, v, l6, by rw [hts]; simp, ?_, ?_, hc, ?_⟩)
              · intro t ht
                rcases List.mem_append.1 ht with ht | ht
                · exact hcl t ht
                · simp at ht; exact .inr ht
              · have := Layout.mk (lax := true) m hl hds hv .none
                simpa using this
              · simp [viewCount_append, viewCount_calls hc, viewCount]
          · obtain ⟨rfl, usedv, v, rfl, hv, rfl⟩ | ⟨rfl, rfl, -⟩ := (view_ok _).1 _ _ _ _ _ _ h17
            · have done : ∃ used rest close ds' v' calls, ts = used ++ rest ∧ Braces close ∧ Layout true (used ++ close) ds' v' ∧
                  Calls c false calls ds' ∧ l6 ++ [.finalize] ++ reportView c 0 (viewCount (l6 ++ [Call.finalize]) + 1) v =
                    calls ++ .finalize :: reportView c 0 1 v' := by
                refine ⟨ul ++ .kw "layout".toList :: .ident m :: .sym .openBrace :: (used ++ .kw "view".toList :: usedv), t9,
                  [.sym .closeBrace], ds, v, l6, by rw [hts]; simp, by simp [Braces], ?_, hc, ?_⟩
                · have := Layout.mk (lax := true) m hl hds hv .none
                  simpa using this
                · simp [viewCount_append, viewCount_calls hc, viewCount]
              obtain ⟨used', rest', close', ds', v', calls', e1, e2, e3, e4, e5⟩ := done
              have h18' : log' = l6 ++ [.finalize] ++ reportView c 0 (viewCount (l6 ++ [Call.finalize]) + 1) v :=
                ((Quiet.need _).bind fun _ => (Quiet.trail _).bind fun _ => Quiet.pure _).thrown h18
              exact .inr (.inr ⟨used', rest', close', ds', v', calls', e1, e2, e3, e4, h18'.trans e5⟩)
            · cases h18; exact .inr (.inl fin)
        · cases h16; exact .inr (.inl fin)
      · cases h8; exact .inl rfl
    · cases h6
  · cases b with
    | true => cases h2
    | false =>
      cases h2
      left
      obtain ⟨_, t2, l2, h3, h4⟩ := bind_ok h1
      obtain ⟨rfl, ul, s, hts, hl, -⟩ := lead_ok' h3
      obtain ⟨b, t3, l3, h5, h6⟩ := bind_ok h4
      obtain ⟨rfl, ⟨rfl, rfl⟩ | ⟨rfl, rfl⟩⟩ := kw_ok h5
      · obtain ⟨a, t4, l4, h7, h8⟩ := bind_ok h6
        cases a with
        | none => cases h8
        | some m =>
          obtain ⟨_, t5, l5, h9, h10⟩ := bind_ok h8
          obtain ⟨_, t6, l6, h11, h12⟩ := bind_ok h10
          obtain ⟨_, t7, l7, h13, h14⟩ := bind_ok h12
          obtain ⟨b, t8, l8, h15, h16⟩ := bind_ok h14
          cases b with
          | false => cases h16
          | true =>
            obtain ⟨b, t9, l9, h17, h18⟩ := bind_ok h16
            cases b with
            | false => cases h18
            | true =>
              obtain ⟨_, t10, l10, h19, h20⟩ := bind_ok h18
              obtain ⟨_, t11, l11, h21, h22⟩ := bind_ok h20
              cases h22
      · cases h6; rfl

end Verif.Decl
