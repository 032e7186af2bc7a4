import Verif.Decl.Sound
/-
No loop of the parsers makes more rounds than it is allowed.
-/
namespace Verif.Decl
open Verif.Expr Parser Verif.Decl.Spec

variable {D O α β : Type} {c : Nat → D}

theorem bind_nf {x : A D O α} {f : α → A D O β} {ts log} (h : x ts log ≠ .fuel)
    (h' : ∀ a t l, x ts log = .ok a t l → f a t l ≠ .fuel) : (x >>= f) ts log ≠ .fuel := by
  rw [bind_def]
  cases hx : x ts log with
  | ok a t l => exact h' a t l hx
  | throw l => intro h; cases h
  | fuel => exact absurd hx h

/-- Never out of fuel. -/
def Nf (x : A D O α) : Prop := ∀ ts log, x ts log ≠ .fuel

theorem Nf.bind {x : A D O α} {f : α → A D O β} (h : Nf x) (h' : ∀ a, Nf (f a)) : Nf (x >>= f) :=
  fun ts log => bind_nf (h ts log) fun a t l _ => h' a t l
theorem Nf.pure (a : α) : Nf (pure a : A D O α) := fun _ _ h => by cases h
theorem Nf.throw : Nf (throwA : A D O α) := fun _ _ h => by cases h
theorem Nf.ite {p : Prop} [Decidable p] {x y : A D O α} (h : Nf x) (h' : Nf y) : Nf (if p then x else y) := by
  split
  · exact h
  · exact h'
theorem Nf.accept (f : Tok D → Option α) : Nf (Decl.lift (D := D) (O := O) (Parser.accept f)) := by
  intro ts log h
  unfold Decl.lift Parser.accept at h
  cases ts with
  | nil => cases h
  | cons t r => cases t <;> simp only at h <;> (try cases h) <;> (cases hf : f _ <;> rw [hf] at h <;> cases h)
theorem Nf.tok (y : Sym) : Nf (tok (D := D) (O := O) y) := by
  intro ts log h
  rcases ts with - | ⟨t, r⟩
  · cases h
  · by_cases hb : t = .bad
    · subst hb; cases h
    · by_cases hy : t = .sym y
      · subst hy; rw [tok_self] at h; cases h
      · rw [tok_miss (by simpa using hb) (by simpa using hy)] at h; cases h
theorem Nf.kw (k : Str) : Nf (kw (D := D) (O := O) k) := by
  intro ts log h
  rcases ts with - | ⟨t, r⟩
  · cases h
  · by_cases hb : t = .bad
    · subst hb; cases h
    · by_cases hy : t = .kw k
      · subst hy; rw [kw_self] at h; cases h
      · rw [kw_miss (by simpa using hb) (by simpa using hy)] at h; cases h
theorem Nf.need (y : Sym) : Nf (need (D := D) (O := O) y) := (Nf.tok _).bind fun _ => .ite (.pure _) .throw
theorem Nf.ident : Nf (ident (D := D) (O := O)) := (Nf.accept _).bind fun _ => .pure _
theorem Nf.lead (s : Str) : Nf (lead (D := D) (O := O) s) := (Nf.accept _).bind fun a => by cases a.1 <;> exact .pure _
theorem Nf.trail (s : Str) : Nf (trail (D := D) (O := O) s) := (Nf.accept _).bind fun a => by cases a.1 <;> exact .pure _
theorem Nf.P (f : F) : Nf (Decl.lift (D := D) (O := O) (P c f)) := by
  intro ts log h
  unfold Decl.lift at h
  cases hx : Parser.P (O := O) c f [] ts with
  | ok => rw [hx] at h; cases h
  | throw => rw [hx] at h; cases h
  | fuel => exact P_ne_fuel _ _ _ _ hx
theorem Nf.needExpr : Nf (needExpr (O := O) c) :=
  (Nf.P _).bind fun a => by obtain ⟨_ | _, _⟩ := a <;> first | exact .pure _ | exact .throw
theorem Nf.initializer : Nf (initializer (O := O) c) :=
  (Nf.tok _).bind fun _ => .ite (.pure _) (Nf.needExpr.bind fun _ => .pure _)
theorem Nf.defineExpr : Nf (defineExpr (O := O) c) :=
  (Nf.tok _).bind fun _ => .ite (.pure _) (Nf.needExpr.bind fun _ => .pure _)
theorem Nf.conditional : Nf (conditional (O := O) c) :=
  (Nf.kw _).bind fun _ => .ite (.pure _) ((Nf.need _).bind fun _ => Nf.needExpr.bind fun _ => (Nf.need _).bind fun _ => .pure _)
theorem Nf.endStatement (s : Str) : Nf (endStatement (D := D) (O := O) s) := (Nf.need _).bind fun _ => Nf.trail _
theorem Nf.namedDecl : Nf (namedDecl (O := O) c) := by
  refine Nf.ident.bind fun a => ?_
  cases a with
  | none => exact .pure _
  | some n =>
    refine Nf.defineExpr.bind fun a => ?_
    cases a with
    | none => exact .throw
    | some e => exact (Nf.endStatement _).bind fun _ => .pure _
theorem Nf.emit (x : Call D O) : Nf (emit x) := fun _ _ h => by cases h

theorem moreNames_nf (n : Nat) : ∀ (ns : List Str) (ts : List (Tok D)) (log : List (Call D O)), ts.length < n → moreNames n ns ts log ≠ .fuel := by
  induction n with
  | zero => intro ns ts log h; omega
  | succ n ih =>
    intro ns ts log h
    refine bind_nf (Nf.tok _ _ _) fun b t1 l1 h1 => ?_
    obtain ⟨rfl, ⟨rfl, rfl⟩ | ⟨rfl, rfl⟩⟩ := tok_ok h1
    · refine bind_nf (Nf.ident _ _) fun b t2 l2 h2 => ?_
      obtain ⟨rfl, ⟨m, rfl, rfl⟩ | ⟨rfl, rfl⟩⟩ := ident_ok h2
      · exact ih _ _ _ (by simp only [List.length_cons] at h; omega)
      · exact Nf.throw _ _
    · exact Nf.pure _ _ _

theorem relateExpr_nf {n : Nat} {r : Rel D O} {ts : List (Tok D)} {log : List (Call D O)} (h : ts.length ≤ n) :
    relateExpr c n r ts log ≠ .fuel := by
  refine bind_nf (Nf.lead _ _ _) fun b t1 l1 h1 => ?_
  obtain ⟨rfl, ul, s, rfl, hl, hdet⟩ := lead_ok' h1
  refine bind_nf (Nf.ident _ _) fun b t2 l2 h2 => ?_
  obtain ⟨rfl, ⟨m, rfl, rfl⟩ | ⟨rfl, rfl⟩⟩ := ident_ok h2
  · refine bind_nf (moreNames_nf _ _ _ _ (by simp at h; omega)) fun b t3 l3 h3 => ?_
    refine bind_nf (Nf.defineExpr _ _) fun b t3 l3 h3 => ?_
    cases b with
    | none => exact Nf.throw _ _
    | some e => exact ((Nf.endStatement _).bind fun _ => .pure _) _ _
  · exact Nf.pure _ _ _

theorem relateExpr_pos {used : List (Tok D)} {d : RelDecl D O} (h : RelateExpr used d) : 0 < used.length := by
  cases h with
  | mk _ hn _ _ => cases hn <;> simp <;> omega

theorem relateLoop_nf (reset : Rel D O → Rel D O) (n : Nat) : ∀ (r : Rel D O) (ts : List (Tok D)) (log : List (Call D O)), ts.length < n →
    relateLoop c reset n r ts log ≠ .fuel := by
  induction n with
  | zero => intro r ts log h; omega
  | succ n ih =>
    intro r ts log h
    refine bind_nf (relateExpr_nf (by omega)) fun b t1 l1 h1 => ?_
    obtain ⟨rfl, ⟨rfl, hx⟩ | ⟨r', used, d, rfl, rfl, hd, hw, he⟩⟩ := relateExpr_ok h1
    · exact Nf.pure _ _ _
    · have := relateExpr_pos hd
      exact bind_nf (ih _ _ _ (by simp at h; omega)) fun b t2 l2 h2 => Nf.pure _ _ _

theorem relateDecl_nf (reset : Rel D O → Rel D O) {n : Nat} {ts : List (Tok D)} {log : List (Call D O)} (h : ts.length < n) :
    relateDecl c reset n ts log ≠ .fuel := by
  refine bind_nf (Nf.conditional _ _) fun b t1 l1 h1 => ?_
  obtain ⟨rfl, uc, e, rfl, hc, rfl⟩ := conditional_ok h1
  refine bind_nf (Nf.kw _ _ _) fun b t2 l2 h2 => ?_
  obtain ⟨rfl, ⟨rfl, rfl⟩ | ⟨rfl, rfl⟩⟩ := kw_ok h2
  · refine bind_nf (Nf.need _ _ _) fun b t3 l3 h3 => ?_
    obtain ⟨rfl, rfl⟩ := need_ok h3
    simp at h
    refine bind_nf (relateExpr_nf (by omega)) fun b t4 l4 h4 => ?_
    obtain ⟨rfl, ⟨rfl, hx⟩ | ⟨r', used, d, rfl, rfl, hd, hw, he⟩⟩ := relateExpr_ok h4
    · exact Nf.throw _ _
    · simp at h
      refine bind_nf (relateExpr_nf (by omega)) fun b t5 l5 h5 => ?_
      obtain ⟨rfl, ⟨rfl, hx⟩ | ⟨r', used, d, rfl, rfl, hd, hw, he⟩⟩ := relateExpr_ok h5
      · exact Nf.throw _ _
      · simp at h
        refine bind_nf (relateLoop_nf _ _ _ _ _ (by omega)) fun b t6 l6 h6 => ?_
        exact ((Nf.need _).bind fun _ => (Nf.trail _).bind fun _ => .pure _) _ _
  · exact (Nf.ite .throw (.pure _)) _ _

/-- Not out of fuel on fewer than `n` tokens. -/
def NfN (n : Nat) (x : A D O α) : Prop := ∀ ts log, ts.length < n → x ts log ≠ .fuel

theorem interfaceCell_nf (s : Str) : Nf (interfaceCell (O := O) c s) := by
  refine (Nf.kw _).bind fun _ => Nf.ident.bind fun a => ?_
  cases a with
  | none => exact .pure _
  | some n => exact Nf.initializer.bind fun _ => Nf.defineExpr.bind fun _ => (Nf.endStatement _).bind fun _ => (Nf.emit _).bind fun _ => .pure _
theorem inputCell_nf (s : Str) : Nf (inputCell (O := O) c s) := by
  refine Nf.ident.bind fun a => ?_
  cases a with
  | none => exact .pure _
  | some n => exact Nf.initializer.bind fun _ => (Nf.endStatement _).bind fun _ => (Nf.emit _).bind fun _ => .pure _
theorem externalCell_nf (s : Str) : Nf (externalCell (D := D) (O := O) s) := by
  refine Nf.ident.bind fun a => ?_
  cases a with
  | none => exact .pure _
  | some n => exact (Nf.endStatement _).bind fun _ => (Nf.emit _).bind fun _ => .pure _
theorem constantCell_nf (s : Str) : Nf (constantCell (O := O) c s) := by
  refine Nf.ident.bind fun a => ?_
  cases a with
  | none => exact .pure _
  | some n =>
    refine Nf.initializer.bind fun a => ?_
    cases a with
    | none => exact .throw
    | some e => exact (Nf.endStatement _).bind fun _ => (Nf.emit _).bind fun _ => .pure _
theorem outputCell_nf (s : Str) : Nf (outputCell (O := O) c s) := by
  refine Nf.namedDecl.bind fun a => ?_
  cases a with
  | none => exact .pure _
  | some n => exact (Nf.emit _).bind fun _ => .pure _
theorem invariantCell_nf (s : Str) : Nf (invariantCell (O := O) c s) := by
  refine Nf.namedDecl.bind fun a => ?_
  cases a with
  | none => exact .pure _
  | some n => exact (Nf.emit _).bind fun _ => .pure _
theorem logicCell_nf (reset : Rel D O → Rel D O) (n : Nat) (s : Str) : NfN n (logicCell c reset n s) := by
  intro ts log h
  refine bind_nf (Nf.namedDecl _ _) fun a t1 l1 h1 => ?_
  obtain ⟨rfl, ⟨rfl, rfl⟩ | ⟨used, n, e, br, rfl, hn, rfl⟩⟩ := namedDecl_ok h1
  · refine bind_nf (relateDecl_nf _ h) fun a t1 l1 h1 => ?_
    cases a with
    | none => exact Nf.pure _ _ _
    | some a => exact ((Nf.emit _).bind fun _ => .pure _) _ _
  · exact ((Nf.emit _).bind fun _ => .pure _) _ _

theorem Nf.n {x : A D O α} (h : Nf x) (n : Nat) : NfN n x := fun ts log _ => h ts log

theorem loop_nf {n : Nat} {x : A D O Bool} (hx : NfN n x)
    (hlt : ∀ ts log ts' log', x ts log = .ok true ts' log' → ts'.length < ts.length) :
    ∀ (k : Nat) (ts : List (Tok D)) (log : List (Call D O)), ts.length < k → k ≤ n → loop k x ts log ≠ .fuel := by
  intro k
  induction k with
  | zero => intro ts log h; omega
  | succ k ih =>
    intro ts log h hk
    refine bind_nf (hx _ _ (by omega)) fun b t1 l1 h1 => ?_
    cases b with
    | false => exact Nf.pure _ _ _
    | true => exact ih _ _ (by have := hlt _ _ _ _ h1; omega) (by omega)

theorem define_pos {used : List (Tok D)} {e : Expr.Spec.Expr D O} (h : Define used e) : 0 < used.length := by cases h; simp
theorem cell_pos {lax detailed sec} {used : List (Tok D)} {d : Decl D O} (h : Cell lax detailed sec used d) : 0 < used.length := by
  cases h with
  | output h => cases h; simp
  | logic h => cases h; simp
  | invariant h => cases h; simp
  | interface => simp; omega
  | input => simp
  | constant => simp
  | relate => simp; omega
  | external => simp

theorem setDecl_nf {exact : Bool} {sec : Section} {item : Str → A D O Bool} {n : Nat} (hi : CellOk c exact sec item)
    (hn : ∀ s, NfN n (item s)) (k : Str) : NfN n (setDecl n k item) := by
  intro ts log h
  refine bind_nf (Nf.kw _ _ _) fun b t1 l1 h1 => ?_
  obtain ⟨rfl, ⟨rfl, rfl⟩ | ⟨rfl, rfl⟩⟩ := kw_ok h1
  · refine bind_nf (Nf.need _ _ _) fun b t2 l2 h2 => ?_
    obtain ⟨rfl, rfl⟩ := need_ok h2
    refine bind_nf (loop_nf (n := n) ?_ ?_ _ _ _ (by simp at h; omega) (Nat.le_refl _)) fun _ _ _ _ => Nf.pure _ _ _
    · intro ts log h
      refine bind_nf (Nf.lead _ _ _) fun s t1 l1 h1 => ?_
      obtain ⟨rfl, ul, b', rfl, hl, hdet⟩ := lead_ok' h1
      exact hn _ _ _ (by simp at h; omega)
    · intro ts log ts' log' h
      obtain ⟨s, t1, l1, h1, h2⟩ := bind_ok h
      obtain ⟨rfl, ul, b', rfl, hl, hdet⟩ := lead_ok' h1
      obtain ⟨-, used, d, call, rfl, hd, rfl, hrep⟩ | ⟨h, -⟩ := hi _ _ _ _ _ _ h2
      · have := cell_pos hd
        simp; omega
      · cases h
  · exact Nf.pure _ _ _

theorem anyOf_nf {exact : Bool} {ok : Section → Prop} {n : Nat} {xs : List (A D O Bool)}
    (h : ∀ x ∈ xs, NfN n x ∧ SectionOk c exact ok x) : NfN n (anyOf xs) := by
  induction xs with
  | nil => exact fun _ _ _ h => by cases h
  | cons x xs ih =>
    intro ts log hl
    refine bind_nf ((h x (by simp)).1 _ _ hl) fun b t l h1 => ?_
    obtain ⟨rfl, r⟩ | ⟨rfl, rfl, rfl⟩ := (h x (by simp)).2 _ _ _ _ _ h1
    · exact Nf.pure _ _ _
    · exact ih (fun y hy => h y (by simp [hy])) _ _ hl

theorem adamSection_nf (n : Nat) : NfN n (adamSection (O := O) c n) := by
  refine anyOf_nf (c := c) (exact := true) (ok := fun _ => True) ?_
  simp only [List.mem_cons, List.not_mem_nil, or_false]
  rintro x (rfl | rfl | rfl | rfl | rfl | rfl | rfl)
  · exact ⟨setDecl_nf (interfaceCell_ok true) (fun s => (interfaceCell_nf s).n n) _, setDecl_ok (sec := .interface) trivial (interfaceCell_ok _) n⟩
  · exact ⟨setDecl_nf (inputCell_ok true) (fun s => (inputCell_nf s).n n) _, setDecl_ok (sec := .input) trivial (inputCell_ok _) n⟩
  · exact ⟨setDecl_nf (outputCell_ok true) (fun s => (outputCell_nf s).n n) _, setDecl_ok (sec := .output) trivial (outputCell_ok _) n⟩
  · exact ⟨setDecl_nf (constantCell_ok true) (fun s => (constantCell_nf s).n n) _, setDecl_ok (sec := .constant) trivial (constantCell_ok _) n⟩
  · exact ⟨setDecl_nf (logicCell_ok adamReset_ok n) (fun s => logicCell_nf _ n s) _,
      setDecl_ok (sec := .logic) trivial (logicCell_ok adamReset_ok n) n⟩
  · exact ⟨setDecl_nf (invariantCell_ok true) (fun s => (invariantCell_nf s).n n) _, setDecl_ok (sec := .invariant) trivial (invariantCell_ok _) n⟩
  · exact ⟨setDecl_nf (externalCell_ok (c := c) true) (fun s => (externalCell_nf s).n n) _, setDecl_ok (sec := .external) trivial (externalCell_ok _) n⟩

theorem eveSection_nf (n : Nat) : NfN n (eveSection (O := O) c n) := by
  refine anyOf_nf (c := c) (exact := false) (ok := InLayout) ?_
  simp only [List.mem_cons, List.not_mem_nil, or_false]
  rintro x (rfl | rfl | rfl)
  · exact ⟨setDecl_nf (interfaceCell_ok true) (fun s => (interfaceCell_nf s).n n) _, setDecl_ok (sec := .interface) (.inl rfl) (interfaceCell_ok _) n⟩
  · exact ⟨setDecl_nf (constantCell_ok true) (fun s => (constantCell_nf s).n n) _, setDecl_ok (sec := .constant) (.inr (.inl rfl)) (constantCell_ok _) n⟩
  · exact ⟨setDecl_nf (logicCell_ok eveReset_ok n) (fun s => logicCell_nf _ n s) _,
      setDecl_ok (sec := .logic) (.inr (.inr rfl)) (logicCell_ok eveReset_ok n) n⟩

theorem section_lt {exact ok} {x : A D O Bool} (h : SectionOk c exact ok x) (ts log ts' log')
    (hx : x ts log = .ok true ts' log') : ts'.length < ts.length := by
  obtain ⟨-, sec, used, ds, calls, hok, rfl, -⟩ | ⟨h, -⟩ := h _ _ _ _ _ hx
  · simp; omega
  · cases h

theorem sheetSpecifier_nf (n : Nat) : NfN n (sheetSpecifier (O := O) c n) := by
  intro ts log h
  refine bind_nf (Nf.lead _ _ _) fun s t1 l1 h1 => ?_
  obtain ⟨rfl, ul, b', rfl, hl, hdet⟩ := lead_ok' h1
  refine bind_nf (Nf.kw _ _ _) fun b t2 l2 h2 => ?_
  obtain ⟨rfl, ⟨rfl, rfl⟩ | ⟨rfl, rfl⟩⟩ := kw_ok h2
  · refine bind_nf (Nf.ident _ _) fun b t3 l3 h3 => ?_
    obtain ⟨rfl, ⟨m, rfl, rfl⟩ | ⟨rfl, rfl⟩⟩ := ident_ok h3
    · refine bind_nf (Nf.need _ _ _) fun b t4 l4 h4 => ?_
      obtain ⟨rfl, rfl⟩ := need_ok h4
      refine bind_nf (loop_nf (adamSection_nf n) (section_lt (adamSection_ok n)) _ _ _ (by simp at h; omega) (Nat.le_refl _))
        fun _ _ _ _ => ?_
      exact ((Nf.need _).bind fun _ => (Nf.trail _).bind fun _ => .pure _) _ _
    · exact Nf.throw _ _
  · exact Nf.pure _ _ _

theorem adamParse_nf : Nf (adamParse (O := O) c) := by
  intro ts log
  refine bind_nf (loop_nf (sheetSpecifier_nf _) ?_ _ _ _ (by omega) (Nat.le_refl _)) fun _ t _ _ => ?_
  · intro ts log ts' log' h
    obtain ⟨-, l, s, k, used, ds, calls, t, s', rfl, -⟩ | ⟨h, -⟩ := sheetSpecifier_ok h
    · simp; omega
    · cases h
  · cases t <;> (intro h; cases h)

theorem viewDef_pos {lax} {used : List (Tok D)} {v : View D O} (h : ViewDef lax used v) : 0 < used.length := by
  cases h <;> simp <;> omega

theorem class_pos {used : List (Tok D)} {n : Str} {e : Expr.Spec.Expr D O} (h : Class used n e) : 0 < used.length := by
  cases h <;> simp

theorem viewClass_nf : Nf (viewClass (O := O) c) := by
  refine Nf.ident.bind fun a => ?_
  cases a with
  | none => exact .pure _
  | some n => exact (Nf.need _).bind fun _ => (Nf.P _).bind fun _ => (Nf.need _).bind fun _ => .pure _

theorem view_nf (n : Nat) : (∀ loc ts log, 2 * ts.length + 1 ≤ n → viewDef (O := O) c n loc ts log ≠ .fuel) ∧
    (∀ loc ts log, 2 * ts.length + 2 ≤ n → viewSeq (O := O) c n loc ts log ≠ .fuel) := by
  induction n with
  | zero => exact ⟨fun _ _ _ h => by omega, fun _ _ _ h => by omega⟩
  | succ n ih =>
    constructor
    · intro loc ts log h
      rw [viewDef]
      refine bind_nf (Nf.lead _ _ _) fun s t1 l1 h1 => ?_
      obtain ⟨rfl, ul, b', rfl, hl, hdet⟩ := lead_ok' h1
      refine bind_nf (viewClass_nf _ _) fun s t1 l1 h1 => ?_
      obtain ⟨rfl, ⟨rfl, rfl⟩ | ⟨used, k, e, rfl, hn, rfl⟩⟩ := viewClass_ok h1
      · exact Nf.pure _ _ _
      · have := class_pos hn
        refine bind_nf (Nf.tok _ _ _) fun leaf t2 l2 h2 => ?_
        have hl2 : t2.length ≤ t1.length := by
          obtain ⟨rfl, ⟨rfl, rfl⟩ | ⟨rfl, rfl⟩⟩ := tok_ok h2 <;> simp
        refine bind_nf (Nf.trail _ _ _) fun s t3 l3 h3 => ?_
        obtain ⟨rfl, ut, b', rfl, hb, hs⟩ := trail_ok' h3
        refine bind_nf (by intro h; cases h) fun node t4 l4 h4 => ?_
        cases h4
        cases leaf with
        | true => exact Nf.pure _ _ _
        | false =>
          refine bind_nf (Nf.need _ _ _) fun s t5 l5 h5 => ?_
          obtain ⟨rfl, rfl⟩ := need_ok h5
          refine bind_nf (ih.2 _ _ _ ?_) fun _ _ _ _ => ((Nf.need _).bind fun _ => .pure _) _ _
          simp at h hl2
          omega
    · intro loc ts log h
      rw [viewSeq]
      refine bind_nf (ih.1 _ _ _ (by omega)) fun b t1 l1 h1 => ?_
      obtain ⟨rfl, used, v, rfl, hv, rfl⟩ | ⟨rfl, rfl, l, s, hl, rfl⟩ := (view_ok _).1 _ _ _ _ _ _ h1
      · have := viewDef_pos hv
        exact ih.2 _ _ _ (by simp at h; omega)
      · exact Nf.pure _ _ _

theorem eveParse_nf : Nf (eveParse (O := O) c) := by
  intro ts log
  refine bind_nf ?_ fun b _ _ _ => (Nf.ite (.pure _) .throw) _ _
  refine bind_nf (Nf.lead _ _ _) fun s t1 l1 h1 => ?_
  obtain ⟨rfl, ul, b', rfl, hl, hdet⟩ := lead_ok' h1
  refine bind_nf (Nf.kw _ _ _) fun b t2 l2 h2 => ?_
  obtain ⟨rfl, ⟨rfl, rfl⟩ | ⟨rfl, rfl⟩⟩ := kw_ok h2
  · refine bind_nf (Nf.ident _ _) fun b t3 l3 h3 => ?_
    obtain ⟨rfl, ⟨m, rfl, rfl⟩ | ⟨rfl, rfl⟩⟩ := ident_ok h3
    · refine bind_nf (Nf.need _ _ _) fun b t4 l4 h4 => ?_
      obtain ⟨rfl, rfl⟩ := need_ok h4
      refine bind_nf (loop_nf (eveSection_nf _) (section_lt (eveSection_ok _)) _ _ _ (by simp; omega) (Nat.le_refl _))
        fun _ t5 l5 h5 => ?_
      obtain ⟨used, ds, calls, rfl, hds, rfl, hc⟩ := sections_ok (eveSection_ok _) _ h5
      refine bind_nf (Nf.emit _ _ _) fun _ t6 l6 h6 => ?_
      cases h6
      refine bind_nf (Nf.kw _ _ _) fun b t7 l7 h7 => ?_
      obtain ⟨rfl, ⟨rfl, rfl⟩ | ⟨rfl, rfl⟩⟩ := kw_ok h7
      · refine bind_nf ((view_nf _).1 _ _ _ (by simp; omega)) fun b t8 l8 h8 => ?_
        exact (Nf.ite .throw ((Nf.need _).bind fun _ => (Nf.trail _).bind fun _ => .pure _)) _ _
      · intro h; cases h
    · exact Nf.throw _ _
  · exact Nf.pure _ _ _

end Verif.Decl
