import Verif.Decl.Report
import Verif.Expr.Props
/-
The primitive functions of the parsers: what they do when they succeed (`_ok`), what they do on given tokens (`_run`), and that
they do not call the client.
-/
namespace Verif.Decl
open Verif.Expr Parser Verif.Decl.Spec

variable {D O α β : Type} {c : Nat → D}

theorem bind_def (x : A D O α) (f : α → A D O β) (ts : List (Tok D)) (log : List (Call D O)) :
    (x >>= f) ts log = match x ts log with
      | .ok a ts log => f a ts log
      | .throw log => .throw log
      | .fuel => .fuel := rfl

theorem pure_def (a : α) (ts : List (Tok D)) (log : List (Call D O)) : (pure a : A D O α) ts log = .ok a ts log := rfl
theorem pure_def' (a : α) (ts : List (Tok D)) (log : List (Call D O)) : (A.pure a : A D O α) ts log = .ok a ts log := rfl

theorem bind_ok {x : A D O α} {f : α → A D O β} {ts log b ts' log'} (h : (x >>= f) ts log = .ok b ts' log') :
    ∃ a t1 l1, x ts log = .ok a t1 l1 ∧ f a t1 l1 = .ok b ts' log' := by
  rw [bind_def] at h
  cases hx : x ts log with
  | ok a t1 l1 => rw [hx] at h; exact ⟨a, t1, l1, rfl, h⟩
  | throw l => rw [hx] at h; cases h
  | fuel => rw [hx] at h; cases h

theorem bind_run {x : A D O α} (f : α → A D O β) {ts log a t1 l1} (h : x ts log = .ok a t1 l1) :
    (x >>= f) ts log = f a t1 l1 := by
  rw [bind_def, h]

/-- No call of the client, however the function ends. -/
def Quiet (x : A D O α) : Prop := ∀ ts log, match x ts log with
  | .ok _ _ log' => log' = log
  | .throw log' => log' = log
  | .fuel => True

theorem Quiet.bind {x : A D O α} {f : α → A D O β} (h : Quiet x) (h' : ∀ a, Quiet (f a)) : Quiet (x >>= f) := by
  intro ts log
  have h1 := h ts log
  rw [bind_def]
  cases hx : x ts log with
  | ok a t1 l1 => rw [hx] at h1; simp only at h1; subst h1; exact h' a t1 l1
  | throw l => rw [hx] at h1; exact h1
  | fuel => trivial

theorem Quiet.pure (a : α) : Quiet (pure a : A D O α) := fun _ _ => rfl
theorem Quiet.throw : Quiet (throwA : A D O α) := fun _ _ => rfl
theorem Quiet.fuel : Quiet (fun _ _ => .fuel : A D O α) := fun _ _ => trivial

theorem Quiet.lift (x : M D O α) : Quiet (lift x) := by
  intro ts log
  unfold Decl.lift
  cases x [] ts <;> simp

theorem Quiet.ite {p : Prop} [Decidable p] {x y : A D O α} (h : Quiet x) (h' : Quiet y) : Quiet (if p then x else y) := by
  split
  · exact h
  · exact h'

theorem Quiet.tok (y : Sym) : Quiet (tok (D := D) (O := O) y) := (Quiet.lift _).bind fun _ => .pure _
theorem Quiet.need (y : Sym) : Quiet (need (D := D) (O := O) y) := (Quiet.tok _).bind fun _ => .ite (.pure _) .throw
theorem Quiet.kw (y : Str) : Quiet (kw (D := D) (O := O) y) := (Quiet.lift _).bind fun _ => .pure _
theorem Quiet.ident : Quiet (ident (D := D) (O := O)) := (Quiet.lift _).bind fun _ => .pure _
theorem Quiet.lead (s : Str) : Quiet (lead (D := D) (O := O) s) :=
  (Quiet.lift _).bind fun a => by cases a.1 <;> exact .pure _
theorem Quiet.trail (s : Str) : Quiet (trail (D := D) (O := O) s) :=
  (Quiet.lift _).bind fun a => by cases a.1 <;> exact .pure _
theorem Quiet.needExpr : Quiet (needExpr (O := O) c) :=
  (Quiet.lift _).bind fun a => by obtain ⟨_ | _, _⟩ := a <;> first | exact .pure _ | exact .throw
theorem Quiet.initializer : Quiet (initializer (O := O) c) :=
  (Quiet.tok _).bind fun _ => .ite (.pure _) (Quiet.needExpr.bind fun _ => .pure _)
theorem Quiet.defineExpr : Quiet (defineExpr (O := O) c) :=
  (Quiet.tok _).bind fun _ => .ite (.pure _) (Quiet.needExpr.bind fun _ => .pure _)
theorem Quiet.conditional : Quiet (conditional (O := O) c) :=
  (Quiet.kw _).bind fun _ => .ite (.pure _) ((Quiet.need _).bind fun _ => Quiet.needExpr.bind fun _ => (Quiet.need _).bind fun _ => .pure _)
theorem Quiet.endStatement (s : Str) : Quiet (endStatement (D := D) (O := O) s) := (Quiet.need _).bind fun _ => Quiet.trail _
theorem Quiet.namedDecl : Quiet (namedDecl (O := O) c) := by
  refine Quiet.ident.bind fun a => ?_
  cases a with
  | none => exact .pure _
  | some n =>
    refine Quiet.defineExpr.bind fun a => ?_
    cases a with
    | none => exact .throw
    | some e => exact (Quiet.endStatement _).bind fun _ => .pure _
theorem Quiet.moreNames (n : Nat) (ns : List Str) : Quiet (moreNames (D := D) (O := O) n ns) := by
  induction n generalizing ns with
  | zero => exact .fuel
  | succ n ih =>
    refine (Quiet.tok _).bind fun b => .ite (Quiet.ident.bind fun a => ?_) (.pure _)
    cases a with
    | none => exact .throw
    | some m => exact ih _
theorem Quiet.relateExpr (n : Nat) (r : Rel D O) : Quiet (relateExpr c n r) := by
  refine (Quiet.lead _).bind fun _ => Quiet.ident.bind fun a => ?_
  cases a with
  | none => exact .pure _
  | some m =>
    refine (Quiet.moreNames _ _).bind fun _ => Quiet.defineExpr.bind fun a => ?_
    cases a with
    | none => exact .throw
    | some e => exact (Quiet.endStatement _).bind fun _ => .pure _
theorem Quiet.relateLoop (reset : Rel D O → Rel D O) (n : Nat) (r : Rel D O) : Quiet (relateLoop c reset n r) := by
  induction n generalizing r with
  | zero => exact .fuel
  | succ n ih =>
    refine (Quiet.relateExpr _ _).bind fun a => ?_
    cases a with
    | none => exact .pure _
    | some m => exact (ih _).bind fun _ => .pure _
theorem Quiet.relateDecl (reset : Rel D O → Rel D O) (n : Nat) : Quiet (relateDecl c reset n) := by
  refine Quiet.conditional.bind fun b => (Quiet.kw _).bind fun _ => .ite (.ite .throw (.pure _)) ((Quiet.need _).bind fun _ => ?_)
  refine (Quiet.relateExpr _ _).bind fun a => ?_
  cases a with
  | none => exact .throw
  | some r1 =>
    refine (Quiet.relateExpr _ _).bind fun a => ?_
    cases a with
    | none => exact .throw
    | some r2 => exact (Quiet.relateLoop _ _ _).bind fun _ => (Quiet.need _).bind fun _ => (Quiet.trail _).bind fun _ => .pure _

theorem Quiet.log {x : A D O α} (h : Quiet x) {ts log a ts' log'} (hx : x ts log = .ok a ts' log') : log' = log := by
  have := h ts log
  rwa [hx] at this

/-! ### What success means -/

theorem lift_ok {x : M D O α} {ts log a st ts' log'} (h : lift x ts log = .ok (a, st) ts' log') :
    x [] ts = .ok a st ts' ∧ log' = log := by
  unfold lift at h
  cases hx : x [] ts with
  | ok a1 st1 t1 => rw [hx] at h; simp only [Res.ok.injEq, Prod.mk.injEq] at h; obtain ⟨⟨rfl, rfl⟩, rfl, rfl⟩ := h; exact ⟨rfl, rfl⟩
  | throw => rw [hx] at h; cases h
  | fuel => rw [hx] at h; cases h

theorem lift_run {x : M D O α} {ts a st ts'} (h : x [] ts = .ok a st ts') (log : List (Call D O)) :
    lift x ts log = .ok (a, st) ts' log := by
  unfold lift; rw [h]

theorem tok_ok {y : Sym} {ts log b ts' log'} (h : tok (D := D) (O := O) y ts log = .ok b ts' log') :
    log' = log ∧ ((b = true ∧ ts = Tok.sym y :: ts') ∨ (b = false ∧ ts' = ts)) := by
  refine ⟨(Quiet.tok y).log h, ?_⟩
  obtain ⟨⟨a, st⟩, t1, l1, h1, h⟩ := bind_ok h
  obtain ⟨h1, -⟩ := lift_ok h1
  simp only [pure_def, Res.ok.injEq] at h
  obtain ⟨rfl, rfl, rfl⟩ := h
  have := isSym_ok h1
  grind

theorem need_ok {y : Sym} {ts log u ts' log'} (h : need (D := D) (O := O) y ts log = .ok u ts' log') :
    log' = log ∧ ts = Tok.sym y :: ts' := by
  obtain ⟨a, t1, l1, h1, h2⟩ := bind_ok h
  obtain ⟨rfl, ⟨rfl, rfl⟩ | ⟨rfl, rfl⟩⟩ := tok_ok h1
  · cases h2; exact ⟨rfl, rfl⟩
  · cases h2

theorem kw_ok {k : Str} {ts log b ts' log'} (h : kw (D := D) (O := O) k ts log = .ok b ts' log') :
    log' = log ∧ ((b = true ∧ ts = Tok.kw k :: ts') ∨ (b = false ∧ ts' = ts)) := by
  refine ⟨(Quiet.kw k).log h, ?_⟩
  obtain ⟨⟨a, st⟩, t1, l1, h1, h⟩ := bind_ok h
  obtain ⟨h1, -⟩ := lift_ok h1
  simp only [pure_def, Res.ok.injEq] at h
  obtain ⟨rfl, rfl, rfl⟩ := h
  have := isKeyword_ok h1
  grind

theorem ident_ok {ts log r ts' log'} (h : ident (D := D) (O := O) ts log = .ok r ts' log') :
    log' = log ∧ ((∃ n, r = some n ∧ ts = Tok.ident n :: ts') ∨ (r = none ∧ ts' = (ts : List (Tok D)))) := by
  refine ⟨Quiet.ident.log h, ?_⟩
  obtain ⟨⟨a, st⟩, t1, l1, h1, h⟩ := bind_ok h
  obtain ⟨h1, -⟩ := lift_ok h1
  simp only [pure_def, Res.ok.injEq] at h
  obtain ⟨rfl, rfl, rfl⟩ := h
  have := isIdent_ok h1
  grind

theorem lead_ok {old : Str} {ts log s ts' log'} (h : lead (D := D) (O := O) old ts log = .ok s ts' log') :
    log' = log ∧ (ts = Tok.leadComment s :: ts' ∨ (s = old ∧ ts' = (ts : List (Tok D)))) := by
  refine ⟨(Quiet.lead _).log h, ?_⟩
  obtain ⟨⟨a, st⟩, t1, l1, h1, h⟩ := bind_ok h
  obtain ⟨h1, -⟩ := lift_ok h1
  cases a with
  | none =>
    simp only [pure_def, Res.ok.injEq] at h
    obtain ⟨rfl, rfl, rfl⟩ := h
    have := accept_ok h1
    grind
  | some s1 =>
    simp only [pure_def, Res.ok.injEq] at h
    obtain ⟨rfl, rfl, rfl⟩ := h
    have := accept_ok h1
    grind

theorem trail_ok {old : Str} {ts log s ts' log'} (h : trail (D := D) (O := O) old ts log = .ok s ts' log') :
    log' = log ∧ (ts = Tok.trailComment s :: ts' ∨ (s = old ∧ ts' = (ts : List (Tok D)))) := by
  refine ⟨(Quiet.trail _).log h, ?_⟩
  obtain ⟨⟨a, st⟩, t1, l1, h1, h⟩ := bind_ok h
  obtain ⟨h1, -⟩ := lift_ok h1
  cases a with
  | none =>
    simp only [pure_def, Res.ok.injEq] at h
    obtain ⟨rfl, rfl, rfl⟩ := h
    have := accept_ok h1
    grind
  | some s1 =>
    simp only [pure_def, Res.ok.injEq] at h
    obtain ⟨rfl, rfl, rfl⟩ := h
    have := accept_ok h1
    grind

theorem needExpr_ok {ts log code ts' log'} (h : needExpr (O := O) c ts log = .ok code ts' log') :
    log' = log ∧ ∃ used e, ts = used ++ ts' ∧ Expr.Spec.Derives .expression used (.e e) ∧ code = compile c e := by
  refine ⟨Quiet.needExpr.log h, ?_⟩
  obtain ⟨⟨a, st⟩, t1, l1, h1, h⟩ := bind_ok h
  obtain ⟨h1, -⟩ := lift_ok h1
  cases a with
  | false => simp [throwA] at h
  | true =>
    simp only [pure_def, Res.ok.injEq] at h
    obtain ⟨rfl, rfl, rfl⟩ := h
    obtain ⟨-, used, e, h1, h2, h3⟩ | ⟨h, -⟩ := C45_sound _ _ _ _ _ _ _ h1
    · exact ⟨used, e, h1, h2, h3⟩
    · cases h

/-! ### What they do on given tokens -/

@[simp] theorem tok_self (y : Sym) (ts : List (Tok D)) (log : List (Call D O)) : tok y (.sym y :: ts) log = .ok true ts log := by
  unfold tok; rw [bind_run _ (lift_run (isSym_self y [] ts) log)]; rfl
@[simp] theorem need_self (y : Sym) (ts : List (Tok D)) (log : List (Call D O)) : need y (.sym y :: ts) log = .ok () ts log := by
  unfold need; rw [bind_run _ (tok_self y ts log)]; rfl
@[simp] theorem kw_self (k : Str) (ts : List (Tok D)) (log : List (Call D O)) : kw k (.kw k :: ts) log = .ok true ts log := by
  unfold kw
  have : isKeyword k [] (.kw k :: ts) = .ok (O := O) true [] ts := by
    unfold isKeyword; simp [Parser.bind_def, accept, Parser.pure_def]
  rw [bind_run _ (lift_run this log)]; rfl
@[simp] theorem ident_self (n : Str) (ts : List (Tok D)) (log : List (Call D O)) : ident (.ident n :: ts) log = .ok (some n) ts log := by
  unfold ident; rw [bind_run _ (lift_run (isIdent_self n [] ts) log)]; rfl
@[simp] theorem lead_self (old s : Str) (ts : List (Tok D)) (log : List (Call D O)) :
    lead old (.leadComment s :: ts) log = .ok s ts log := rfl
@[simp] theorem trail_self (old s : Str) (ts : List (Tok D)) (log : List (Call D O)) :
    trail old (.trailComment s :: ts) log = .ok s ts log := rfl

theorem accept_miss {f : Tok D → Option α} {ts : List (Tok D)} (hb : ts.head? ≠ some .bad) (h : ∀ t, ts.head? = some t → f t = none)
    (st : List (Val D O)) : accept f st ts = .ok none st ts := by
  cases ts with
  | nil => rfl
  | cons t r => cases t <;> simp_all [accept]

theorem tok_miss {y : Sym} {ts : List (Tok D)} (hb : ts.head? ≠ some .bad) (h : ts.head? ≠ some (.sym y)) (log : List (Call D O)) :
    tok y ts log = .ok false ts log := by
  unfold tok isSym
  rw [bind_run (t1 := ts) (l1 := log) (a := (false, []))]
  · rfl
  · refine lift_run ?_ log
    rw [Parser.bind_run _ (accept_miss hb (fun t ht => ?_) [])]
    · rfl
    · cases t <;> simp_all
theorem kw_miss {k : Str} {ts : List (Tok D)} (hb : ts.head? ≠ some .bad) (h : ts.head? ≠ some (.kw k)) (log : List (Call D O)) :
    kw k ts log = .ok false ts log := by
  unfold kw isKeyword
  rw [bind_run (t1 := ts) (l1 := log) (a := (false, []))]
  · rfl
  · refine lift_run ?_ log
    rw [Parser.bind_run _ (accept_miss hb (fun t ht => ?_) [])]
    · rfl
    · cases t <;> simp_all
theorem ident_miss {ts : List (Tok D)} (hb : ts.head? ≠ some .bad) (h : ∀ n, ts.head? ≠ some (.ident n)) (log : List (Call D O)) :
    ident ts log = .ok none ts log := by
  unfold ident isIdent
  rw [bind_run (t1 := ts) (l1 := log) (a := (none, []))]
  · rfl
  · refine lift_run (accept_miss hb (fun t ht => ?_) []) log
    cases t <;> simp_all
theorem lead_miss {ts : List (Tok D)} (hb : ts.head? ≠ some .bad) (h : ∀ n, ts.head? ≠ some (.leadComment n)) (old : Str)
    (log : List (Call D O)) : lead old ts log = .ok old ts log := by
  unfold lead
  rw [bind_run (t1 := ts) (l1 := log) (a := (none, []))]
  · rfl
  · refine lift_run (accept_miss hb (fun t ht => ?_) []) log
    cases t <;> simp_all
theorem trail_miss {ts : List (Tok D)} (hb : ts.head? ≠ some .bad) (h : ∀ n, ts.head? ≠ some (.trailComment n)) (old : Str)
    (log : List (Call D O)) : trail old ts log = .ok old ts log := by
  unfold trail
  rw [bind_run (t1 := ts) (l1 := log) (a := (none, []))]
  · rfl
  · refine lift_run (accept_miss hb (fun t ht => ?_) []) log
    cases t <;> simp_all

theorem needExpr_run {used rest : List (Tok D)} {e : Expr.Spec.Expr D O} (h : Expr.Spec.Derives .expression used (.e e))
    (hr : Expr.Spec.CanFollow rest) (log : List (Call D O)) : needExpr c (used ++ rest) log = .ok (compile c e) rest log := by
  unfold needExpr
  have : P c .expression [] (used ++ rest) = .ok true (compile c e) rest := by
    have := does (c := c) h [] rest (canFollow_stops.1 hr)
    simpa using this
  rw [bind_run _ (lift_run this log)]; rfl

end Verif.Decl
