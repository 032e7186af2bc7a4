import Verif.Bind.Props
/-
Model of source/eve_evaluate.cpp `bind_layout`: the callbacks which put the cells of a layout into a sheet and pass its views to the
client; and C134.

`args` stands for the evaluation of the arguments of a view (`evaluate_named_arguments`, lines 130-138) with whatever variables the
client has bound, usually those of the sheet; `upd` stands for `sheet_t::update` (`Verif.Adam.update`).  The position the client
returns for a view is its number, as in `Verif.Decl`; the name and the arguments are what it gets.
-/
namespace Verif.Bind
open Verif.Adam Verif.Expr
open Verif.Decl.Spec (Decl View Layout Section Cell Cells Sections InLayout)

variable {D O V A : Type} [DecidableEq V] [Values V]

/-- A view as the client gets it: the position of the view around it, its name and its arguments. -/
abbrev Made (A : Type) := Nat × Str × A

/-- models: source/eve_evaluate.cpp:142-155 `add_cell`, 161-184 `add_relation`, 196-216 `bind_layout`.  There are no external cells in
layouts. -/
def callbackL (prog : List (Val D O) → Prog Str V) (args : List (Val D O) → M Str V A) (upd : M Str V Unit) :
    Verif.Decl.Call D O → M Str V (List (Made A))
  | .cell .constant n code _ _ => do
      addConstant n (prog code)
      pure []
  | .cell .logic n code _ _ => do
      addLogic n (prog code)
      pure []
  | .cell _ _ _ _ _ => throw .ub
  | .interface n linked init code _ _ => do
      addInterface n linked (opt prog init) (opt prog code)
      pure []
  | .relation cond rels _ _ => do
      addRel prog cond rels
      pure []
  | .external _ _ _ => throw .badFunctionCall
  | .finalize => do
      upd
      pure []
  | .view parent cls code _ _ => do
      let a ← args code
      pure [(parent, cls, a)]

/-- The callbacks of a parse, in order; the views are those the client is given. -/
def buildL (prog : List (Val D O) → Prog Str V) (args : List (Val D O) → M Str V A) (upd : M Str V Unit) :
    List (Verif.Decl.Call D O) → M Str V (List (Made A))
  | [] => pure []
  | x :: xs => do
      let a ← callbackL prog args upd x
      let b ← buildL prog args upd xs
      pure (a ++ b)

/-- models: source/eve_parser.cpp:513-523 `parse(stream, position, callbacks)` with the callbacks of `bind_layout`.  The views made
before an exception are not in the result. -/
def readLayout (prog : List (Val D O) → Prog Str V) (args : List (Val D O) → M Str V A) (upd : M Str V Unit) (c : Nat → D) (ts : List (Tok D))
    (s : Sheet Str V) : Except Fault (List (Made A)) × Sheet Str V :=
  match Verif.Decl.eveParse c ts [] with
  | .ok _ _ log => match buildL prog args upd log s with
      | (.ok vs, s') => (.ok vs, s')
      | (.error e, s') => (.error (.callback e), s')
  | .throw log => match buildL prog args upd log s with
      | (.ok _, s') => (.error .syntaxError, s')
      | (.error e, s') => (.error (.callback e), s')
  | .fuel => (.error .syntaxError, s)

/-! ### What is to be -/

mutual
/-- The views of a tree, each before those it contains, with the number of the view around it (0: none). -/
def preorder (parent next : Nat) : View D O → List (Made (Verif.Expr.Spec.Expr D O))
  | .mk cls e _ _ vs => (parent, cls, e) :: preorders next (next + 1) vs
def preorders (parent next : Nat) : List (View D O) → List (Made (Verif.Expr.Spec.Expr D O))
  | [] => []
  | v :: vs => preorder parent next v ++ preorders parent (next + Verif.Decl.size v) vs
end

/-- Each argument is evaluated once, in order. -/
def evalAll (args : Verif.Expr.Spec.Expr D O → M Str V A) : List (Made (Verif.Expr.Spec.Expr D O)) → M Str V (List (Made A))
  | [] => pure []
  | (parent, cls, e) :: l => do
      let a ← args e
      let b ← evalAll args l
      pure ((parent, cls, a) :: b)

/-! ### Proofs -/

theorem ok_bind {α β : Type} {x : M Str V α} {f : α → M Str V β} {s s' : Sheet Str V} {b : β} (h : (x >>= f) s = (.ok b, s')) :
    ∃ a s1, x s = (.ok a, s1) ∧ f a s1 = (.ok b, s') := by
  rw [bind_run] at h
  split at h
  · rename_i a s1 hx; exact ⟨a, s1, hx, h⟩
  · cases h

mutual
theorem report_view (c : Nat → D) : ∀ (v : View D O) (p n : Nat), ∃ l : List (Str × Str),
    Verif.Decl.reportView c p n v = List.zipWith (fun m b => .view m.1 m.2.1 (compile c m.2.2) b.1 b.2) (preorder p n v) l ∧ l.length = (preorder p n v).length
  | .mk cls e brief detailed vs, p, n => by
      obtain ⟨l, h1, h2⟩ := report_views c vs n (n + 1)
      refine ⟨(brief, detailed) :: l, ?_, ?_⟩
      · simp only [Verif.Decl.reportView, preorder, List.zipWith_cons_cons, h1]
      · simp [preorder, h2]
theorem report_views (c : Nat → D) : ∀ (vs : List (View D O)) (p n : Nat), ∃ l : List (Str × Str),
    Verif.Decl.reportViews c p n vs = List.zipWith (fun m b => .view m.1 m.2.1 (compile c m.2.2) b.1 b.2) (preorders p n vs) l ∧
      l.length = (preorders p n vs).length
  | [], p, n => ⟨[], by simp [Verif.Decl.reportViews, preorders], by simp [preorders]⟩
  | v :: vs, p, n => by
      obtain ⟨l, h1, h2⟩ := report_view c v p n
      obtain ⟨l', h1', h2'⟩ := report_views c vs p (n + Verif.Decl.size v)
      refine ⟨l ++ l', ?_, ?_⟩
      · simp only [Verif.Decl.reportViews, preorders, h1, h1']
        rw [List.zipWith_append h2.symm]
      · simp [preorders, h2, h2']
end

theorem buildL_views (prog : List (Val D O) → Prog Str V) (args : List (Val D O) → M Str V A) (upd : M Str V Unit) (c : Nat → D) :
    ∀ (ms : List (Made (Verif.Expr.Spec.Expr D O))) (l : List (Str × Str)) (s s' : Sheet Str V) (vs : List (Made A)), l.length = ms.length →
    buildL prog args upd (List.zipWith (fun m b => .view m.1 m.2.1 (compile c m.2.2) b.1 b.2) ms l) s = (.ok vs, s') →
    evalAll (fun e => args (compile c e)) ms s = (.ok vs, s')
  | [], l, s, s', vs, _, h => by
      simp only [List.zipWith_nil_left] at h
      exact h
  | m :: ms, [], s, s', vs, hl, h => by simp at hl
  | (p, cls, e) :: ms, b :: l, s, s', vs, hl, h => by
      simp only [List.zipWith_cons_cons, buildL] at h
      obtain ⟨x, s1, h1, h2⟩ := ok_bind h
      obtain ⟨y, s2, h3, h4⟩ := ok_bind h2
      unfold callbackL at h1
      obtain ⟨a, s1', h5, h6⟩ := ok_bind h1
      obtain ⟨h7, h8⟩ := Prod.mk.inj h6
      cases h7
      subst h8
      have ih := buildL_views prog args upd c ms l _ _ _ (by simpa using hl) h3
      unfold evalAll
      rw [bind_ok h5, bind_ok ih]
      exact h4

/-- Only the declarations of layouts. -/
def LayoutDecl : Decl D O → Prop
  | .interface _ _ _ _ _ _ => True
  | .constant _ _ _ _ => True
  | .logic _ _ _ _ => True
  | .relate _ _ _ _ => True
  | _ => False

theorem cell_layout {lax : Bool} {detailed : Str} {sec : Section} {ts : List (Tok D)} {d : Decl D O} (hs : InLayout sec) (h : Cell lax detailed sec ts d) :
    LayoutDecl d := by
  cases h <;> first | trivial | (rcases hs with hs | hs | hs <;> cases hs)

theorem cells_layout {lax : Bool} {sec : Section} {ts : List (Tok D)} {ds : List (Decl D O)} (hs : InLayout sec) (h : Cells lax sec ts ds) :
    ∀ d ∈ ds, LayoutDecl d := by
  induction h with
  | nil => simp
  | cons _ h _ ih => intro d hd; rcases List.mem_cons.mp hd with rfl | hd; exacts [cell_layout hs h, ih d hd]
  | dangling => simp
  | danglingUnlink => simp

theorem sections_layout {lax : Bool} {ts : List (Tok D)} {ds : List (Decl D O)} (h : Sections lax InLayout ts ds) : ∀ d ∈ ds, LayoutDecl d := by
  induction h with
  | nil => simp
  | cons hok h _ ih => intro d hd; rcases List.mem_append.mp hd with hd | hd; exacts [cells_layout hok h d hd, ih d hd]

theorem callbackL_cell (prog : List (Val D O) → Prog Str V) (args : List (Val D O) → M Str V A) (upd : M Str V Unit) (c : Nat → D) (d : Decl D O)
    (hd : LayoutDecl d) : callbackL prog args upd (Verif.Decl.report c d) = (do callback prog false (Verif.Decl.report c d); pure []) := by
  cases d <;> first | rfl | exact hd.elim

theorem buildL_cells (prog : List (Val D O) → Prog Str V) (args : List (Val D O) → M Str V A) (upd : M Str V Unit) (c : Nat → D) (rest : List (Verif.Decl.Call D O)) :
    ∀ (ds : List (Decl D O)) (s s' : Sheet Str V) (vs : List (Made A)), (∀ d ∈ ds, LayoutDecl d) →
    buildL prog args upd (ds.map (Verif.Decl.report c) ++ rest) s = (.ok vs, s') →
    ∃ s0, build prog false (ds.map (Verif.Decl.report c)) s = (.ok (), s0) ∧ buildL prog args upd rest s0 = (.ok vs, s')
  | [], s, s', vs, _, h => ⟨s, rfl, h⟩
  | d :: ds, s, s', vs, hd, h => by
      simp only [List.map_cons, List.cons_append, buildL] at h
      obtain ⟨x, s1, h1, h2⟩ := ok_bind h
      obtain ⟨y, s2, h3, h4⟩ := ok_bind h2
      rw [callbackL_cell prog args upd c d (hd d (by simp))] at h1
      obtain ⟨u, s1', h5, h6⟩ := ok_bind h1
      obtain ⟨h7, h8⟩ := Prod.mk.inj h6
      cases h7
      subst h8
      obtain ⟨h9, h10⟩ := Prod.mk.inj h4
      cases h9
      subst h10
      obtain ⟨s0, g1, g2⟩ := buildL_cells prog args upd c rest ds _ _ _ (fun d' h' => hd d' (by simp [h'])) h3
      refine ⟨s0, ?_, g2⟩
      simp only [List.map_cons, build]
      rw [bind_ok h5]
      exact g1

theorem buildL_views_run (prog : List (Val D O) → Prog Str V) (args : List (Val D O) → M Str V A) (upd : M Str V Unit) (c : Nat → D) :
    ∀ (ms : List (Made (Verif.Expr.Spec.Expr D O))) (l : List (Str × Str)) (s s' : Sheet Str V) (vs : List (Made A)), l.length = ms.length →
    evalAll (fun e => args (compile c e)) ms s = (.ok vs, s') →
    buildL prog args upd (List.zipWith (fun m b => .view m.1 m.2.1 (compile c m.2.2) b.1 b.2) ms l) s = (.ok vs, s')
  | [], l, s, s', vs, _, h => by
      simp only [List.zipWith_nil_left]
      exact h
  | m :: ms, [], s, s', vs, hl, h => by simp at hl
  | (p, cls, e) :: ms, b :: l, s, s', vs, hl, h => by
      unfold evalAll at h
      obtain ⟨a, s1, h1, h2⟩ := ok_bind h
      obtain ⟨y, s2, h3, h4⟩ := ok_bind h2
      have ih := buildL_views_run prog args upd c ms l _ _ _ (by simpa using hl) h3
      simp only [List.zipWith_cons_cons, buildL]
      have hc : callbackL prog args upd (.view p cls (compile c e) b.1 b.2) s = (.ok [(p, cls, a)], s1) := by
        simp only [callbackL]
        rw [bind_ok h1]
        rfl
      rw [bind_ok hc, bind_ok ih]
      exact h4

theorem buildL_cells_run (prog : List (Val D O) → Prog Str V) (args : List (Val D O) → M Str V A) (upd : M Str V Unit) (c : Nat → D) (rest : List (Verif.Decl.Call D O)) :
    ∀ (ds : List (Decl D O)) (s s0 s' : Sheet Str V) (vs : List (Made A)), (∀ d ∈ ds, LayoutDecl d) →
    build prog false (ds.map (Verif.Decl.report c)) s = (.ok (), s0) → buildL prog args upd rest s0 = (.ok vs, s') →
    buildL prog args upd (ds.map (Verif.Decl.report c) ++ rest) s = (.ok vs, s')
  | [], s, s0, s', vs, _, h, h' => by
      have := (Prod.mk.inj h).2
      subst this
      exact h'
  | d :: ds, s, s0, s', vs, hd, h, h' => by
      simp only [List.map_cons, build] at h
      obtain ⟨u, s1, h1, h2⟩ := ok_bind h
      have ih := buildL_cells_run prog args upd c rest ds s1 s0 s' vs (fun d' h' => hd d' (by simp [h'])) h2 h'
      simp only [List.map_cons, List.cons_append, buildL]
      have hc : callbackL prog args upd (Verif.Decl.report c d) s = (.ok [], s1) := by
        rw [callbackL_cell prog args upd c d (hd d (by simp)), bind_ok h1]
        rfl
      rw [bind_ok hc, bind_ok ih]
      rfl

/-- C134: which layouts are read: those of the grammar whose cells are acceptable in the sense of C133 can be put into the sheet, and if
the update and the evaluation of the arguments on the updated sheet succeed, the layout is read, with the same views and the same sheet.
Partial as below. -/
theorem C134_accepts_partial (prog : List (Val D O) → Prog Str V) (args : List (Val D O) → M Str V A) (upd : M Str V Unit) (c : Nat → D)
    (ts rest : List (Tok D)) (ds : List (Decl D O)) (v : View D O) (n0 : Str) (h : Layout false ts ds v) (hs : ∀ d ∈ ds, Verif.Decl.Simple d)
    (hr : ∀ t r, rest = t :: r → t ≠ .bad ∧ ∀ s, t ≠ .trailComment s) (ha : Acceptable (fun e => prog (compile c e)) false ds) :
    ∃ s0, sigs s0 = ds.flatMap (cellsOf fun e => prog (compile c e)) ∧ rels s0 = ds.flatMap (relsOf fun e => prog (compile c e)) ∧
      names s0 = ds.flatMap nameOf ∧ ∀ s1 vs s, upd s0 = (.ok (), s1) → evalAll (fun e => args (compile c e)) (preorder 0 1 v) s1 = (.ok vs, s) →
        readLayout prog args upd c (ts ++ rest) (Sheet.empty n0) = (.ok vs, s) := by
  obtain ⟨env, he⟩ := ha.inits
  obtain ⟨s0, hb⟩ := build_total prog false c ds [] (Sheet.empty n0) [] env ⟨empty_good n0, rfl, rfl⟩ (fun m => rfl) (by simpa using ha.names) he
    (by simpa using ha.relates) ha.external
  obtain ⟨-, e2, e3, e4, -⟩ := build_step prog false c ds _ s0 (empty_good n0) hb
  refine ⟨s0, e2, e3, e4, ?_⟩
  intro s1 vs s hu hv
  obtain ⟨l, hrep, hlen⟩ := report_view c v 0 1
  have g1 := buildL_views_run prog args upd c _ l _ _ _ hlen hv
  rw [← hrep] at g1
  have g2 : buildL prog args upd (.finalize :: Verif.Decl.reportView c 0 1 v) s0 = (.ok vs, s) := by
    unfold buildL
    have hc : callbackL prog args upd .finalize s0 = (.ok [], s1) := by
      simp only [callbackL]
      rw [bind_ok hu]
      rfl
    rw [bind_ok hc, bind_ok g1]
    rfl
  have hl : ∀ d ∈ ds, LayoutDecl d := by
    cases h with
    | mk _ _ hsec _ _ => exact sections_layout hsec
  have g3 := buildL_cells_run prog args upd c _ ds _ s0 s vs hl hb g2
  unfold readLayout
  rw [Verif.Decl.C78_complete_partial c ts rest ds v h hs hr]
  simp only [g3]

/-- C134: when a layout has been read, its cells and relations were put into the sheet as they are written (see C133), then the sheet was
updated once, then the arguments of each view were evaluated once, on the updated sheet, and the client was given the views in the order
of the text, each with the view around it.  Partial: relations of more than two relate expressions are left out (C78: the parser confuses
the names of the third). -/
theorem C134_layout_partial (prog : List (Val D O) → Prog Str V) (args : List (Val D O) → M Str V A) (upd : M Str V Unit) (c : Nat → D) (ts : List (Tok D))
    (n0 : Str) (s : Sheet Str V) (vs : List (Made A)) (h : readLayout prog args upd c ts (Sheet.empty n0) = (.ok vs, s)) :
    ∃ used rest ds v, ts = used ++ rest ∧ Layout true used ds v ∧ ((∀ d ∈ ds, Verif.Decl.Simple d) →
      ∃ s0 s1 env, sigs s0 = ds.flatMap (cellsOf fun e => prog (compile c e)) ∧ rels s0 = ds.flatMap (relsOf fun e => prog (compile c e)) ∧
        names s0 = ds.flatMap nameOf ∧ (names s0).Nodup ∧ start (fun e => prog (compile c e)) ds [] = some env ∧
        (∀ n, startValue s0 n = List.lookup n env) ∧ Acceptable (fun e => prog (compile c e)) false ds ∧
        upd s0 = (.ok (), s1) ∧ evalAll (fun e => args (compile c e)) (preorder 0 1 v) s1 = (.ok vs, s)) := by
  unfold readLayout at h
  cases hp : Verif.Decl.eveParse (O := O) c ts [] with
  | fuel => rw [hp] at h; cases h
  | throw log =>
      rw [hp] at h
      dsimp only at h
      split at h <;> cases h
  | ok u rest log =>
      rw [hp] at h
      obtain ⟨used, ds, v, calls, h1, h2, h3, h4, h5⟩ := Verif.Decl.C78_sound_partial c ts rest log hp
      refine ⟨used, rest, ds, v, h1, h2, ?_⟩
      intro hs
      rw [h4, h5 hs] at h
      have hb : buildL prog args upd (ds.map (Verif.Decl.report c) ++ .finalize :: Verif.Decl.reportView c 0 1 v) (Sheet.empty n0) = (.ok vs, s) := by
        dsimp only at h
        split at h
        · rename_i hb
          rw [hb]
          obtain ⟨k1, k2⟩ := Prod.mk.inj h
          cases k1
          rw [k2]
        · cases h
      have hl : ∀ d ∈ ds, LayoutDecl d := by
        cases h2 with
        | mk _ _ hsec _ _ => exact sections_layout hsec
      obtain ⟨s0, g1, g2⟩ := buildL_cells prog args upd c _ ds _ _ _ hl hb
      obtain ⟨x, s1, g3, g4⟩ := ok_bind g2
      obtain ⟨y, s2, g5, g6⟩ := ok_bind g4
      obtain ⟨u', s1', g7, g8⟩ := ok_bind g3
      obtain ⟨k1, k2⟩ := Prod.mk.inj g8
      cases k1
      subst k2
      obtain ⟨k3, k4⟩ := Prod.mk.inj g6
      cases k3
      subst k4
      obtain ⟨-, e2, e3, e4, e5⟩ := build_step prog false c ds _ s0 (empty_good n0) g1
      obtain ⟨env, e6, e7⟩ := build_agree prog false c ds _ s0 [] (empty_good n0) (fun m => rfl) g1
      obtain ⟨l, hv, hlen⟩ := report_view c v 0 1
      rw [hv] at g5
      exact ⟨s0, s1', env, e2, e3, e4, e5 List.nodup_nil, e6, e7, build_acceptable prog false c g1, g7, buildL_views prog args upd c _ l _ _ _ hlen g5⟩

end Verif.Bind
