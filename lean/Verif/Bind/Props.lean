import Verif.Bind.Total
import Verif.Decl.Props
/-!
C133: reading a property model into a sheet (`parse` with the callbacks of `bind_to_sheet`).

`prog` says what an array of code is as an expression of the sheet, and the expression `e` of the text becomes
`prog (compile c e)`: all theorems hold for every `prog`.
-/
namespace Verif.Bind
open Verif.Adam Verif.Expr
open Verif.Decl.Spec (Decl Sheets)

variable {D O V : Type} [DecidableEq V] [Values V]

theorem readSheet_ok {prog : List (Val D O) → Prog Str V} {ext : Bool} {c : Nat → D} {ts : List (Tok D)} {s s' : Sheet Str V}
    (h : readSheet prog ext c ts s = (.ok (), s')) :
    ∃ ds : List (Decl D O), Sheets true ts ds ∧ build prog ext (ds.map (Verif.Decl.report c)) s = (.ok (), s') := by
  unfold readSheet at h
  cases hp : Verif.Decl.adamParse (O := O) c ts [] with
  | fuel => rw [hp] at h; cases h
  | throw log =>
      rw [hp] at h
      dsimp only at h
      split at h <;> cases h
  | ok u rest log =>
      rw [hp] at h
      obtain ⟨-, ds, h1, h2⟩ := Verif.Decl.adamParse_ok hp
      simp only [List.nil_append] at h2
      subst h2
      refine ⟨ds, h1, ?_⟩
      dsimp only at h
      split at h
      · rename_i hb
        rw [hb]
        have := (Prod.mk.inj h).2
        rw [this]
      · cases h

theorem readSheet_run {prog : List (Val D O) → Prog Str V} {ext lax : Bool} {c : Nat → D} {ts : List (Tok D)} {ds : List (Decl D O)} {s s' : Sheet Str V}
    (h : Sheets lax ts ds) (hb : build prog ext (ds.map (Verif.Decl.report c)) s = (.ok (), s')) :
    readSheet prog ext c ts s = (.ok (), s') := by
  unfold readSheet
  rw [Verif.Decl.adamParse_run h]
  simp only [List.nil_append, hb]

/-- C133: the sheet a property model is read into has exactly the cells and the relations the text declares, in the order of the text,
with their kinds, names, expressions and links; no name occurs twice. -/
theorem C133_cells (prog : List (Val D O) → Prog Str V) (ext lax : Bool) (c : Nat → D) (ts : List (Tok D)) (ds : List (Decl D O)) (n0 : Str)
    (s : Sheet Str V) (h : Sheets lax ts ds) (hr : readSheet prog ext c ts (Sheet.empty n0) = (.ok (), s)) :
    sigs s = ds.flatMap (cellsOf fun e => prog (compile c e)) ∧ rels s = ds.flatMap (relsOf fun e => prog (compile c e)) ∧
      names s = ds.flatMap nameOf ∧ (names s).Nodup := by
  have hp := Verif.Decl.adamParse_run (c := c) h []
  obtain ⟨ds', h', hb⟩ := readSheet_ok hr
  have hp' := Verif.Decl.adamParse_run (c := c) h' []
  rw [hp] at hp'
  simp only [List.nil_append, Verif.Decl.Res.ok.injEq, true_and] at hp'
  rw [← hp'] at hb
  obtain ⟨-, h2, h3, h4, h5⟩ := build_step prog ext c ds _ s (empty_good n0) hb
  exact ⟨h2, h3, h4, h5 List.nodup_nil⟩

/-- C133: reading a text into a sheet which is already in use adds what the text declares, and leaves the cells and relations which were
there as they were; the new names are new. -/
theorem C133_appends (prog : List (Val D O) → Prog Str V) (ext lax : Bool) (c : Nat → D) (ts : List (Tok D)) (ds : List (Decl D O))
    (s s' : Sheet Str V) (hs : Reachable s) (h : Sheets lax ts ds) (hr : readSheet prog ext c ts s = (.ok (), s')) :
    sigs s' = sigs s ++ ds.flatMap (cellsOf fun e => prog (compile c e)) ∧ rels s' = rels s ++ ds.flatMap (relsOf fun e => prog (compile c e)) ∧
      names s' = names s ++ ds.flatMap nameOf ∧ (names s').Nodup := by
  have hp := Verif.Decl.adamParse_run (c := c) h []
  obtain ⟨ds', h', hb⟩ := readSheet_ok hr
  have hp' := Verif.Decl.adamParse_run (c := c) h' []
  rw [hp] at hp'
  simp only [List.nil_append, Verif.Decl.Res.ok.injEq, true_and] at hp'
  rw [← hp'] at hb
  obtain ⟨-, h2, h3, h4, h5⟩ := build_step prog ext c ds s s' hs.good hb
  exact ⟨h2, h3, h4, h5 hs.good.fit.wf.nodup⟩

/-- C133: a text which declares a name cannot be read twice into the same sheet. -/
theorem C133_twice (prog : List (Val D O) → Prog Str V) (ext ext' lax : Bool) (c : Nat → D) (ts : List (Tok D)) (ds : List (Decl D O))
    (s s1 s2 : Sheet Str V) (hs : Reachable s) (hs1 : Reachable s1) (h : Sheets lax ts ds) (hne : ds.flatMap nameOf ≠ [])
    (hr : readSheet prog ext c ts s = (.ok (), s1)) : readSheet prog ext' c ts s1 ≠ (.ok (), s2) := by
  intro hr2
  obtain ⟨-, -, h1, -⟩ := C133_appends prog ext lax c ts ds s s1 hs h hr
  obtain ⟨-, -, h2, h3⟩ := C133_appends prog ext' lax c ts ds s1 s2 hs1 h hr2
  obtain ⟨n, hn⟩ := List.exists_mem_of_ne_nil _ hne
  rw [h2, List.nodup_append] at h3
  exact h3.2.2 n (by rw [h1]; exact List.mem_append_right _ hn) n hn rfl

/-- C133: inputs, interface cells and constants start with the values of their initializers, evaluated once, in the order of the text,
each with the values of those before it; nothing else has a value in initializers. -/
theorem C133_start_values (prog : List (Val D O) → Prog Str V) (ext lax : Bool) (c : Nat → D) (ts : List (Tok D)) (ds : List (Decl D O)) (n0 : Str)
    (s : Sheet Str V) (h : Sheets lax ts ds) (hr : readSheet prog ext c ts (Sheet.empty n0) = (.ok (), s)) :
    ∃ env, start (fun e => prog (compile c e)) ds [] = some env ∧ ∀ n, startValue s n = List.lookup n env := by
  have hp := Verif.Decl.adamParse_run (c := c) h []
  obtain ⟨ds', h', hb⟩ := readSheet_ok hr
  have hp' := Verif.Decl.adamParse_run (c := c) h' []
  rw [hp] at hp'
  simp only [List.nil_append, Verif.Decl.Res.ok.injEq, true_and] at hp'
  rw [← hp'] at hb
  exact build_agree prog ext c ds _ s [] (empty_good n0) (fun m => rfl) hb

/-- C133: which property models can be read, exactly: those of the grammar (with the additions of C76) which declare no name twice, whose
initializers can be evaluated with what is declared before them, whose relations are between interface cells declared before them and
which have external cells only if there is an external model. -/
theorem C133_accepts_iff (prog : List (Val D O) → Prog Str V) (ext : Bool) (c : Nat → D) (ts : List (Tok D)) (n0 : Str) :
    (∃ s, readSheet prog ext c ts (Sheet.empty n0) = (.ok (), s)) ↔
      ∃ ds : List (Decl D O), Sheets true ts ds ∧ Acceptable (fun e => prog (compile c e)) ext ds := by
  constructor
  · rintro ⟨s, h⟩
    obtain ⟨ds, h1, h2⟩ := readSheet_ok h
    exact ⟨ds, h1, build_acceptable prog ext c h2⟩
  · rintro ⟨ds, h1, h2⟩
    obtain ⟨env, he⟩ := h2.inits
    obtain ⟨s, hs⟩ := build_total prog ext c ds [] (Sheet.empty n0) [] env ⟨empty_good n0, rfl, rfl⟩ (fun m => rfl) (by simpa using h2.names) he
      (by simpa using h2.relates) h2.external
    exact ⟨s, readSheet_run h1 hs⟩

/-- C133: a sheet which was read is in order: everything proved about the sheets clients build (C01, C02, ...) applies to it. -/
theorem readSheet_good (prog : List (Val D O) → Prog Str V) (ext : Bool) (c : Nat → D) (ts : List (Tok D)) (n0 : Str) (s : Sheet Str V)
    (hr : readSheet prog ext c ts (Sheet.empty n0) = (.ok (), s)) : Good s := by
  obtain ⟨ds, h', hb⟩ := readSheet_ok hr
  exact (build_step prog ext c ds _ s (empty_good n0) hb).1

/-- No name is twice on the left of the expressions of one relation. -/
def OnceEach : Decl D O → Prop
  | .relate _ rs _ _ => (rs.flatMap (·.names)).Nodup
  | _ => True

/-- The relations of the text have at least two terms, each with at least one name. -/
def TwoTerms : Decl D O → Prop
  | .relate _ rs _ _ => 2 ≤ rs.length ∧ ∀ r ∈ rs, r.names ≠ []
  | _ => True

def ProperDecl (d : Decl D O) : Prop := TwoTerms d ∧ OnceEach d

theorem relateExpr_names {ts : List (Tok D)} {r : Verif.Decl.Spec.RelDecl D O} (h : Verif.Decl.Spec.RelateExpr ts r) : r.names ≠ [] := by
  cases h with
  | mk _ hn _ _ => cases hn <;> simp

theorem relateExprs_names {lax : Bool} {ts : List (Tok D)} {rs : List (Verif.Decl.Spec.RelDecl D O)} (h : Verif.Decl.Spec.RelateExprs lax ts rs) :
    ∀ r ∈ rs, r.names ≠ [] := by
  induction h with
  | nil => simp
  | cons h _ ih => intro r hr; rcases List.mem_cons.mp hr with rfl | hr; exacts [relateExpr_names h, ih r hr]
  | dangling => simp

theorem cell_two {lax : Bool} {detailed : Str} {sec : Verif.Decl.Spec.Section} {ts : List (Tok D)} {d : Decl D O}
    (h : Verif.Decl.Spec.Cell lax detailed sec ts d) : TwoTerms d := by
  cases h with
  | relate _ h1 h2 h3 _ =>
      refine ⟨by simp, ?_⟩
      intro r hr
      rcases List.mem_cons.mp hr with rfl | hr
      · exact relateExpr_names h1
      · rcases List.mem_cons.mp hr with rfl | hr
        · exact relateExpr_names h2
        · exact relateExprs_names h3 r hr
  | _ => trivial

theorem cells_two {lax : Bool} {sec : Verif.Decl.Spec.Section} {ts : List (Tok D)} {ds : List (Decl D O)} (h : Verif.Decl.Spec.Cells lax sec ts ds) :
    ∀ d ∈ ds, TwoTerms d := by
  induction h with
  | nil => simp
  | cons _ h _ ih => intro d hd; rcases List.mem_cons.mp hd with rfl | hd; exacts [cell_two h, ih d hd]
  | dangling => simp
  | danglingUnlink => simp

theorem sections_two {lax : Bool} {ok : Verif.Decl.Spec.Section → Prop} {ts : List (Tok D)} {ds : List (Decl D O)}
    (h : Verif.Decl.Spec.Sections lax ok ts ds) : ∀ d ∈ ds, TwoTerms d := by
  induction h with
  | nil => simp
  | cons _ h _ ih => intro d hd; rcases List.mem_append.mp hd with hd | hd; exacts [cells_two h d hd, ih d hd]

theorem sheets_two {lax : Bool} {ts : List (Tok D)} {ds : List (Decl D O)} (h : Sheets lax ts ds) : ∀ d ∈ ds, TwoTerms d := by
  induction h with
  | nil => simp
  | cons _ _ h _ _ ih => intro d hd; rcases List.mem_append.mp hd with hd | hd; exacts [sections_two h d hd, ih d hd]
  | dangling => simp

theorem callback_reachable (prog : List (Val D O) → Prog Str V) (ext : Bool) (c : Nat → D) (d : Decl D O) {s s' : Sheet Str V} (hs : Reachable s)
    (hd : ProperDecl d) (h : callback prog ext (Verif.Decl.report c d) s = (.ok (), s')) : Reachable s' := by
  cases d with
  | interface n linked init define brief detailed => exact .addInterface hs h
  | input n init brief detailed => exact .addInput hs h
  | constant n e brief detailed => exact .addConstant hs h
  | output n e brief detailed => exact .addOutput hs h
  | logic n e brief detailed => exact .addLogic hs h
  | invariant n e brief detailed => exact .addInvariant hs h
  | external n brief detailed =>
      simp only [Verif.Decl.report, callback] at h
      cases ext with
      | false => cases h
      | true =>
          have := (Prod.mk.inj h).2
          subst this
          exact hs
  | relate cond rs brief detailed =>
      simp only [Verif.Decl.report, callback] at h
      cases rs with
      | nil => cases h
      | cons r rs =>
          refine .addRelation hs ?_ h
          obtain ⟨⟨h1, h2⟩, h3⟩ := hd
          refine ⟨by simpa using h1, ?_, ?_⟩
          · intro t ht
            rw [List.map_map] at ht
            obtain ⟨r', hr', rfl⟩ := List.mem_map.mp ht
            exact h2 r' hr'
          · rw [List.map_map, List.flatMap_map]
            exact h3

theorem build_reachable (prog : List (Val D O) → Prog Str V) (ext : Bool) (c : Nat → D) : ∀ (ds : List (Decl D O)) (s s' : Sheet Str V), Reachable s →
    (∀ d ∈ ds, ProperDecl d) → build prog ext (ds.map (Verif.Decl.report c)) s = (.ok (), s') → Reachable s'
  | [], s, s', hs, _, h => by
      have := (Prod.mk.inj h).2
      subst this
      exact hs
  | d :: ds, s, s', hs, hd, h => by
      simp only [List.map_cons, build] at h
      rw [bind_run] at h
      split at h
      · rename_i s1 hx
        exact build_reachable prog ext c ds _ s' (callback_reachable prog ext c d hs (hd d (by simp)) hx) (fun d' h' => hd d' (by simp [h'])) h
      · cases h

/-- C133: a sheet which was read is one of those the theorems about sheets (C01, C02, ...) are about, if no name is
twice on the left of the expressions of one relation. -/
theorem C133_reachable (prog : List (Val D O) → Prog Str V) (ext lax : Bool) (c : Nat → D) (ts : List (Tok D)) (ds : List (Decl D O)) (n0 : Str)
    (s : Sheet Str V) (h : Sheets lax ts ds) (hd : ∀ d ∈ ds, OnceEach d) (hr : readSheet prog ext c ts (Sheet.empty n0) = (.ok (), s)) :
    Reachable s := by
  have hp := Verif.Decl.adamParse_run (c := c) h []
  obtain ⟨ds', h', hb⟩ := readSheet_ok hr
  have hp' := Verif.Decl.adamParse_run (c := c) h' []
  rw [hp] at hp'
  simp only [List.nil_append, Verif.Decl.Res.ok.injEq, true_and] at hp'
  rw [← hp'] at hb
  exact build_reachable prog ext c ds _ s (.empty n0) (fun d h' => ⟨sheets_two h d h', hd d h'⟩) hb

end Verif.Bind
