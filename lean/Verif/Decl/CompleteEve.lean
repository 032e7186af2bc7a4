import Verif.Decl.Complete
/-
Completeness for layouts.
-/
namespace Verif.Decl
open Verif.Expr Parser Verif.Decl.Spec

variable {D O α β : Type} {c : Nat → D}

theorem viewClass_run {used : List (Tok D)} {n : Str} {e : Expr.Spec.Expr D O} (h : Class used n e) (rest : List (Tok D))
    (log : List (Call D O)) : viewClass c (used ++ rest) log = .ok (some (n, compile c e)) rest log := by
  unfold viewClass
  cases h with
  | noArgs =>
    simp only [List.cons_append, List.nil_append]
    rw [bind_run _ (ident_self _ _ _)]
    refine (bind_run _ (need_self _ _ _)).trans ?_
    refine (bind_run _ (lift_run (namedArgList_none (c := c) (ts := .sym .closeParen :: rest) (st := []) (by simp) (by simp) (by simp)) log)).trans ?_
    exact (bind_run _ (need_self _ _ _)).trans rfl
  | @args _ ts ms hd =>
    simp only [List.cons_append, List.append_assoc, List.nil_append]
    rw [bind_run _ (ident_self _ _ _)]
    refine (bind_run _ (need_self _ _ _)).trans ?_
    have h1 := does (c := c) hd [] (.sym .closeParen :: rest) (stops_sym (by decide) _)
    rw [namedLoop_done _ (.inr ⟨_, _, by decide, rfl⟩)] at h1
    refine (bind_run _ (lift_run h1 log)).trans ?_
    refine (bind_run _ (need_self _ _ _)).trans ?_
    simp [pure_def, compile]

theorem addView_run (parent : Nat) (cls : Str) (args : List (Val D O)) (brief detailed : Str) (ts : List (Tok D)) (log : List (Call D O)) :
    addView parent cls args brief detailed ts log = .ok (viewCount log + 1) ts (log ++ [.view parent cls args brief detailed]) := rfl
theorem emit_run (x : Call D O) (ts : List (Tok D)) (log : List (Call D O)) : emit x ts log = .ok () ts (log ++ [x]) := rfl

theorem class_head {used : List (Tok D)} {n : Str} {e : Expr.Spec.Expr D O} (h : Class used n e) (rest : List (Tok D)) :
    ∃ r, used ++ rest = .ident n :: r := by
  cases h <;> exact ⟨_, rfl⟩

theorem viewDef_head {lax} {used : List (Tok D)} {v : View D O} (h : ViewDef lax used v) (rest : List (Tok D)) : NoTrail (used ++ rest) := by
  cases h with
  | leaf hl hc _ =>
    obtain ⟨r, hr⟩ := class_head hc ([] : List (Tok D))
    rw [List.append_nil] at hr
    subst hr
    cases hl <;> simp [NoTrail]
  | node hl hc _ _ =>
    obtain ⟨r, hr⟩ := class_head hc ([] : List (Tok D))
    rw [List.append_nil] at hr
    subst hr
    cases hl <;> simp [NoTrail]

theorem viewDefs_head {lax} {used : List (Tok D)} {vs : List (View D O)} (h : ViewDefs lax used vs) {rest : List (Tok D)} (hr : NoTrail rest) :
    NoTrail (used ++ rest) := by
  cases h with
  | nil => exact hr
  | cons h _ => rw [List.append_assoc]; exact viewDef_head h _
  | dangling => simp [NoTrail]

theorem viewDef_stop {n loc : Nat} {l : List (Tok D)} {s : Str} (hl : Lead l s) (ts : List (Tok D)) (log : List (Call D O)) :
    viewDef c (n + 1) loc (l ++ .sym .closeBrace :: ts) log = .ok false (.sym .closeBrace :: ts) log := by
  rw [viewDef, bind_run _ (lead_run' hl (by simp) (by simp) log)]
  have : viewClass c (.sym .closeBrace :: ts) log = .ok none (.sym .closeBrace :: ts) log := bind_run _ (ident_miss (by simp) (by simp) log)
  exact bind_run _ this

mutual
theorem viewDef_run {lax : Bool} {used : List (Tok D)} {v : View D O} (h : ViewDef lax used v) {rest : List (Tok D)} (hr : NoTrail rest)
    (n loc : Nat) (log : List (Call D O)) (hn : 2 * used.length + 1 ≤ n) :
    viewDef c n loc (used ++ rest) log = .ok true rest (log ++ reportView c loc (viewCount log + 1) v) := by
  obtain ⟨n, rfl⟩ : ∃ k, n = k + 1 := ⟨n - 1, by omega⟩
  match h with
  | @ViewDef.leaf _ _ _ l ts t detailed cls args brief hl hc ht =>
    rw [viewDef]
    simp only [List.append_assoc, List.cons_append]
    obtain ⟨r, hh⟩ := class_head hc (.sym .semicolon :: (t ++ rest))
    rw [bind_run _ (lead_run' hl (by rw [hh]; simp) (by rw [hh]; simp) log)]
    refine (bind_run _ (viewClass_run hc _ log)).trans ?_
    refine (bind_run _ (tok_self _ _ _)).trans ?_
    refine (bind_run _ (trail_run' ht hr log)).trans ?_
    refine (bind_run _ (addView_run _ _ _ _ _ _ _)).trans ?_
    simp [pure_def, reportView, reportViews]
  | @ViewDef.node _ _ _ l ts t us detailed cls args brief vs hl hc ht hvs =>
    have hcp := class_pos hc
    rw [viewDef]
    simp only [List.append_assoc, List.cons_append, List.nil_append, List.length_append, List.length_cons, List.length_nil] at hn ⊢
    obtain ⟨r, hh⟩ := class_head hc (t ++ .sym .openBrace :: (us ++ .sym .closeBrace :: rest))
    rw [bind_run _ (lead_run' hl (by rw [hh]; simp) (by rw [hh]; simp) log)]
    refine (bind_run _ (viewClass_run hc _ log)).trans ?_
    refine (bind_run _ (tok_miss (by cases ht <;> simp) (by cases ht <;> simp) log)).trans ?_
    refine (bind_run _ (trail_run' ht (by simp [NoTrail]) log)).trans ?_
    refine (bind_run _ (addView_run _ _ _ _ _ _ _)).trans ?_
    refine (bind_run _ (need_self _ _ _)).trans ?_
    refine (bind_run _ (viewDefs_run hvs rest n (viewCount log + 1) _ (by omega))).trans ?_
    refine (bind_run _ (need_self _ _ _)).trans ?_
    simp [pure_def, reportView, viewCount_append, viewCount]
theorem viewDefs_run {lax : Bool} {used : List (Tok D)} {vs : List (View D O)} (h : ViewDefs lax used vs) (rest : List (Tok D))
    (n loc : Nat) (log : List (Call D O)) (hn : 2 * used.length + 2 ≤ n) :
    viewSeq c n loc (used ++ .sym .closeBrace :: rest) log =
      .ok () (.sym .closeBrace :: rest) (log ++ reportViews c loc (viewCount log + 1) vs) := by
  obtain ⟨n, rfl⟩ : ∃ k, n = k + 2 := ⟨n - 2, by omega⟩
  match h with
  | .nil =>
    rw [viewSeq, bind_run _ (viewDef_stop (l := []) .none rest log)]
    simp [pure_def, reportViews]
  | .dangling s _ =>
    rw [viewSeq, bind_run _ (viewDef_stop (l := [.leadComment s]) (.some s) rest log)]
    simp [pure_def, reportViews]
  | @ViewDefs.cons _ _ _ ts us v vs hv hvs =>
    have hp := viewDef_pos hv
    simp only [List.length_append] at hn
    rw [viewSeq, List.append_assoc, bind_run _ (viewDef_run hv (viewDefs_head hvs (by simp [NoTrail])) (n + 1) loc log (by omega))]
    refine (viewDefs_run hvs rest (n + 1) loc _ (by omega)).trans ?_
    simp [reportViews, viewCount_append, viewCount_view]
    congr 1
    omega
end

theorem eveParse_run {lax : Bool} {used : List (Tok D)} {ds : List (Decl D O)} {v : View D O} (h : Layout lax used ds v)
    {rest : List (Tok D)} (hr : NoTrail rest) :
    ∃ calls, eveParse c (used ++ rest) [] = .ok () rest (calls ++ .finalize :: reportView c 0 1 v) ∧ Calls c false calls ds := by
  cases h with
  | @mk m l ts us t s s' _ _ hl hs hv ht =>
    simp only [List.append_assoc, List.cons_append]
    generalize hN : 2 * (l ++ .kw "layout".toList :: .ident m :: .sym .openBrace ::
        (ts ++ .kw "view".toList :: (us ++ .sym .closeBrace :: (t ++ rest)))).length + 2 = N
    have hN' : 2 * us.length + 1 ≤ N ∧ ts.length < N := by
      rw [← hN]; simp only [List.length_append, List.length_cons]; omega
    have hview : ∀ sec : Section, InLayout sec →
        (.kw "view".toList :: (us ++ .sym .closeBrace :: (t ++ rest)) : List (Tok D)).head? ≠ some (.kw sec.keyword) := by
      intro sec h
      rcases h with rfl | rfl | rfl
      · show some (Tok.kw _) ≠ some (.kw _)
        intro h; injection h with h; injection h with h; revert h; decide
      · show some (Tok.kw _) ≠ some (.kw _)
        intro h; injection h with h; injection h with h; revert h; decide
      · show some (Tok.kw _) ≠ some (.kw _)
        intro h; injection h with h; injection h with h; revert h; decide
    have hstop : StopCells (.kw "view".toList :: (us ++ .sym .closeBrace :: (t ++ rest)) : List (Tok D)) :=
      ⟨_, .inr ⟨_, rfl, by decide, by decide, by decide⟩⟩
    obtain ⟨calls, h1, h2⟩ := sections_run (eveSection_run (c := c) N) hs hstop hview N [] hN'.2 hN'.2
    refine ⟨calls, ?_, h2⟩
    unfold eveParse
    rw [hN]
    refine (bind_run (t1 := rest) (a := true) (l1 := calls ++ .finalize :: reportView c 0 1 v) _ ?_).trans rfl
    unfold layoutSpecifier
    rw [bind_run _ (lead_run' hl (by simp) (by simp) [])]
    refine (bind_run _ (kw_self _ _ _)).trans ?_
    refine (bind_run _ (ident_self _ _ _)).trans ?_
    refine (bind_run _ (need_self _ _ _)).trans ?_
    refine (bind_run _ h1).trans ?_
    refine (bind_run _ (emit_run _ _ _)).trans ?_
    refine (bind_run _ (kw_self _ _ _)).trans ?_
    refine (bind_run _ (viewDef_run hv (by simp [NoTrail]) _ 0 _ hN'.1)).trans ?_
    refine (bind_run _ (need_self _ _ _)).trans ?_
    refine (bind_run _ (trail_run' ht hr _)).trans ?_
    simp [pure_def, viewCount_append, viewCount_calls h2, viewCount]

end Verif.Decl
