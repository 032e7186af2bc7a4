import Verif.Bind.Props
import Verif.Adam.Example
/-! Concrete cases which meet the hypotheses of C133. -/
namespace Verif.Bind
open Verif.Adam Verif.Expr
open Verif.Decl (relTokens var_expr relate_one)
open Verif.Decl.Spec (Decl Sheets Cell Cells Sections)
open Verif.Adam.Ex (Vl)

/-- An expression which is a variable; others fail. -/
def varProg : List (Val Nat Nat) → Prog Str Vl
  | [.name n, .name _] => .ask n .ret
  | _ => .fail

/-- `sheet s { input: z; interface: a : z; unlink b : a; logic: relate { a <== b; b <== a; } output: r <== a; }` -/
def text : List (Tok Nat) :=
  [] ++ .kw "sheet".toList :: .ident "s".toList :: .sym .openBrace ::
    ((.kw "input".toList :: .sym .colon :: (([] ++ [.ident "z".toList, .sym .semicolon] ++ []) ++
      .kw "interface".toList :: .sym .colon :: (([] ++ [.ident "a".toList, .sym .colon, .ident "z".toList, .sym .semicolon] ++
          ([] ++ [.kw "unlink".toList, .ident "b".toList, .sym .colon, .ident "a".toList, .sym .semicolon] ++ [])) ++
      .kw "logic".toList :: .sym .colon :: (([] ++ ([] ++ .kw "relate".toList :: .sym .openBrace ::
          (relTokens "a".toList "b".toList ++ relTokens "b".toList "a".toList ++ [] ++ .sym .closeBrace :: [])) ++ []) ++
      .kw "output".toList :: .sym .colon :: (([] ++ [.ident "r".toList, .sym .is, .ident "a".toList, .sym .semicolon] ++ []) ++ []))))) ++
     .sym .closeBrace :: ([] ++ []))

def decls : List (Decl Nat Nat) := [
  .input "z".toList none [] [],
  .interface "a".toList true (some (.var "z".toList)) none [] [],
  .interface "b".toList false (some (.var "a".toList)) none [] [],
  .relate none [⟨["a".toList], .var "b".toList, [], []⟩, ⟨["b".toList], .var "a".toList, [], []⟩] [] [],
  .output "r".toList (.var "a".toList) [] []]

theorem text_derives : Sheets false text decls := by
  have h1 : Cells (D := Nat) (O := Nat) false .input _ _ := .cons .none (.input "z".toList .none (.mk .none)) .nil
  have h2 : Cells (D := Nat) (O := Nat) false .interface _ _ := .cons .none
    (.interface "a".toList .linked (.some (.mk (var_expr "z".toList))) .none (.mk .none)) (.cons .none
    (.interface "b".toList .unlinked (.some (.mk (var_expr "a".toList))) .none (.mk .none)) .nil)
  have h3 : Cells (D := Nat) (O := Nat) false .logic _ _ := .cons .none (.relate .none (relate_one "a".toList "b".toList) (relate_one "b".toList "a".toList) .nil .none) .nil
  have h4 : Cells (D := Nat) (O := Nat) false .output _ _ := .cons .none (.output (.mk "r".toList (.mk (var_expr "a".toList)) (.mk .none))) .nil
  have h5 : Sections (D := Nat) (O := Nat) false (fun _ => True) _ _ := .cons trivial h1 (.cons trivial h2 (.cons trivial h3 (.cons trivial h4 .nil)))
  exact Sheets.cons "s".toList .none h5 .none .nil

theorem decls_acceptable : Acceptable (fun e => varProg (compile id e)) false decls where
  names := by decide
  inits := ⟨[("z".toList, .empty), ("a".toList, .empty), ("b".toList, .empty)], by rfl⟩
  relates := by
    intro a b cond rs brief detailed h
    match a, h with
    | [], h => cases h
    | [_], h => cases h
    | [_, _], h => cases h
    | [d1, d2, d3], h =>
        simp only [decls, List.cons_append, List.nil_append, List.cons.injEq, Decl.relate.injEq] at h
        obtain ⟨rfl, rfl, rfl, ⟨rfl, rfl, rfl, rfl⟩, rfl⟩ := h
        refine ⟨by simp, ?_⟩
        intro r hr n hn
        simp only [List.mem_cons, List.not_mem_nil, or_false] at hr
        rcases hr with rfl | rfl
        · simp only [List.mem_singleton] at hn
          exact ⟨_, List.mem_cons_of_mem _ (List.mem_cons_self ..), hn.symm⟩
        · simp only [List.mem_singleton] at hn
          exact ⟨_, List.mem_cons_of_mem _ (List.mem_cons_of_mem _ (List.mem_cons_self ..)), hn.symm⟩
    | [_, _, _, _], h => cases h
    | _ :: _ :: _ :: _ :: _ :: l, h => cases l <;> cases h
  external := by
    intro d hd h
    simp only [decls, List.mem_cons, List.not_mem_nil, or_false] at hd
    rcases hd with rfl | rfl | rfl | rfl | rfl <;> exact h.elim

/-- C133_accepts_iff: the text is read; C133_cells, C133_start_values, C133_reachable: what the sheet is then;
C133_appends, C133_twice: the text cannot be read again. -/
example : ∃ s, readSheet varProg false id text (Sheet.empty []) = (.ok (), s) ∧ (sigs s).length = 6 ∧ (rels s).length = 1 ∧
    names s = ["z".toList, "a".toList, "b".toList, "r".toList] ∧ (∃ v, startValue s "b".toList = some v) ∧ startValue s "r".toList = none ∧
    Reachable s ∧ ∀ s2, readSheet varProg true id text s ≠ (.ok (), s2) := by
  obtain ⟨env, he⟩ := decls_acceptable.inits
  obtain ⟨s, hs⟩ := build_total varProg false id decls [] (Sheet.empty []) [] env ⟨empty_good [], rfl, rfl⟩ (fun m => rfl)
    (by simpa using decls_acceptable.names) he (by simpa using decls_acceptable.relates) decls_acceptable.external
  have hr := readSheet_run text_derives hs
  obtain ⟨h1, h2, h3, -⟩ := C133_cells varProg false false id text decls [] s text_derives hr
  obtain ⟨env', h4, h5⟩ := C133_start_values varProg false false id text decls [] s text_derives hr
  have h6 : env' = [("z".toList, .empty), ("a".toList, .empty), ("b".toList, .empty)] := Option.some.inj (h4.symm.trans rfl)
  suffices hre : Reachable s from ⟨s, hr, by rw [h1]; rfl, by rw [h2]; rfl, by rw [h3]; rfl, ⟨.empty, by rw [h5, h6]; rfl⟩, by rw [h5, h6]; rfl, hre,
    fun s2 => C133_twice varProg false true false id text decls _ s s2 (.empty []) hre text_derives (by simp [decls, nameOf]) hr⟩
  refine C133_reachable varProg false false id text decls [] s text_derives ?_ hr
  intro d hd
  simp only [decls, List.mem_cons, List.not_mem_nil, or_false] at hd
  rcases hd with rfl | rfl | rfl | rfl | rfl <;> simp only [OnceEach]
  decide

/-- A name which is declared twice. -/
example : ¬ Acceptable (fun e => varProg (compile id e)) true (decls ++ [.input "a".toList none [] []]) := by
  intro h
  exact absurd h.names (by decide)

end Verif.Bind
