import Verif.Eve.Evo
/-! The life of an eve: views are added, laid out again and again, shown and hidden. -/
namespace Verif.Eve

namespace Tree
variable {α : Type}

/-- The views without the flags that say which of them are visible. -/
def strip : Tree α → Tree α
  | .node _ a ks => .node true a (strips ks)
where
  strips : List (Tree α) → List (Tree α)
    | [] => []
    | t :: ts => strip t :: strips ts

/-- Which views are visible. -/
def flags (t : Tree α) : Tree Unit := t.map (fun _ => ())

/-- A property of every view and its children, whether visible or not. -/
def All (P : α → List (Tree α) → Prop) : Tree α → Prop
  | .node _ a ks => P a ks ∧ Alls ks
where
  Alls : List (Tree α) → Prop
    | [] => True
    | t :: ts => All P t ∧ Alls ts

end Tree

/-- A view that was added and never laid out: no guides have been computed; only a container has children, and it says how
they are aligned; what a placeable computes in the second pass does not depend on the vertical place of the last layout. -/
def Fresh (t : Tree Proxy) : Prop :=
  t.All (fun p kids =>
    (∀ s, (p.get s).fwd = [] ∧ (p.get s).rev = [] ∧
      (kids ≠ [] → (p.get s).leaf = false ∧ (p.get s).childAlign ≠ .default)) ∧
    ∀ f, p.measureVertical = some f → ∀ e v ph pv pv', f e v ph pv = f e v ph pv')

/-- The views `t0` after any use: layouts of any size with either function, and changes of visibility
(adobe/eve.hpp, `evaluate`, `adjust`, `set_visible`). -/
inductive Used (rnd : Int → Int → Int → Int) (t0 : Tree Proxy) : Tree Proxy → Prop
  | added : Used rnd t0 t0
  | evaluated {t t' : Tree Proxy} {o : Options} {w h rw rh : Int} :
      Used rnd t0 t → evaluate rnd o w h t = .ok (t', rw, rh) → Used rnd t0 t'
  | adjusted {t t' : Tree Proxy} {o : Options} {w h rw rh : Int} :
      Used rnd t0 t → adjust rnd o w h t = .ok (t', rw, rh) → Used rnd t0 t'
  | shown {t t' : Tree Proxy} : Used rnd t0 t → t'.strip = t.strip → Used rnd t0 t'

end Verif.Eve
