import Verif.Adam.Init
import Mathlib.Data.List.Sort
/-! Concrete sheets, for the examples. -/
namespace Verif.Adam.Ex
open Verif.Adam

/-- The names of the example sheets. -/
inductive Nm where
  | a | b | c | d | e | f | g
  deriving DecidableEq, Repr

/-- The values of the example sheets. -/
inductive Vl where
  | empty
  | num (i : Int)
  | bool (b : Bool)
  | arr (l : List Int)
  deriving DecidableEq, Repr

instance : Values Vl where
  asBool v := match v with
    | .bool b => some b
    | _ => none
  asArray v := match v with
    | .arr l => some (l.map .num)
    | _ => none
  empty := .empty

/-- A sort for the examples. -/
def srt : Sorter := fun key l => l.insertionSort fun a b => key a ≤ key b

theorem srt_ok : SortOk srt := by
  intro key l
  have : Std.Total (fun a b : Nat => key a ≤ key b) := ⟨fun a b => Int.le_total _ _⟩
  have : IsTrans Nat (fun a b : Nat => key a ≤ key b) := ⟨fun a b c h h' => Int.le_trans h h'⟩
  exact ⟨List.perm_insertionSort _ l, List.pairwise_insertionSort (r := fun a b : Nat => key a ≤ key b) l⟩

abbrev P := Prog Nm Vl
abbrev S := Sheet Nm Vl

/-- `x + y`, where x and y are numbers, and so on: an exception otherwise. -/
def lift2 (f : Int → Int → Vl) (x y : Nm) : P := .ask x fun u => .ask y fun v => match u, v with
  | .num i, .num j => .ret (f i j)
  | _, _ => .fail
def lift1 (f : Int → Vl) (x : Nm) : P := .ask x fun u => match u with
  | .num i => .ret (f i)
  | _ => .fail

def run {α : Type} (x : M Nm Vl α) (s : S) : S := (x s).2
theorem run_ok {α : Type} {x : M Nm Vl α} {s : S} {a : α} (h : (x s).1 = .ok a) : x s = (.ok a, run x s) := Prod.ext h rfl

/-! ### `a + b = c`, and `g = 2 a` when `f` is true; the output `d` is `10 c`, the invariant `e` says that `c` is less than 100 -/

def s1 : S := run (addInterfaceValue .a (.num 1)) (Sheet.empty .a)
def s2 : S := run (addInterfaceValue .b (.num 2)) s1
def s3 : S := run (addInterface .c true (some (.ret (.num 7))) none) s2
def t4 : List (RelTerm Nm Vl) := [⟨[.c], lift2 (fun i j => .num (i + j)) .a .b⟩, ⟨[.a], lift2 (fun i j => .num (i - j)) .c .b⟩,
  ⟨[.b], lift2 (fun i j => .num (i - j)) .c .a⟩]
def s4 : S := run (addRelation none t4) s3
def s5 : S := run (addOutput .d (lift1 (fun i => .num (i * 10)) .c)) s4
def s6 : S := run (addInvariant .e (lift1 (fun i => .bool (i < 100)) .c)) s5
def s7 : S := run (addInput .f (some (.ret (.bool false)))) s6
def s8 : S := run (addInterfaceValue .g (.num 50)) s7
def t9 : List (RelTerm Nm Vl) := [⟨[.g], lift1 (fun i => .num (2 * i)) .a⟩, ⟨[.a], lift1 (fun i => .num (i / 2)) .g⟩]
def s9 : S := run (addRelation (some (.ask .f .ret)) t9) s8
/-- The order in which the hash table happens to go through the output cells, and another one. -/
def ord : List Nat := [7, 1, 10, 3, 6, 5]
def ord' : List Nat := [5, 6, 3, 10, 1, 7]

theorem s9_reachable : Reachable s9 := by
  have h0 : Reachable (Sheet.empty Nm.a : S) := Reachable.empty Nm.a
  have h1 : Reachable s1 := h0.addInterfaceValue (run_ok (by decide +kernel))
  have h2 : Reachable s2 := h1.addInterfaceValue (run_ok (by decide +kernel))
  have h3 : Reachable s3 := h2.addInterface (run_ok (by decide +kernel))
  have h4 : Reachable s4 := h3.addRelation (ts := t4) ⟨by decide, by decide, by decide⟩ (run_ok (by decide +kernel))
  have h5 : Reachable s5 := h4.addOutput (run_ok (by decide +kernel))
  have h6 : Reachable s6 := h5.addInvariant (run_ok (by decide +kernel))
  have h7 : Reachable s7 := h6.addInput (run_ok (by decide +kernel))
  have h8 : Reachable s8 := h7.addInterfaceValue (run_ok (by decide +kernel))
  exact h8.addRelation (ts := t9) ⟨by decide, by decide, by decide⟩ (run_ok (by decide +kernel))

/-- The conditional relation is on. -/
def s10 : S := run (set .f (.bool true)) s9
theorem s10_reachable : Reachable s10 := s9_reachable.set (run_ok (by decide +kernel))

def vals (s : S) : List (Option Vl) := [s.value .a, s.value .b, s.value .c, s.value .d, s.value .e, s.value .f, s.value .g]

/-! ### Two relations between the same two cells: over-constrained -/

def x1 : S := run (addInterfaceValue .a (.num 1)) (Sheet.empty .a)
def x2 : S := run (addInterfaceValue .b (.num 2)) x1
def tx (k : Int) : List (RelTerm Nm Vl) := [⟨[.a], lift1 (fun i => .num (i - k)) .b⟩, ⟨[.b], lift1 (fun i => .num (i + k)) .a⟩]
def x3 : S := run (addRelation none (tx 1)) x2
def x4 : S := run (addRelation none (tx 2)) x3
theorem x4_reachable : Reachable x4 := by
  have h0 : Reachable (Sheet.empty Nm.a : S) := Reachable.empty Nm.a
  have h1 : Reachable x1 := h0.addInterfaceValue (run_ok (by decide +kernel))
  have h2 : Reachable x2 := h1.addInterfaceValue (run_ok (by decide +kernel))
  have h3 : Reachable x3 := h2.addRelation (ts := tx 1) ⟨by decide, by decide, by decide⟩ (run_ok (by decide +kernel))
  exact h3.addRelation (ts := tx 2) ⟨by decide, by decide, by decide⟩ (run_ok (by decide +kernel))

/-! ### A cell whose expression may throw -/

/-- `10 b`, an exception when `b` is 0. -/
def tenfold : P := .ask .b fun u => match u with
  | .num 0 => .fail
  | .num i => .ret (.num (i * 10))
  | _ => .fail
def v1 : S := run (addInterfaceValue .b (.num 0)) (Sheet.empty .a)
def v2 : S := run (addInterface .a false (some (.ret (.num 5))) (some tenfold)) v1
def v3 : S := run (addOutput .c (.ask .a .ret)) v2
/-- The cells are gone through in the order b, a, c. -/
def vord : List Nat := [1, 3, 4]
theorem v3_reachable : Reachable v3 := by
  have h0 : Reachable (Sheet.empty Nm.a : S) := Reachable.empty Nm.a
  have h1 : Reachable v1 := h0.addInterfaceValue (run_ok (by decide +kernel))
  have h2 : Reachable v2 := h1.addInterface (run_ok (by decide +kernel))
  exact h2.addOutput (run_ok (by decide +kernel))
def v4 : S := (update srt vord v3).2
def v5 : S := run (set .b (.num 1)) v4
def v6 : S := (update srt vord v5).2

/-! ### A circular definition through a logic cell: `a` is `b`, `b` is `a + 1`; the output `c` is `b` -/

def w1 : S := run (addInterface .a false (some (.ret (.num 5))) (some (.ask .b .ret))) (Sheet.empty .a)
def w2 : S := run (addLogic .b (lift1 (fun i => .num (i + 1)) .a)) w1
def w3 : S := run (addOutput .c (.ask .b .ret)) w2
theorem w3_reachable : Reachable w3 := by
  have h0 : Reachable (Sheet.empty Nm.a : S) := Reachable.empty Nm.a
  have h1 : Reachable w1 := h0.addInterface (run_ok (by decide +kernel))
  have h2 : Reachable w2 := h1.addLogic (run_ok (by decide +kernel))
  exact h2.addOutput (run_ok (by decide +kernel))

/-! ### Initializers: that of `b` is `a + 1`, that of `c` is `10 b`; the input `a` is set -/

def r1 : S := run (addInput .a (some (.ret (.num 1)))) (Sheet.empty .a)
def r2 : S := run (addInterface .b false (some (lift1 (fun i => .num (i + 1)) .a)) none) r1
def r3 : S := run (addInterface .c false (some (lift1 (fun i => .num (i * 10)) .b)) none) r2
def r4 : S := run (set .a (.num 5)) r3
theorem r4_reachable : Reachable r4 := by
  have h0 : Reachable (Sheet.empty Nm.a : S) := Reachable.empty Nm.a
  have h1 : Reachable r1 := h0.addInput (run_ok (by decide +kernel))
  have h2 : Reachable r2 := h1.addInterface (run_ok (by decide +kernel))
  have h3 : Reachable r3 := h2.addInterface (run_ok (by decide +kernel))
  exact h3.set (run_ok (by decide +kernel))

end Verif.Adam.Ex
