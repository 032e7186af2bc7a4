import Verif.Adam.Restore
/-! Concrete sheets for C115, C116 and C117. -/
namespace Verif.Adam.Ex
open Verif.Adam

/-- `x` where the flag `n` is true, `y` otherwise. -/
def cond (n : Nm) (x y : P) : P := .ask n fun u => match u with
  | .bool true => x
  | .bool false => y
  | _ => .fail

/-! ### k: the output `d` is `b + c` when the input `a` is true and `b` when it is not; `b` and `g` are equal -/

def k1 : S := run (addInput .a (some (.ret (.bool true)))) (Sheet.empty .a)
def k2 : S := run (addInterfaceValue .b (.num 5)) k1
def k3 : S := run (addInterfaceValue .c (.num 7)) k2
def k4 : S := run (addInterfaceValue .g (.num 5)) k3
def tk : List (RelTerm Nm Vl) := [⟨[.b], .ask .g .ret⟩, ⟨[.g], .ask .b .ret⟩]
def k5 : S := run (addRelation none tk) k4
def k6 : S := run (addOutput .d (cond .a (lift2 (fun i j => .num (i + j)) .b .c) (.ask .b .ret))) k5
def k7 : S := run (set .b (.num 6)) k6
def kord : List Nat := [2, 4, 6, 7]
theorem k7_reachable : Reachable k7 := by
  have h0 : Reachable (Sheet.empty Nm.a : S) := Reachable.empty Nm.a
  have h1 : Reachable k1 := h0.addInput (run_ok (by decide +kernel))
  have h2 : Reachable k2 := h1.addInterfaceValue (run_ok (by decide +kernel))
  have h3 : Reachable k3 := h2.addInterfaceValue (run_ok (by decide +kernel))
  have h4 : Reachable k4 := h3.addInterfaceValue (run_ok (by decide +kernel))
  have h5 : Reachable k5 := h4.addRelation (ts := tk) ⟨by decide, by decide, by decide⟩ (run_ok (by decide +kernel))
  have h6 : Reachable k6 := h5.addOutput (run_ok (by decide +kernel))
  exact h6.set (run_ok (by decide +kernel))
theorem k7_enum : Enumerates k7 kord := enum_of (by decide) (fun n => by cases n <;> decide +kernel) (by decide +kernel)
def k8 : S := (update srt kord k7).2
def k9 : S := run (set .a (.bool false)) k8
def k10 : S := (update srt kord k9).2

/-! ### m: `a + b = c`, and `g = 2 a` when the input `f` is true; the output `d` is `c + g` -/

def m6 : S := run (addInput .f (some (.ret (.bool false)))) s4
def m7 : S := run (addInterfaceValue .g (.num 50)) m6
def m8 : S := run (addRelation (some (.ask .f .ret)) t9) m7
def m9 : S := run (addOutput .d (lift2 (fun i j => .num (i + j)) .c .g)) m8
def mord : List Nat := [1, 3, 5, 8, 9]
theorem m9_reachable : Reachable m9 := by
  have h0 : Reachable (Sheet.empty Nm.a : S) := Reachable.empty Nm.a
  have h1 : Reachable s1 := h0.addInterfaceValue (run_ok (by decide +kernel))
  have h2 : Reachable s2 := h1.addInterfaceValue (run_ok (by decide +kernel))
  have h3 : Reachable s3 := h2.addInterface (run_ok (by decide +kernel))
  have h4 : Reachable s4 := h3.addRelation (ts := t4) ⟨by decide, by decide, by decide⟩ (run_ok (by decide +kernel))
  have h6 : Reachable m6 := h4.addInput (run_ok (by decide +kernel))
  have h7 : Reachable m7 := h6.addInterfaceValue (run_ok (by decide +kernel))
  have h8 : Reachable m8 := h7.addRelation (ts := t9) ⟨by decide, by decide, by decide⟩ (run_ok (by decide +kernel))
  exact h8.addOutput (run_ok (by decide +kernel))
theorem m9_enum : Enumerates m9 mord := enum_of (by decide) (fun n => by cases n <;> decide +kernel) (by decide +kernel)
def m10 : S := (update srt mord m9).2
def m11 : S := run (set .f (.bool true)) m10
def m12 : S := (update srt mord m11).2

/-! ### p: `c = a b`, `b = c / a`, with 0 when `a` is 0; the output `d` is `c`.  The cells were added in the order `b`, `a`, `c`. -/

def prod : P := .ask .a fun u => match u with
  | .num 0 => .ret (.num 0)
  | .num i => .ask .b fun v => match v with
    | .num j => .ret (.num (i * j))
    | _ => .fail
  | _ => .fail
def quot : P := .ask .a fun u => match u with
  | .num 0 => .ret (.num 0)
  | .num i => .ask .c fun v => match v with
    | .num j => .ret (.num (j / i))
    | _ => .fail
  | _ => .fail
def p1 : S := run (addInterfaceValue .b (.num 7)) (Sheet.empty .a)
def p2 : S := run (addInterfaceValue .a (.num 1)) p1
def p3 : S := run (addInterfaceValue .c (.num 7)) p2
def tp : List (RelTerm Nm Vl) := [⟨[.c], prod⟩, ⟨[.b], quot⟩]
def p4 : S := run (addRelation none tp) p3
/-- A new instance of the sheet. -/
def p5 : S := run (addOutput .d (.ask .c .ret)) p4
/-- An instance in which `b` and `a` were set. -/
def p6 : S := run (set .b (.num 5)) p5
def p7 : S := run (set .a (.num 0)) p6
def pord : List Nat := [1, 3, 5, 6]
theorem p5_reachable : Reachable p5 := by
  have h0 : Reachable (Sheet.empty Nm.a : S) := Reachable.empty Nm.a
  have h1 : Reachable p1 := h0.addInterfaceValue (run_ok (by decide +kernel))
  have h2 : Reachable p2 := h1.addInterfaceValue (run_ok (by decide +kernel))
  have h3 : Reachable p3 := h2.addInterfaceValue (run_ok (by decide +kernel))
  have h4 : Reachable p4 := h3.addRelation (ts := tp) ⟨by decide, by decide, by decide⟩ (run_ok (by decide +kernel))
  exact h4.addOutput (run_ok (by decide +kernel))
theorem p7_reachable : Reachable p7 := (p5_reachable.set (s' := p6) (run_ok (by decide +kernel))).set (run_ok (by decide +kernel))
theorem p7_enum : Enumerates p7 pord := enum_of (by decide) (fun n => by cases n <;> decide +kernel) (by decide +kernel)
theorem p5_enum : Enumerates p5 pord := enum_of (by decide) (fun n => by cases n <;> decide +kernel) (by decide +kernel)
def p8 : S := (update srt pord p7).2

/-- Another one, in which the product is not 0; its report is set in the new instance, in another order. -/
def z7 : S := run (set .a (.num 3)) p6
theorem z7_reachable : Reachable z7 := (p5_reachable.set (s' := p6) (run_ok (by decide +kernel))).set (run_ok (by decide +kernel))
theorem z7_enum : Enumerates z7 pord := enum_of (by decide) (fun n => by cases n <;> decide +kernel) (by decide +kernel)
def z8 : S := (update srt pord z7).2
def z9 : S := run (setAll (contributingOf z8 pord []).reverse) p5

/-! ### q: `a` is at least `b`: one of them is moved; the output `d` is `a` -/

def q1 : S := run (addInterface .a false (some (.ret (.num 5))) none) (Sheet.empty .a)
def q2 : S := run (addInterface .b false (some (.ret (.num 7))) none) q1
def tq : List (RelTerm Nm Vl) := [⟨[.a], lift2 (fun i j => .num (max i j)) .a .b⟩, ⟨[.b], lift2 (fun i j => .num (min i j)) .a .b⟩]
def q3 : S := run (addRelation none tq) q2
def q4 : S := run (addOutput .d (.ask .a .ret)) q3
def qord : List Nat := [1, 3, 4]
theorem q4_reachable : Reachable q4 := by
  have h0 : Reachable (Sheet.empty Nm.a : S) := Reachable.empty Nm.a
  have h1 : Reachable q1 := h0.addInterface (run_ok (by decide +kernel))
  have h2 : Reachable q2 := h1.addInterface (run_ok (by decide +kernel))
  have h3 : Reachable q3 := h2.addRelation (ts := tq) ⟨by decide, by decide, by decide⟩ (run_ok (by decide +kernel))
  exact h3.addOutput (run_ok (by decide +kernel))
theorem q4_enum : Enumerates q4 qord := enum_of (by decide) (fun n => by cases n <;> decide +kernel) (by decide +kernel)
def q5 : S := (update srt qord q4).2

/-! ### e: `b` looks at itself only when the input `a` is true; `c` and `g` are equal; the output `d` is `c` -/

def e1 : S := run (addInput .a (some (.ret (.bool true)))) (Sheet.empty .a)
def e2 : S := run (addInterface .b false (some (.ret (.num 5))) (some (cond .a (.ask .b .ret) (.ret (.num 0))))) e1
def e3 : S := run (addInterfaceValue .c (.num 7)) e2
def e4 : S := run (addInterfaceValue .g (.num 7)) e3
def te : List (RelTerm Nm Vl) := [⟨[.c], .ask .g .ret⟩, ⟨[.g], .ask .c .ret⟩]
def e5 : S := run (addRelation none te) e4
def e6 : S := run (addOutput .d (.ask .c .ret)) e5
def eord : List Nat := [2, 4, 6, 7]
theorem e6_reachable : Reachable e6 := by
  have h0 : Reachable (Sheet.empty Nm.a : S) := Reachable.empty Nm.a
  have h1 : Reachable e1 := h0.addInput (run_ok (by decide +kernel))
  have h2 : Reachable e2 := h1.addInterface (run_ok (by decide +kernel))
  have h3 : Reachable e3 := h2.addInterfaceValue (run_ok (by decide +kernel))
  have h4 : Reachable e4 := h3.addInterfaceValue (run_ok (by decide +kernel))
  have h5 : Reachable e5 := h4.addRelation (ts := te) ⟨by decide, by decide, by decide⟩ (run_ok (by decide +kernel))
  exact h5.addOutput (run_ok (by decide +kernel))
theorem e6_enum : Enumerates e6 eord := enum_of (by decide) (fun n => by cases n <;> decide +kernel) (by decide +kernel)
def e7 : S := (update srt eord e6).2
def e8 : S := run (set .a (.bool false)) e7
def e9 : S := (update srt eord e8).2

end Verif.Adam.Ex
