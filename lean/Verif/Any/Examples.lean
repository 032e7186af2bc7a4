import Verif.Any.Props
/-!
Examples, and what `any_regular_t` does not do.
-/
namespace Verif.Any
open Spec

/-- Values: small numbers, local; lists, on the heap. -/
def exConf : Conf Bool (Nat ⊕ List Nat) where
  ty v := v.isLeft
  loc t := t
  gone v := match v with
    | .inl n => .inl n
    | .inr _ => .inr []
  gone_ty v := by cases v <;> rfl
  eqv v w := v == w
  empty := .inl 0

def okEnv (p : Nat) : Env := ⟨some p, false, false⟩

def stOf {Ty V} (s : St Ty V) : Res Unit (St Ty V) → St Ty V
  | .ok _ s => s
  | .throw s => s
  | .ub => s

def run1 (s : St Bool (Nat ⊕ List Nat)) (op : Op (Nat ⊕ List Nat)) : St Bool (Nat ⊕ List Nat) := stOf s (step exConf s op)

def exS0 : St Bool (Nat ⊕ List Nat) := ⟨fun _ => none, fun _ => none⟩
/-- `any_regular_t x0(list), x1(7), x2(x0);  swap(x0, x1);` -/
def exS1 := run1 exS0 (.mk 0 (.inr [1, 2]) (okEnv 100))
def exS2 := run1 exS1 (.mk 1 (.inl 7) (okEnv 200))
def exS3 := run1 exS2 (.copy 2 0 (okEnv 300))
def exS4 := run1 exS3 (.swap 0 1)

theorem ex_run1 : Run exConf exS1 (upd (fun _ => none) 0 (some (.val (.inr [1, 2])))) :=
  .ok (.mk 0 (.inr [1, 2]) (okEnv 100)) .start ⟨fun _ _ => rfl, rfl⟩ trivial rfl rfl

theorem ex_run4 : ∃ a, Run exConf exS4 a ∧ a 0 = some (.val (.inl 7)) ∧ a 1 = some (.val (.inr [1, 2])) ∧
    a 2 = some (.val (.inr [1, 2])) := by
  have r2 : Run exConf exS2 _ := .ok (.mk 1 (.inl 7) (okEnv 200)) ex_run1 ⟨fun p hp => by cases hp; rfl, rfl⟩ trivial rfl rfl
  have r3 : Run exConf exS3 _ := .ok (.copy 2 0 (okEnv 300)) r2 ⟨fun p hp => by cases hp; rfl, rfl⟩ trivial rfl rfl
  exact ⟨_, .ok (.swap 0 1) r3 trivial trivial rfl rfl, rfl, rfl, rfl⟩

example : cast exConf exS4 1 false = .ok (.inr [1, 2]) () := rfl
example : equals exConf exS4 1 2 = .ok true () := rfl
example : cast exConf exS4 0 false = .throw () := rfl
/-- A write through `cast` to the copy does not change the original. -/
example : cast exConf (run1 exS4 (.write 2 (.inr [9]))) 1 false = .ok (.inr [1, 2]) () ∧
    cast exConf (run1 exS4 (.write 2 (.inr [9]))) 2 false = .ok (.inr [9]) () := ⟨rfl, rfl⟩

/-- `x.assign(v)` destructs the old value before it allocates: when the allocation throws, the variable has no object in it, and the end of its
scope, which will come, destructs it again. -/
theorem C106_assign_throws_violated : ∃ s a s', Run exConf s a ∧ assign exConf s 0 (.inr [3]) ⟨none, false, false⟩ = .throw s' ∧
    s'.vars 0 = some .dead ∧ destroy s' 0 = .ub :=
  ⟨exS1, _, _, ex_run1, rfl, rfl, rfl⟩

/-- The same with assignment leaves the old value. -/
example : set exConf exS4 0 1 ⟨none, false, false⟩ = .throw exS4 := rfl

/-- When the move to the heap throws, the memory stays allocated and nothing owns it. -/
theorem C106_leak_violated : ∃ s', mk exConf exS0 0 (.inr [3]) ⟨some 100, false, true⟩ = .throw s' ∧ s'.heap 100 ≠ none ∧
    ∀ x, s'.vars x = none :=
  ⟨_, rfl, by simp [upd], fun _ => rfl⟩

/-- A variable that has been moved from can have nothing in it: comparing it, also with itself, or copying it, is not defined. -/
theorem C105_moved_violated : ∃ s a, Run exConf s a ∧ a 0 = some (.some false) ∧ equals exConf s 0 0 = .ub ∧
    copy exConf s 2 0 (okEnv 300) = .ub ∧ cast exConf s 0 false = .ub :=
  ⟨run1 exS1 (.move 1 0), _, .ok (.move 1 0) ex_run1 trivial trivial rfl rfl, rfl, rfl, rfl, rfl⟩

end Verif.Any
