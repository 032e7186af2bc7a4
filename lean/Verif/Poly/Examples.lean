import Verif.Poly.Props
import Verif.Any.Examples
/-!
Examples of `poly`.
-/
namespace Verif.Poly
open Verif.Any Verif.Any.Spec

abbrev ExS := St Bool (Nat ⊕ List Nat)

def run1 (s : ExS) (op : Op (Nat ⊕ List Nat)) : ExS := stOf s (Spec.step exConf s op)

def s0 : ExS := ⟨fun _ => none, fun _ => none⟩
/-- `poly x0(list), x1(7), x2(x0);  swap(x0, x1);  x0.assign(list2)` -/
def s1 := run1 s0 (.mk 0 (.inr [1, 2]) (okEnv 100))
def s2 := run1 s1 (.mk 1 (.inl 7) (okEnv 200))
def s3 := run1 s2 (.copy 2 0 (okEnv 300))
def s4 := run1 s3 (.swap 0 1)
def s5 := run1 s4 (.assign 0 (.inr [5]) (okEnv 400))

theorem ex_run1 : Spec.Run exConf s1 (upd (fun _ => none) 0 (some (.val (.inr [1, 2])))) :=
  .ok (.mk 0 (.inr [1, 2]) (okEnv 100)) .start (fun _ _ => rfl) rfl rfl

theorem ex_run5 : ∃ a, Spec.Run exConf s5 a ∧ a 0 = some (.val (.inr [5])) ∧ a 1 = some (.val (.inr [1, 2])) ∧
    a 2 = some (.val (.inr [1, 2])) := by
  have r2 : Spec.Run exConf s2 _ := .ok (.mk 1 (.inl 7) (okEnv 200)) ex_run1 (fun p hp => by cases hp; rfl) rfl rfl
  have r3 : Spec.Run exConf s3 _ := .ok (.copy 2 0 (okEnv 300)) r2 (fun p hp => by cases hp; rfl) rfl rfl
  have r4 : Spec.Run exConf s4 _ := .ok (.swap 0 1) r3 trivial rfl rfl
  exact ⟨_, .ok (.assign 0 (.inr [5]) (okEnv 400)) r4 (fun p hp => by cases hp; rfl) rfl rfl, rfl, rfl, rfl⟩

example : cast exConf s5 0 false = .ok (.inr [5]) () := rfl
example : equals exConf s5 1 2 = .ok true () := rfl
example : cast exConf s4 0 false = .throw () := rfl
/-- `assign` of a value of another type that throws changes nothing: `new` throws, the move throws. -/
example : assign exConf s4 0 (.inr [5]) ⟨none, false, false⟩ = .throw s4 := rfl
example : assign exConf s4 0 (.inr [5]) ⟨some 400, false, true⟩ = .throw s4 := rfl
/-- `assign` in place does not touch the copy. -/
example : cast exConf (run1 s5 (.assign 2 (.inr [9]) (okEnv 500))) 1 false = .ok (.inr [1, 2]) () ∧
    cast exConf (run1 s5 (.assign 2 (.inr [9]) (okEnv 500))) 2 false = .ok (.inr [9]) () := ⟨rfl, rfl⟩
/-- A moved-from variable can be assigned a value of another type. -/
example : cast exConf (run1 (run1 s5 (.move 3 0)) (.assign 0 (.inl 4) (okEnv 500))) 0 true = .ok (.inl 4) () := rfl
/-- The hypotheses of `C118_moved_violated`. -/
example := C118_moved_violated (x := 1) (y := 0) (v := .inr [3]) ex_run1 rfl rfl rfl rfl (okEnv 500)

end Verif.Poly
