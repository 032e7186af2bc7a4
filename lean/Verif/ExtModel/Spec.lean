import Verif.ExtModel.Model
/-!
Specification of an external model: what a call does, told by the calls before it (`h`, the latest first).
-/
namespace Verif.ExtModel.Spec
open Verif.ExtModel

/-- There is a cell with the name. -/
def Known (h : List Op) (n : Name) : Prop := .addCell n ∈ h

/-- How many monitors have been connected. -/
noncomputable def made (h : List Op) : Nat :=
  open Classical in
  match h with
  | [] => 0
  | .monitor n _ :: h => if Known h n then made h + 1 else made h
  | _ :: h => made h

/-- The monitors that are connected, the oldest first: connection, cell and monitor. -/
noncomputable def connected (h : List Op) : List (Conn × Name × Mon) :=
  open Classical in
  match h with
  | [] => []
  | .monitor n m :: h => if Known h n then connected h ++ [(made h, n, m)] else connected h
  | .disconnect d :: h => (connected h).filter (·.1 ≠ d)
  | _ :: h => connected h

/-- The model monitor of a cell: the one that was set last. -/
noncomputable def modelOf (h : List Op) (n : Name) : Option Mon :=
  open Classical in
  match h with
  | [] => none
  | .modelMonitor n' m :: h => if n' = n ∧ Known h n then m else modelOf h n
  | _ :: h => modelOf h n

/-- What a call does, after the calls `h`. -/
def Sees (h : List Op) : Op → Out → Prop
  | .addCell _, o => o = .done
  | .count n, o => (Known h n ∧ o = .num 1) ∨ (¬ Known h n ∧ o = .num 0)
  | .monitor n _, o => (Known h n ∧ o = .conn (made h)) ∨ (¬ Known h n ∧ o = .logicError)
  | .set n v, o => (Known h n ∧ ((∃ m, modelOf h n = some m ∧ o = .called [(m, v)]) ∨ (modelOf h n = none ∧ o = .badCall))) ∨
      (¬ Known h n ∧ o = .logicError)
  | .modelMonitor n _, o => (Known h n ∧ o = .done) ∨ (¬ Known h n ∧ o = .logicError)
  | .modelSet n v, o => (Known h n ∧ o = .called (((connected h).filter (·.2.1 = n)).map fun x => (x.2.2, v))) ∨
      (¬ Known h n ∧ o = .logicError)
  | .disconnect _, o => o = .done

/-- What is seen of a whole history. -/
inductive Seen : List Op → List Op → List Out → Prop
  | nil {h} : Seen h [] []
  | cons {h op ops o os} : Sees h op o → Seen (op :: h) ops os → Seen h (op :: ops) (o :: os)

end Verif.ExtModel.Spec
