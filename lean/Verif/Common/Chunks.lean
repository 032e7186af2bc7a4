import Mathlib.Data.List.Basic
import Mathlib.Tactic.Linarith
/-
Complete blocks of `n` elements of a list (specification of "parse the message into blocks"), and its interaction with
appending.
-/
namespace Verif.Chunks

variable {α β : Type}

/-- the complete blocks of `n` elements; a shorter rest is dropped -/
def chunks (n : Nat) (l : List α) : List (List α) := (List.range (l.length / n)).map (fun i => (l.drop (n * i)).take n)

theorem chunks_short {n : Nat} {l : List α} (h : l.length < n) : chunks n l = [] := by
  simp [chunks, Nat.div_eq_of_lt h]

theorem chunks_long {n : Nat} {l : List α} (hn : 0 < n) (h : n ≤ l.length) : chunks n l = l.take n :: chunks n (l.drop n) := by
  have : l.length / n = (l.drop n).length / n + 1 := by
    rw [List.length_drop, ← Nat.add_div_right _ hn]; congr 1; omega
  simp only [chunks]
  rw [this, List.range_succ_eq_map]
  simp only [List.map_cons, Nat.mul_zero, List.drop_zero, List.map_map, List.cons.injEq, true_and]
  apply List.map_congr_left
  intro i _
  simp only [Function.comp, List.drop_drop]
  congr 2
  rw [Nat.mul_succ, Nat.add_comm]

theorem chunks_append {n : Nat} (hn : 0 < n) : ∀ (q : Nat) (x y : List α), x.length = n * q → chunks n (x ++ y) = chunks n x ++ chunks n y := by
  intro q
  induction q with
  | zero => intro x y h; have : x = [] := by simpa using h
            subst this; simp [chunks]
  | succ q ih =>
    intro x y h
    rw [Nat.mul_succ] at h
    rw [chunks_long hn (by rw [List.length_append]; omega), chunks_long (l := x) hn (by omega), List.take_append_of_le_length (by omega),
      List.drop_append_of_le_length (by omega), ih _ _ (by rw [List.length_drop]; omega), List.cons_append]

theorem chunks_one {n : Nat} (hn : 0 < n) {x : List α} (h : x.length = n) : chunks n x = [x] := by
  rw [chunks_long hn (by omega), List.take_of_length_le (by omega), List.drop_of_length_le (by omega), chunks_short (by simpa using hn)]

/-- blocks of a concatenation -/
theorem chunks_cat {n : Nat} (hn : 0 < n) (x y : List α) :
    chunks n (x ++ y) = chunks n x ++ chunks n (x.drop (n * (x.length / n)) ++ y) := by
  have hle : n * (x.length / n) ≤ x.length := Nat.mul_div_le _ _
  have e : x ++ y = x.take (n * (x.length / n)) ++ (x.drop (n * (x.length / n)) ++ y) := by
    rw [← List.append_assoc, List.take_append_drop]
  rw [e, chunks_append hn (x.length / n) _ _ (by rw [List.length_take]; omega)]
  congr 1
  conv_rhs => rw [← List.take_append_drop (n * (x.length / n)) x, chunks_append hn (x.length / n) _ _ (by rw [List.length_take]; omega)]
  rw [chunks_short (l := x.drop _), List.append_nil]
  rw [List.length_drop]
  have := Nat.div_add_mod x.length n
  have := Nat.mod_lt x.length hn
  omega

theorem rest_cat {n : Nat} (_hn : 0 < n) (x y : List α) :
    (x ++ y).drop (n * ((x ++ y).length / n)) =
      (x.drop (n * (x.length / n)) ++ y).drop (n * ((x.drop (n * (x.length / n)) ++ y).length / n)) := by
  have hle : n * (x.length / n) ≤ x.length := Nat.mul_div_le _ _
  have h1 : (x.drop (n * (x.length / n)) ++ y).length + n * (x.length / n) = (x ++ y).length := by
    simp only [List.length_append, List.length_drop]; omega
  have h2 : (x ++ y).length / n = (x.drop (n * (x.length / n)) ++ y).length / n + x.length / n := by
    rw [← h1, Nat.add_mul_div_left _ _ _hn]
  rw [h2, Nat.mul_add, ← List.drop_append_of_le_length hle, List.drop_drop, Nat.add_comm]

end Verif.Chunks
