/-
Model of adobe/algorithm/select.hpp and the order-statistics built on it.
`r` is the C++ relation (a strict weak ordering); a C++ `assert` precondition is the outcome `none`.
-/
namespace Verif.Select

variable {T : Type}

/-- models: adobe/algorithm/select.hpp:50-61 `select_0_2` -/
def select_0_2 (a b : T) (r : T → T → Bool) : T := if r b a then b else a

/-- models: adobe/algorithm/select.hpp:68-79 `select_1_2` -/
def select_1_2 (a b : T) (r : T → T → Bool) : T := if r b a then a else b

/-- models: adobe/algorithm/select.hpp:86-99 `select_1_3_ac` (assert `!r(c, a)`) -/
def select_1_3_ac (a b c : T) (r : T → T → Bool) : Option T :=
  if r c a then none else some (if r b a then a else select_0_2 b c r)

/-- models: adobe/algorithm/select.hpp:106-119 `select_1_3_ab` (assert `!r(b, a)`) -/
def select_1_3_ab (a b c : T) (r : T → T → Bool) : Option T :=
  if r b a then none else some (if r c b then select_1_2 a c r else b)

/-- models: adobe/algorithm/select.hpp:126-137 `select_1_3` -/
def select_1_3 (a b c : T) (r : T → T → Bool) : Option T :=
  if r b a then select_1_3_ab b a c r else select_1_3_ab a b c r

/-- models: adobe/algorithm/minmax.hpp `min(a, b, r)` -/
def min (a b : T) (r : T → T → Bool) : T := select_0_2 a b r

/-- models: adobe/algorithm/minmax.hpp `max(a, b, r)` -/
def max (a b : T) (r : T → T → Bool) : T := select_1_2 a b r

/-- models: adobe/algorithm/median.hpp:41-43 `median(a, b, c, r)` -/
def median (a b c : T) (r : T → T → Bool) : Option T := select_1_3 a b c r

/-- models: adobe/algorithm/clamp.hpp:46-48 `clamp(x, min, max, r)` -/
def clamp (x lo hi : T) (r : T → T → Bool) : Option T := select_1_3_ac lo x hi r

/-- models: adobe/algorithm/clamp.hpp `clamp_unordered(x, min, max, r)` -/
def clamp_unordered (x lo hi : T) (r : T → T → Bool) : Option T := select_1_3 lo x hi r

end Verif.Select
