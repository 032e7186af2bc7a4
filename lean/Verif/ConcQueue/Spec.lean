import Verif.ConcQueue.Model
/-!
Specification of the concurrent queue: linearizability (Herlihy and Wing 1990) with respect to a sequential FIFO queue,
stated on what the clients observe only.
-/
namespace Verif.ConcQueue.Spec
open Verif.ConcQueue

/-- What a call does to the queue. -/
inductive Effect (V : Type) where
  | added (x : V)
  | took (x : V)
  | sawEmpty
  | none
  deriving DecidableEq, Repr

/-- `Fits op r e`: a call `op` that ends with `r` may have had the effect `e`.  A `push` that throws has none.  A `pop` that
throws (the assignment to the client's variable threw) has taken an element, which is then lost. -/
inductive Fits {V : Type} : Op V → Resp V → Effect V → Prop where
  | push (x) : Fits (.push x) .pushed (.added x)
  | pushThrew (x) : Fits (.push x) .threw .none
  | pop (x) : Fits .pop (.popped x) (.took x)
  | popEmpty : Fits .pop .nothing .sawEmpty
  | popThrew (x) : Fits .pop .threw (.took x)

/-- The effects a call of `op` can have. -/
inductive Possible {V : Type} : Op V → Effect V → Prop where
  | added (x) : Possible (.push x) (.added x)
  | none (x) : Possible (.push x) .none
  | took (x) : Possible .pop (.took x)
  | sawEmpty : Possible .pop .sawEmpty

/-- The sequential queue: `Fifo es q`: the effects `es` can happen one after the other, beginning with the empty queue, and
then the queue has the content `q` (front first). -/
inductive Fifo {V : Type} : List (Effect V) → List V → Prop where
  | nil : Fifo [] []
  | added {es q} (x) : Fifo es q → Fifo (es ++ [.added x]) (q ++ [x])
  | took {es q} (x) : Fifo es (x :: q) → Fifo (es ++ [.took x]) q
  | sawEmpty {es} : Fifo es [] → Fifo (es ++ [.sawEmpty]) []
  | none {es q} : Fifo es q → Fifo (es ++ [.none]) q

/-- `Before a b l`: `a` occurs in `l` before `b`. -/
def Before {α : Type} (a b : α) (l : List α) : Prop := ∃ l₁ l₂ l₃, l = l₁ ++ a :: l₂ ++ b :: l₃

/-- `L` puts the calls of the history `h` in a sequence. -/
structure Linearization {V : Type} (h : List (Event V)) (L : List (Nat × Effect V)) : Prop where
  /-- no call appears twice -/
  once : (L.map Prod.fst).Nodup
  /-- what appears was called, and has an effect that such a call can have -/
  called : ∀ i e, (i, e) ∈ L → ∃ op, .inv i op ∈ h ∧ Possible op e
  /-- every call that has ended appears, with an effect that explains how it ended -/
  ended : ∀ i op r, .inv i op ∈ h → .res i r ∈ h → ∃ e, (i, e) ∈ L ∧ Fits op r e
  /-- a call that ended before another one began comes first -/
  realTime : ∀ i j r op ej, Before (.res i r) (.inv j op) h → (j, ej) ∈ L → ∃ ei, Before (i, ei) (j, ej) L

end Verif.ConcQueue.Spec
