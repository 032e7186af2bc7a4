import Verif.Fnv.Spec
/-
Model of adobe/fnv.hpp.  Unsigned integers of `n` bits are `BitVec n`; bytes are `BitVec 8`.
-/
namespace Verif.Fnv

/-- models: adobe/fnv.hpp:89-98 `detail::rollup`. -/
def rollup (n : Nat) : Nat :=
  if n = 0 then 0
  else if n ≤ 32 then 32
  else if n ≤ 64 then 64
  else if n ≤ 128 then 128
  else if n ≤ 256 then 256
  else if n ≤ 512 then 512
  else if n ≤ 1024 then 1024
  else 0

/-- models: adobe/fnv.hpp:102-199 `detail::fnv_base_traits<…>::offset_basis`; `none`: no such specialisation, the code does not compile. -/
def offsetBasis : Nat → Option Nat
  | 32 => some 0x811c9dc5
  | 64 => some 0xcbf29ce484222325
  | 128 => some 0x6C62272E07BB014262B821756295C58D
  | 256 => some 0xDD268DBCAAC550362D98C384C4E576CCC8B1536847B6BBB31023B4C8CAEE0535
  | 512 => some 0xB86DB0B1171F4416DCA1E50F309990ACAC87D059C90000000000000000000D21E948F68A34C192F62EA79BC942DBE7CE182036415F56E34BAC982AAC4AFE9FD9
  | 1024 => some 0x5F7A76758ECC4D32E56D5A591028B74B29FC4223FDADA16C3BF34EDA3674DA9A21D9000000000000000000000000000000000000000000000000000000000000000000000000000000000000000000000000000004C6D7EB6E73802734510A555F256CC005AE556BDE8CC9C6A93B21AFF4B16C71EE90B3
  | _ => none

/-- models: adobe/fnv.hpp:102-199 `detail::fnv_base_traits<…>::prime`. -/
def prime : Nat → Option Nat
  | 32 => some 0x1000193
  | 64 => some 0x100000001b3
  | 128 => some 0x1000000000000000000013B
  | 256 => some 0x1000000000000000000000000000000000000000163
  | 512 => some 0x100000000000000000000000000000000000000000000000000000000000000000000000000000000000157
  | 1024 => some 0x10000000000000000000000000000000000000000000000000000000000000000000000000000000000000000000000000000000000000000000000000000000000000000000000000000000000000000000000018D
  | _ => none

/-- models: adobe/fnv.hpp:267, 291 `static_cast<result_type>(*first)`: a `signed char` is sign extended. -/
def castByte (signed : Bool) (n : Nat) (b : BitVec 8) : BitVec n := if signed then b.signExtend n else b.zeroExtend n

/-- models: adobe/fnv.hpp:203-219 `detail::bitmask<From, To>::mask`. -/
def mask (src dst : Nat) (value : BitVec src) : BitVec src := if src = dst then value else value &&& ((1#src <<< dst) - 1#src)

/-- one turn of the loops -/
def turn (signed : Bool) {n : Nat} (p result : BitVec n) (b : BitVec 8) : BitVec n := (result ^^^ castByte signed n b) * p

/-- models: adobe/fnv.hpp:281-294 `fnv1a(Iterator first, Iterator last)`: the loop. -/
def loopRange (signed : Bool) {n : Nat} (p : BitVec n) : BitVec n → List (BitVec 8) → BitVec n
  | result, [] => result
  | result, b :: rest => loopRange signed p (turn signed p result b) rest

/-- models: adobe/fnv.hpp:257-270 `fnv1a(Iterator first, Predicate p)`: the loop; `none`: it reads beyond what there is. -/
def loopPred (signed : Bool) {n : Nat} (p : BitVec n) (stop : BitVec 8 → Bool) : BitVec n → List (BitVec 8) → Option (BitVec n)
  | _, [] => none
  | result, b :: rest => if stop b then some result else loopPred signed p stop (turn signed p result b) rest

/-- models: adobe/fnv.hpp:281-294 `fnv1a(Iterator first, Iterator last)` (and `fnv1a(Container)`); `none`: does not compile for this width. -/
def fnv1a (signed : Bool) (bits : Nat) (bytes : List (BitVec 8)) : Option Nat :=
  match offsetBasis (rollup bits), prime (rollup bits) with
  | some o, some p => some (mask (rollup bits) bits (loopRange signed (BitVec.ofNat _ p) (BitVec.ofNat _ o) bytes)).toNat
  | _, _ => none

/-- models: adobe/fnv.hpp:257-270 `fnv1a(Iterator first, Predicate p)`. -/
def fnv1aPred (signed : Bool) (bits : Nat) (stop : BitVec 8 → Bool) (bytes : List (BitVec 8)) : Option Nat :=
  match offsetBasis (rollup bits), prime (rollup bits) with
  | some o, some p => (loopPred signed (BitVec.ofNat _ p) stop (BitVec.ofNat _ o) bytes).map (fun r => (mask (rollup bits) bits r).toNat)
  | _, _ => none

end Verif.Fnv
