import Verif.Unicode.Spec
/-
Specification: JSON texts (RFC 8259) as sequences of bytes, and what they mean.  A byte is a number; only 0…255 matter.
-/
namespace Verif.Json.Spec
open Verif.Unicode (utf8Spec)

/-- JSON values.  Numbers are of any type `N`; the members of an object have different names. -/
inductive Value (N : Type) where
  | null
  | bool (b : Bool)
  | num (x : N)
  | str (s : List Nat)
  | arr (vs : List (Value N))
  | obj (ms : List (List Nat × Value N))

/-- bytes of an ASCII string -/
def ascii (s : String) : List Nat := s.toList.map Char.toNat

def IsWs (w : List Nat) : Prop := ∀ c ∈ w, c = 0x20 ∨ c = 0x09 ∨ c = 0x0A ∨ c = 0x0D

def IsDigit (c : Nat) : Prop := 0x30 ≤ c ∧ c ≤ 0x39

/-- RFC 8259, section 6: `int`, `frac`, `exp` -/
inductive IntPart : List Nat → Prop where
  | zero : IntPart [0x30]
  | digits (d : Nat) (ds : List Nat) : 0x31 ≤ d → d ≤ 0x39 → (∀ c ∈ ds, IsDigit c) → IntPart (d :: ds)

inductive FracPart : List Nat → Prop where
  | none : FracPart []
  | some (d : Nat) (ds : List Nat) : IsDigit d → (∀ c ∈ ds, IsDigit c) → FracPart (0x2E :: d :: ds)

inductive ExpPart : List Nat → Prop where
  | none : ExpPart []
  | some (e : Nat) (sign : List Nat) (d : Nat) (ds : List Nat) : e = 0x65 ∨ e = 0x45 → sign = [] ∨ sign = [0x2D] ∨ sign = [0x2B] → IsDigit d →
      (∀ c ∈ ds, IsDigit c) → ExpPart (e :: (sign ++ d :: ds))

inductive Number : List Nat → Prop where
  | mk (sign int frac exp : List Nat) : sign = [] ∨ sign = [0x2D] → IntPart int → FracPart frac → ExpPart exp → Number (sign ++ int ++ frac ++ exp)

/-- the value of a hexadecimal digit -/
def hexVal (c : Nat) : Option Nat :=
  if 0x30 ≤ c ∧ c ≤ 0x39 then some (c - 0x30)
  else if 0x41 ≤ c ∧ c ≤ 0x46 then some (c - 0x41 + 10)
  else if 0x61 ≤ c ∧ c ≤ 0x66 then some (c - 0x61 + 10)
  else none

/-- four hexadecimal digits with value `v` -/
inductive Hex4 : List Nat → Nat → Prop where
  | mk (a b c d va vb vc vd : Nat) : hexVal a = some va → hexVal b = some vb → hexVal c = some vc → hexVal d = some vd →
      Hex4 [a, b, c, d] (va * 4096 + vb * 256 + vc * 16 + vd)

/-- the escapes of one character: the character after the backslash and the byte it stands for -/
def simple : List (Nat × Nat) := [(0x22, 0x22), (0x5C, 0x5C), (0x2F, 0x2F), (0x62, 0x08), (0x66, 0x0C), (0x6E, 0x0A), (0x72, 0x0D), (0x74, 0x09)]

/-- RFC 8259, section 7: what stands after a backslash, and the bytes (UTF-8) it denotes -/
inductive Rfc : List Nat → List Nat → Prop where
  | simple (c b : Nat) : (c, b) ∈ simple → Rfc [c] [b]
  | bmp (h : List Nat) (v : Nat) : Hex4 h v → ¬ (0xD800 ≤ v ∧ v ≤ 0xDFFF) → Rfc (0x75 :: h) (utf8Spec v)
  | pair (h g : List Nat) (hi lo : Nat) : Hex4 h hi → Hex4 g lo → 0xD800 ≤ hi → hi ≤ 0xDBFF → 0xDC00 ≤ lo → lo ≤ 0xDFFF →
      Rfc (0x75 :: (h ++ 0x5C :: 0x75 :: g)) (utf8Spec (0x10000 + (hi - 0xD800) * 1024 + (lo - 0xDC00)))

/-- the escapes of the RFC without surrogate pairs -/
inductive RfcBmp : List Nat → List Nat → Prop where
  | simple (c b : Nat) : (c, b) ∈ simple → RfcBmp [c] [b]
  | bmp (h : List Nat) (v : Nat) : Hex4 h v → ¬ (0xD800 ≤ v ∧ v ≤ 0xDFFF) → RfcBmp (0x75 :: h) (utf8Spec v)

/-- the escapes that the library takes: no backslash between the parts of a pair, a value that lacks 0x10000, and single trail surrogates -/
inductive Taken : List Nat → List Nat → Prop where
  | simple (c b : Nat) : (c, b) ∈ simple → Taken [c] [b]
  | bmp (h : List Nat) (v : Nat) : Hex4 h v → ¬ (0xD800 ≤ v ∧ v ≤ 0xDBFF) → Taken (0x75 :: h) (utf8Spec v)
  | pair (h g : List Nat) (hi lo : Nat) : Hex4 h hi → Hex4 g lo → 0xD800 ≤ hi → hi ≤ 0xDBFF → 0xDC00 ≤ lo → lo ≤ 0xDFFF →
      Taken (0x75 :: (h ++ 0x75 :: g)) (utf8Spec ((hi - 0xD800) * 1024 + (lo - 0xDC00)))

/-- what is between the quotes of a string, and the bytes it denotes; `E` is the relation of escapes -/
inductive Chars (E : List Nat → List Nat → Prop) : List Nat → List Nat → Prop where
  | nil : Chars E [] []
  | raw (c : Nat) (t s : List Nat) : 0x20 ≤ c → c ≠ 0x22 → c ≠ 0x5C → Chars E t s → Chars E (c :: t) (c :: s)
  | esc (e b t s : List Nat) : E e b → Chars E t s → Chars E (0x5C :: (e ++ t)) (b ++ s)

/-- a name as the library keeps it: what `c_str()` shows of it -/
def cut (k : List Nat) : List Nat := k.takeWhile (fun c => c != 0)

/-- assignment to a member of an object -/
def assign {N : Type} : List (List Nat × Value N) → List Nat → Value N → List (List Nat × Value N)
  | [], k, v => [(k, v)]
  | (k', v') :: ms, k, v => if k' = k then (k', v) :: ms else (k', v') :: assign ms k v

/-- the object that results from members in the order of the text: a later one replaces an earlier one of the same name -/
def build {N : Type} (ms : List (List Nat × Value N)) : List (List Nat × Value N) := ms.foldl (fun o m => assign o (cut m.1) m.2) []

mutual

/-- the text denotes the value; `num` gives the meaning of number texts (none: too large) -/
inductive Text {N : Type} (E : List Nat → List Nat → Prop) (num : List Nat → Option N) : List Nat → Value N → Prop where
  | null : Text E num (ascii "null") .null
  | true : Text E num (ascii "true") (.bool true)
  | false : Text E num (ascii "false") (.bool false)
  | str (t s : List Nat) : Chars E t s → Text E num (0x22 :: (t ++ [0x22])) (.str s)
  | num (t : List Nat) (x : N) : Number t → num t = some x → Text E num t (.num x)
  | arr0 (w : List Nat) : IsWs w → Text E num (0x5B :: (w ++ [0x5D])) (.arr [])
  | arr (t : List Nat) (vs : List (Value N)) : Elems E num t vs → Text E num (0x5B :: (t ++ [0x5D])) (.arr vs)
  | obj0 (w : List Nat) : IsWs w → Text E num (0x7B :: (w ++ [0x7D])) (.obj [])
  | obj (t : List Nat) (ms : List (List Nat × Value N)) : Members E num t ms → Text E num (0x7B :: (t ++ [0x7D])) (.obj (build ms))

inductive Elems {N : Type} (E : List Nat → List Nat → Prop) (num : List Nat → Option N) : List Nat → List (Value N) → Prop where
  | one (w t w' : List Nat) (v : Value N) : IsWs w → Text E num t v → IsWs w' → Elems E num (w ++ t ++ w') [v]
  | cons (w t w' t' : List Nat) (v : Value N) (vs : List (Value N)) : IsWs w → Text E num t v → IsWs w' → Elems E num t' vs →
      Elems E num (w ++ t ++ w' ++ 0x2C :: t') (v :: vs)

inductive Members {N : Type} (E : List Nat → List Nat → Prop) (num : List Nat → Option N) : List Nat → List (List Nat × Value N) → Prop where
  | one (w k w1 w2 t w3 key : List Nat) (v : Value N) : IsWs w → Chars E k key → IsWs w1 → IsWs w2 → Text E num t v → IsWs w3 →
      Members E num (w ++ 0x22 :: (k ++ 0x22 :: (w1 ++ 0x3A :: (w2 ++ t ++ w3)))) [(key, v)]
  | cons (w k w1 w2 t w3 t' key : List Nat) (v : Value N) (ms : List (List Nat × Value N)) : IsWs w → Chars E k key → IsWs w1 → IsWs w2 → Text E num t v →
      IsWs w3 → Members E num t' ms → Members E num (w ++ 0x22 :: (k ++ 0x22 :: (w1 ++ 0x3A :: (w2 ++ t ++ w3 ++ 0x2C :: t')))) ((key, v) :: ms)

end

/-- a value that is an array or an object -/
def Value.isContainer {N : Type} : Value N → Prop
  | .arr _ => True
  | .obj _ => True
  | _ => False

/-- values that the generator can write and the parser can read back: names are C strings and are different, and the texts of the numbers are
    JSON numbers that denote them -/
inductive Storable {N : Type} (num : List Nat → Option N) (toText : N → List Nat) : Value N → Prop where
  | null : Storable num toText .null
  | bool (b : Bool) : Storable num toText (.bool b)
  | num (x : N) : Number (toText x) → num (toText x) = some x → Storable num toText (.num x)
  | str (s : List Nat) : Storable num toText (.str s)
  | arr (vs : List (Value N)) : (∀ v ∈ vs, Storable num toText v) → Storable num toText (.arr vs)
  | obj (ms : List (List Nat × Value N)) : (∀ m ∈ ms, Storable num toText m.2) → (∀ m ∈ ms, 0 ∉ m.1) → (ms.map Prod.fst).Nodup → Storable num toText (.obj ms)

end Verif.Json.Spec
