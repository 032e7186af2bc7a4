import Verif.Common.Chunks
/-
FIPS 180-4, independent of the model.  Messages are strings of bits.
-/
namespace Verif.Sha.Spec
open Verif.Chunks

/-- the value of a string of bits, most significant first -/
def beVal (l : List Bool) : Nat := l.foldl (fun a b => 2 * a + b.toNat) 0

/-- `n` as `k` bits, most significant first -/
def beBits (k n : Nat) : List Bool := (List.range k).map (fun i => n.testBit (k - 1 - i))

/-- 5.1: a 1 bit, the smallest number of zeros, and the length as a number of two words, so that the length becomes a
    multiple of the block size of 16 words of `w` bits -/
def pad (w : Nat) (m : List Bool) : List Bool :=
  m ++ true :: (List.replicate ((16 * w - (m.length + 1 + 2 * w) % (16 * w)) % (16 * w)) false ++ beBits (2 * w) m.length)

/-- 5.2: the 16 words of a block -/
def words (w : Nat) (block : List Bool) : List (BitVec w) := (List.range 16).map (fun i => BitVec.ofNat w (beVal ((block.drop (w * i)).take w)))

/-- 6: hash with a compression function, an initial value and truncation to `out` words -/
def hash {w : Nat} (compress : List (BitVec w) → List (BitVec w) → List (BitVec w)) (init : List (BitVec w)) (out : Nat) (m : List Bool) :
    List (BitVec w) :=
  (((chunks (16 * w) (pad w m)).map (words w)).foldl compress init).take out

/-! ### 6.1 SHA-1 -/

/-- 6.1.2 step 1: the message schedule -/
def W1 (M : List (BitVec 32)) (t : Nat) : BitVec 32 :=
  if t < 16 then M.getD t 0
  else (W1 M (t - 3) ^^^ W1 M (t - 8) ^^^ W1 M (t - 14) ^^^ W1 M (t - 16)).rotateLeft 1
termination_by t

/-- 4.1.1 -/
def f1 (t : Nat) (x y z : BitVec 32) : BitVec 32 :=
  if t < 20 then (x &&& y) ^^^ (~~~x &&& z) else if t < 40 then x ^^^ y ^^^ z
  else if t < 60 then (x &&& y) ^^^ (x &&& z) ^^^ (y &&& z) else x ^^^ y ^^^ z

/-- 4.2.1 -/
def K1 (t : Nat) : BitVec 32 := if t < 20 then 0x5a827999#32 else if t < 40 then 0x6ed9eba1#32 else if t < 60 then 0x8f1bbcdc#32 else 0xca62c1d6#32

/-- 6.1.2 step 3 -/
def step1 (M : List (BitVec 32)) (v : BitVec 32 × BitVec 32 × BitVec 32 × BitVec 32 × BitVec 32) (t : Nat) :
    BitVec 32 × BitVec 32 × BitVec 32 × BitVec 32 × BitVec 32 :=
  let (a, b, c, d, e) := v
  (a.rotateLeft 5 + f1 t b c d + e + K1 t + W1 M t, a, b.rotateLeft 30, c, d)

/-- 6.1.2 -/
def compress1 (H M : List (BitVec 32)) : List (BitVec 32) :=
  let (a, b, c, d, e) := (List.range 80).foldl (step1 M) (H.getD 0 0, H.getD 1 0, H.getD 2 0, H.getD 3 0, H.getD 4 0)
  [H.getD 0 0 + a, H.getD 1 0 + b, H.getD 2 0 + c, H.getD 3 0 + d, H.getD 4 0 + e]

/-! ### 6.2-6.5 SHA-2 -/

/-- what differs between the 32 and the 64 bit functions: the rotations and shifts of 4.1.2 and 4.1.3, the constants, and the
    number of rounds -/
structure Params (w : Nat) where
  S0 : Nat × Nat × Nat
  S1 : Nat × Nat × Nat
  s0 : Nat × Nat × Nat
  s1 : Nat × Nat × Nat
  K : Nat → BitVec w
  rounds : Nat

/-- Σ: three rotations -/
def big {w : Nat} (p : Nat × Nat × Nat) (x : BitVec w) : BitVec w := x.rotateRight p.1 ^^^ x.rotateRight p.2.1 ^^^ x.rotateRight p.2.2
/-- σ: two rotations and a shift -/
def small {w : Nat} (p : Nat × Nat × Nat) (x : BitVec w) : BitVec w := x.rotateRight p.1 ^^^ x.rotateRight p.2.1 ^^^ (x >>> p.2.2)

/-- 6.2.2 step 1 -/
def W2 {w : Nat} (P : Params w) (M : List (BitVec w)) (t : Nat) : BitVec w :=
  if t < 16 then M.getD t 0
  else small P.s1 (W2 P M (t - 2)) + W2 P M (t - 7) + small P.s0 (W2 P M (t - 15)) + W2 P M (t - 16)
termination_by t

/-- 6.2.2 step 3, on [a, b, c, d, e, f, g, h] -/
def step2 {w : Nat} (P : Params w) (M : List (BitVec w)) (v : List (BitVec w)) (t : Nat) : List (BitVec w) :=
  let a := v.getD 0 0; let b := v.getD 1 0; let c := v.getD 2 0; let d := v.getD 3 0
  let e := v.getD 4 0; let f := v.getD 5 0; let g := v.getD 6 0; let h := v.getD 7 0
  let T1 := h + big P.S1 e + ((e &&& f) ^^^ (~~~e &&& g)) + P.K t + W2 P M t
  let T2 := big P.S0 a + ((a &&& b) ^^^ (a &&& c) ^^^ (b &&& c))
  [T1 + T2, a, b, c, d + T1, e, f, g]

/-- 6.2.2 -/
def compress2 {w : Nat} (P : Params w) (H M : List (BitVec w)) : List (BitVec w) :=
  List.zipWith (· + ·) H ((List.range P.rounds).foldl (step2 P M) H)

/-! ### the constants, as the standard defines them -/

/-- largest `r` with `r ^ k ≤ n`, among the numbers below `2 ^ bits`, bit by bit -/
def root (k n : Nat) : Nat → Nat → Nat
  | 0, r => r
  | b + 1, r => if (r + 2 ^ b) ^ k ≤ n then root k n b (r + 2 ^ b) else root k n b r

/-- the first 80 primes -/
def primes : List Nat :=
  (List.range 410).filter (fun n => decide (2 ≤ n) && (List.range n).all (fun d => decide (d < 2) || decide (n % d ≠ 0)))

/-- 4.2.3: the first 64 bits of the fractional parts of the cube roots of the first 80 primes -/
def K512 (t : Nat) : BitVec 64 := BitVec.ofNat 64 (root 3 (primes.getD t 0 * 2 ^ 192) 68 0)
/-- 4.2.2: the first 32 bits -/
def K256 (t : Nat) : BitVec 32 := BitVec.ofNat 32 (root 3 (primes.getD t 0 * 2 ^ 96) 36 0)
/-- 5.3.5: the first 64 bits of the fractional parts of the square roots of the first eight primes -/
def H512 : List (BitVec 64) := (List.range 8).map (fun i => BitVec.ofNat 64 (root 2 (primes.getD i 0 * 2 ^ 128) 70 0))
/-- 5.3.4: … of the ninth to sixteenth prime -/
def H384 : List (BitVec 64) := (List.range 8).map (fun i => BitVec.ofNat 64 (root 2 (primes.getD (8 + i) 0 * 2 ^ 128) 70 0))
/-- 5.3.3: the first 32 bits of the fractional parts of the square roots of the first eight primes -/
def H256 : List (BitVec 32) := (List.range 8).map (fun i => BitVec.ofNat 32 (root 2 (primes.getD i 0 * 2 ^ 64) 38 0))
/-- 5.3.2: the second 32 bits of the fractional parts of the square roots of the ninth to sixteenth prime -/
def H224 : List (BitVec 32) := (List.range 8).map (fun i => BitVec.ofNat 32 (root 2 (primes.getD (8 + i) 0 * 2 ^ 128) 70 0))
/-- 5.3.1 -/
def H1 : List (BitVec 32) := [0x67452301#32, 0xefcdab89#32, 0x98badcfe#32, 0x10325476#32, 0xc3d2e1f0#32]

def P256 : Params 32 := ⟨(2, 13, 22), (6, 11, 25), (7, 18, 3), (17, 19, 10), K256, 64⟩
def P512 : Params 64 := ⟨(28, 34, 39), (14, 18, 41), (1, 8, 7), (19, 61, 6), K512, 80⟩

def sha1 : List Bool → List (BitVec 32) := hash compress1 H1 5
def sha224 : List Bool → List (BitVec 32) := hash (compress2 P256) H224 7
def sha256 : List Bool → List (BitVec 32) := hash (compress2 P256) H256 8
def sha384 : List Bool → List (BitVec 64) := hash (compress2 P512) H384 6
def sha512 : List Bool → List (BitVec 64) := hash (compress2 P512) H512 8

/-! ### what a client passes -/

/-- the bits of a byte, most significant first -/
def byteBits (b : BitVec 8) : List Bool := (List.range 8).map (fun i => b.getMsbD i)

def bitsOf (l : List (BitVec 8)) : List Bool := (l.map byteBits).flatten

/-- the `k` hexadecimal digits of `n`, most significant first -/
def hexDigits (k n : Nat) : List Char := (List.range k).map (fun i => Nat.digitChar (n / 16 ^ (k - 1 - i) % 16))

end Verif.Sha.Spec
