import Verif.Common.Chunks
/-
RFC 1321, independent of the model.
-/
namespace Verif.Md5.Spec
open Verif.Chunks

abbrev Byte := BitVec 8
abbrev Word := BitVec 32

/-- the number, least significant byte first, as `k` bytes (reduced modulo 256^k) -/
def leBytes : Nat → Nat → List Byte
  | 0, _ => []
  | k + 1, n => BitVec.ofNat 8 n :: leBytes k (n / 256)

/-- the value of a string of bytes, least significant first -/
def leVal : List Byte → Nat
  | [] => 0
  | b :: l => b.toNat + 256 * leVal l

/-- steps 1 and 2: a 1 bit and zeros until the length is 56 modulo 64 bytes, then the length of the message in bits as 64 bits -/
def pad (msg : List Byte) : List Byte :=
  msg ++ 0x80#8 :: (List.replicate ((119 - msg.length % 64) % 64) 0#8 ++ leBytes 8 (8 * msg.length))

/-- the table T of step 4 -/
def T : List Word :=
  [0xd76aa478#32, 0xe8c7b756#32, 0x242070db#32, 0xc1bdceee#32,
   0xf57c0faf#32, 0x4787c62a#32, 0xa8304613#32, 0xfd469501#32,
   0x698098d8#32, 0x8b44f7af#32, 0xffff5bb1#32, 0x895cd7be#32,
   0x6b901122#32, 0xfd987193#32, 0xa679438e#32, 0x49b40821#32,
   0xf61e2562#32, 0xc040b340#32, 0x265e5a51#32, 0xe9b6c7aa#32,
   0xd62f105d#32, 0x2441453#32, 0xd8a1e681#32, 0xe7d3fbc8#32,
   0x21e1cde6#32, 0xc33707d6#32, 0xf4d50d87#32, 0x455a14ed#32,
   0xa9e3e905#32, 0xfcefa3f8#32, 0x676f02d9#32, 0x8d2a4c8a#32,
   0xfffa3942#32, 0x8771f681#32, 0x6d9d6122#32, 0xfde5380c#32,
   0xa4beea44#32, 0x4bdecfa9#32, 0xf6bb4b60#32, 0xbebfbc70#32,
   0x289b7ec6#32, 0xeaa127fa#32, 0xd4ef3085#32, 0x4881d05#32,
   0xd9d4d039#32, 0xe6db99e5#32, 0x1fa27cf8#32, 0xc4ac5665#32,
   0xf4292244#32, 0x432aff97#32, 0xab9423a7#32, 0xfc93a039#32,
   0x655b59c3#32, 0x8f0ccc92#32, 0xffeff47d#32, 0x85845dd1#32,
   0x6fa87e4f#32, 0xfe2ce6e0#32, 0xa3014314#32, 0x4e0811a1#32,
   0xf7537e82#32, 0xbd3af235#32, 0x2ad7d2bb#32, 0xeb86d391#32]

/-- auxiliary function of round `r` -/
def f (r : Nat) (x y z : Word) : Word :=
  if r = 0 then (x &&& y) ||| (~~~x &&& z)
  else if r = 1 then (x &&& z) ||| (y &&& ~~~z)
  else if r = 2 then x ^^^ y ^^^ z
  else y ^^^ (x ||| ~~~z)

/-- which word of the block step `i` uses -/
def index (i : Nat) : Nat :=
  if i < 16 then i else if i < 32 then (5 * i + 1) % 16 else if i < 48 then (3 * i + 5) % 16 else (7 * i) % 16

/-- by how much step `i` rotates -/
def shift (i : Nat) : Nat := (([[7, 12, 17, 22], [5, 9, 14, 20], [4, 11, 16, 23], [6, 10, 15, 21]].getD (i / 16) []).getD (i % 4) 0)

/-- step `i` (0 ≤ i < 64) on the registers (A, B, C, D) -/
def step (X : Nat → Word) (s : Word × Word × Word × Word) (i : Nat) : Word × Word × Word × Word :=
  let (a, b, c, d) := s
  (d, b + (a + f (i / 16) b c d + X (index i) + T.getD i 0).rotateLeft (shift i), b, c)

/-- word `i` of a block, least significant byte first -/
def word (block : List Byte) (i : Nat) : Word := BitVec.ofNat 32 (leVal ((block.drop (4 * i)).take 4))

/-- step 4 for one block -/
def compress (s : Word × Word × Word × Word) (block : List Byte) : Word × Word × Word × Word :=
  let (a, b, c, d) := (List.range 64).foldl (step (word block)) s
  (s.1 + a, s.2.1 + b, s.2.2.1 + c, s.2.2.2 + d)

/-- the digest -/
def digest (msg : List Byte) : List Byte :=
  let (a, b, c, d) := (chunks 64 (pad msg)).foldl compress (0x67452301#32, 0xefcdab89#32, 0x98badcfe#32, 0x10325476#32)
  leBytes 4 a.toNat ++ leBytes 4 b.toNat ++ leBytes 4 c.toNat ++ leBytes 4 d.toNat

end Verif.Md5.Spec
