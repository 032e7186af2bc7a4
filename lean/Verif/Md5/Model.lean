import Mathlib.Data.List.Basic
/-
Model of source/md5.cpp and adobe/md5.hpp.

Bytes are `BitVec 8`, words `BitVec 32`.  Arrays are lists; copying into or reading from an array outside its bounds has no
result (`none`).  The buffer of a new object is not initialised, so it is an arbitrary list of 64 bytes.
-/
namespace Verif.Md5

abbrev Byte := BitVec 8
abbrev Word := BitVec 32

/-- models: source/md5.cpp:87-90 macros `F`, `G`, `H`, `I`. -/
def F (x y z : Word) : Word := (x &&& y) ||| (~~~x &&& z)
def G (x y z : Word) : Word := (x &&& z) ||| (y &&& ~~~z)
def H (x y z : Word) : Word := x ^^^ y ^^^ z
def I (x y z : Word) : Word := y ^^^ (x ||| ~~~z)

/-- models: source/md5.cpp:96 `ROTATE_LEFT`. -/
def rotateLeft (x : Word) (n : Nat) : Word := (x <<< n) ||| (x >>> (32 - n))

inductive Macro | FF | GG | HH | II
  deriving DecidableEq
inductive Var | a | b | c | d
  deriving DecidableEq

def Macro.fn : Macro → Word → Word → Word → Word
  | .FF => F | .GG => G | .HH => H | .II => I

/-- models: source/md5.cpp:103-126 macros `FF`, `GG`, `HH`, `II`: the new value of the first argument. -/
def Macro.apply (m : Macro) (a b c d x : Word) (s : Nat) (ac : Word) : Word :=
  let a := a + (m.fn b c d + x + ac)
  let a := rotateLeft a s
  a + b

structure Regs where
  a : Word
  b : Word
  c : Word
  d : Word
  deriving DecidableEq

/-- one macro call: the macro, its first argument (the others follow cyclically in the order a b c d), the index into `x`,
    the rotation and the constant -/
structure Call where
  m : Macro
  v : Var
  k : Nat
  s : Nat
  ac : Word
  deriving DecidableEq

def Call.run (x : Nat → Word) (r : Regs) (q : Call) : Regs :=
  match q.v with
  | .a => { r with a := q.m.apply r.a r.b r.c r.d (x q.k) q.s q.ac }
  | .d => { r with d := q.m.apply r.d r.a r.b r.c (x q.k) q.s q.ac }
  | .c => { r with c := q.m.apply r.c r.d r.a r.b (x q.k) q.s q.ac }
  | .b => { r with b := q.m.apply r.b r.c r.d r.a (x q.k) q.s q.ac }

/-- models: source/md5.cpp:137-207: the 64 macro calls of `MD5Transform` in order, four per line. -/
def calls : List (List Call) := [
  [⟨.FF, .a, 0, 7, 0xd76aa478#32⟩, ⟨.FF, .d, 1, 12, 0xe8c7b756#32⟩, ⟨.FF, .c, 2, 17, 0x242070db#32⟩, ⟨.FF, .b, 3, 22, 0xc1bdceee#32⟩],
  [⟨.FF, .a, 4, 7, 0xf57c0faf#32⟩, ⟨.FF, .d, 5, 12, 0x4787c62a#32⟩, ⟨.FF, .c, 6, 17, 0xa8304613#32⟩, ⟨.FF, .b, 7, 22, 0xfd469501#32⟩],
  [⟨.FF, .a, 8, 7, 0x698098d8#32⟩, ⟨.FF, .d, 9, 12, 0x8b44f7af#32⟩, ⟨.FF, .c, 10, 17, 0xffff5bb1#32⟩, ⟨.FF, .b, 11, 22, 0x895cd7be#32⟩],
  [⟨.FF, .a, 12, 7, 0x6b901122#32⟩, ⟨.FF, .d, 13, 12, 0xfd987193#32⟩, ⟨.FF, .c, 14, 17, 0xa679438e#32⟩, ⟨.FF, .b, 15, 22, 0x49b40821#32⟩],
  [⟨.GG, .a, 1, 5, 0xf61e2562#32⟩, ⟨.GG, .d, 6, 9, 0xc040b340#32⟩, ⟨.GG, .c, 11, 14, 0x265e5a51#32⟩, ⟨.GG, .b, 0, 20, 0xe9b6c7aa#32⟩],
  [⟨.GG, .a, 5, 5, 0xd62f105d#32⟩, ⟨.GG, .d, 10, 9, 0x2441453#32⟩, ⟨.GG, .c, 15, 14, 0xd8a1e681#32⟩, ⟨.GG, .b, 4, 20, 0xe7d3fbc8#32⟩],
  [⟨.GG, .a, 9, 5, 0x21e1cde6#32⟩, ⟨.GG, .d, 14, 9, 0xc33707d6#32⟩, ⟨.GG, .c, 3, 14, 0xf4d50d87#32⟩, ⟨.GG, .b, 8, 20, 0x455a14ed#32⟩],
  [⟨.GG, .a, 13, 5, 0xa9e3e905#32⟩, ⟨.GG, .d, 2, 9, 0xfcefa3f8#32⟩, ⟨.GG, .c, 7, 14, 0x676f02d9#32⟩, ⟨.GG, .b, 12, 20, 0x8d2a4c8a#32⟩],
  [⟨.HH, .a, 5, 4, 0xfffa3942#32⟩, ⟨.HH, .d, 8, 11, 0x8771f681#32⟩, ⟨.HH, .c, 11, 16, 0x6d9d6122#32⟩, ⟨.HH, .b, 14, 23, 0xfde5380c#32⟩],
  [⟨.HH, .a, 1, 4, 0xa4beea44#32⟩, ⟨.HH, .d, 4, 11, 0x4bdecfa9#32⟩, ⟨.HH, .c, 7, 16, 0xf6bb4b60#32⟩, ⟨.HH, .b, 10, 23, 0xbebfbc70#32⟩],
  [⟨.HH, .a, 13, 4, 0x289b7ec6#32⟩, ⟨.HH, .d, 0, 11, 0xeaa127fa#32⟩, ⟨.HH, .c, 3, 16, 0xd4ef3085#32⟩, ⟨.HH, .b, 6, 23, 0x4881d05#32⟩],
  [⟨.HH, .a, 9, 4, 0xd9d4d039#32⟩, ⟨.HH, .d, 12, 11, 0xe6db99e5#32⟩, ⟨.HH, .c, 15, 16, 0x1fa27cf8#32⟩, ⟨.HH, .b, 2, 23, 0xc4ac5665#32⟩],
  [⟨.II, .a, 0, 6, 0xf4292244#32⟩, ⟨.II, .d, 7, 10, 0x432aff97#32⟩, ⟨.II, .c, 14, 15, 0xab9423a7#32⟩, ⟨.II, .b, 5, 21, 0xfc93a039#32⟩],
  [⟨.II, .a, 12, 6, 0x655b59c3#32⟩, ⟨.II, .d, 3, 10, 0x8f0ccc92#32⟩, ⟨.II, .c, 10, 15, 0xffeff47d#32⟩, ⟨.II, .b, 1, 21, 0x85845dd1#32⟩],
  [⟨.II, .a, 8, 6, 0x6fa87e4f#32⟩, ⟨.II, .d, 15, 10, 0xfe2ce6e0#32⟩, ⟨.II, .c, 6, 15, 0xa3014314#32⟩, ⟨.II, .b, 13, 21, 0x4e0811a1#32⟩],
  [⟨.II, .a, 4, 6, 0xf7537e82#32⟩, ⟨.II, .d, 11, 10, 0xbd3af235#32⟩, ⟨.II, .c, 2, 15, 0x2ad7d2bb#32⟩, ⟨.II, .b, 9, 21, 0xeb86d391#32⟩]]

/-- models: source/md5.cpp:239-246 `Decode` (for the 16 words of a block). -/
def decode (input : Nat → Byte) (i : Nat) : Word :=
  let j := 4 * i
  (input j).setWidth 32 ||| ((input (j + 1)).setWidth 32 <<< 8) ||| ((input (j + 2)).setWidth 32 <<< 16) |||
    ((input (j + 3)).setWidth 32 <<< 24)

/-- models: source/md5.cpp:223-232 `Encode`. -/
def encode : List Word → List Byte
  | [] => []
  | w :: ws => (w &&& 0xff#32).setWidth 8 :: ((w >>> 8) &&& 0xff#32).setWidth 8 :: ((w >>> 16) &&& 0xff#32).setWidth 8 ::
      ((w >>> 24) &&& 0xff#32).setWidth 8 :: encode ws

/-- models: source/md5.cpp:132-216 `MD5Transform`. -/
def transform (st : Regs) (block : List Byte) : Option Regs :=
  if block.length < 64 then none
  else
    let x := decode (fun i => block.getD i 0)
    let r := calls.flatten.foldl (Call.run x) st
    some ⟨st.a + r.a, st.b + r.b, st.c + r.c, st.d + r.d⟩

/-- models: adobe/md5.hpp:107-109 the data members. -/
structure St where
  state : Regs
  count0 : Word
  count1 : Word
  buffer : List Byte

/-- models: source/md5.cpp:260-271 `reset`. -/
def St.reset (s : St) : St :=
  { s with count0 := 0, count1 := 0, state := ⟨0x67452301#32, 0xefcdab89#32, 0x98badcfe#32, 0x10325476#32⟩ }

/-- models: source/md5.cpp:254 the constructor; `buffer` is whatever was in memory. -/
def St.new (buffer : List Byte) : St := St.reset ⟨⟨0, 0, 0, 0⟩, 0, 0, buffer⟩

/-- `memcpy(&buf[i], src, n)` -/
def memcpy (buf : List Byte) (i : Nat) (src : List Byte) : Option (List Byte) :=
  if i + src.length ≤ buf.length then some (buf.take i ++ src ++ buf.drop (i + src.length)) else none

/-- models: source/md5.cpp:300-301: the loop over whole blocks of the input; the result also has the final `i`. -/
def blockLoop (input : List Byte) : Nat → Nat → Regs → Option (Nat × Regs)
  | 0, _, _ => none
  | fuel + 1, i, st =>
    if i + 63 < input.length then
      match transform st ((input.drop i).take 64) with
      | none => none
      | some st => blockLoop input fuel (i + 64) st
    else some (i, st)

/-- models: source/md5.cpp:279-308 `update`; `input` is the block of `input_length` bytes. -/
def St.update (s : St) (input : List Byte) : Option St :=
  let index := ((s.count0 >>> 3) &&& 0x3f#32).toNat
  let lsb : Word := BitVec.ofNat 32 (input.length <<< 3)
  let count0 := s.count0 + lsb
  let count1 := s.count1 + (if count0 < lsb then (1 : Word) else 0)
  let count1 := count1 + BitVec.ofNat 32 (input.length >>> 29)
  let partLen := 64 - index
  if input.length ≥ partLen then
    match memcpy s.buffer index (input.take partLen) with
    | none => none
    | some buffer =>
      match transform s.state buffer with
      | none => none
      | some st =>
        match blockLoop input (input.length + 1) partLen st with
        | none => none
        | some (i, st) =>
          match memcpy buffer 0 (input.drop i) with
          | none => none
          | some buffer => some ⟨st, count0, count1, buffer⟩
  else
    match memcpy s.buffer index input with
    | none => none
    | some buffer => some ⟨s.state, count0, count1, buffer⟩

/-- models: source/md5.cpp:318-321 `padding_s`. -/
def padding : List Byte := 0x80#8 :: List.replicate 63 0#8

/-- models: source/md5.cpp:317-346 `final`. -/
def St.final (s : St) : Option (St × List Byte) :=
  let bits := encode [s.count0, s.count1]
  let index := ((s.count0 >>> 3) &&& 0x3f#32).toNat
  let padLen := if index < 56 then 56 - index else 120 - index
  match s.update (padding.take padLen) with
  | none => none
  | some s =>
    match s.update bits with
    | none => none
    | some s => some (s.reset, encode [s.state.a, s.state.b, s.state.c, s.state.d])

/-- a sequence of `update` calls -/
def St.updates (s : St) : List (List Byte) → Option St
  | [] => some s
  | p :: ps => match s.update p with
    | none => none
    | some s => s.updates ps

/-- models: adobe/md5.hpp:124-130 the free function `md5`. -/
def md5 (buffer : List Byte) (input : List Byte) : Option (List Byte) :=
  match (St.new buffer).update input with
  | none => none
  | some s => s.final.map Prod.snd

end Verif.Md5
