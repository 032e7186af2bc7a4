import Mathlib.Data.List.Basic
/-
Model of adobe/sha.hpp, for words of `w` bits (32 for SHA-1, SHA-224, SHA-256; 64 for SHA-384, SHA-512).

Arrays are lists; accessing one outside its bounds, shifting by at least the width of the operand, reading beyond the input
and failing the assertion have no result (`none`).  `stuffed_size_m` (an uint16_t that never exceeds 1024) and the counts of
bits in one call are natural numbers; the length of the message is a 64 bit number.  The message block, the working variables
and the schedule are wiped by the code; only the first is observable and modelled.
-/
namespace Verif.Sha

abbrev Byte := BitVec 8

/-- models: adobe/sha.hpp:90-124 `byte_source_iterators` (`range`) and 131-162 `byte_source_iterator_n` (`counted`, with the
    number of bits left). -/
inductive Src where
  | range (l : List Byte)
  | counted (l : List Byte) (bits : Nat)

/-- models: adobe/sha.hpp:103 and 141 `bits_available`. -/
def Src.avail : Src → Nat
  | .range l => if l = [] then 0 else 8
  | .counted _ n => if n > 8 then 8 else n

/-- `*byte_source` and `++byte_source` (105-111, 143-150) -/
def Src.next : Src → Option (Byte × Src)
  | .range [] => none
  | .range (b :: l) => some (b, .range l)
  | .counted [] _ => none
  | .counted (b :: l) n => some (b, .counted l (n - (if n > 8 then 8 else n)))

variable {w : Nat}

/-- `*dst |= v` for the array element `e` -/
def orAt (st : List (BitVec w)) (e : Nat) (v : BitVec w) : Option (List (BitVec w)) :=
  match st[e]? with
  | none => none
  | some x => some (st.set e (x ||| v))

/-- the variables of `stuff_into_state` -/
structure Stuff (w : Nat) where
  state : List (BitVec w)
  offset : Nat
  element : Nat
  shift : Nat
  stuffed : Nat
  numBits : Nat
  src : Src

/-- models: adobe/sha.hpp:202-218: the loop over whole bytes. -/
def stuffLoop : Nat → Stuff w → Option (Stuff w)
  | 0, _ => none
  | fuel + 1, s =>
    if 8 ≤ s.numBits ∧ 8 ≤ s.src.avail then
      match s.src.next with
      | none => none
      | some (b, src) =>
        if w ≤ s.shift then none
        else
          match orAt s.state s.element (b.setWidth w <<< s.shift) with
          | none => none
          | some state =>
            stuffLoop fuel ⟨state, s.offset + 8, if s.shift = 0 then s.element + 1 else s.element,
              if s.shift = 0 then w - 8 else s.shift - 8, s.stuffed + 8, s.numBits - 8, src⟩
    else some s

/-- models: adobe/sha.hpp:167-249 `stuff_into_state`; the result is the block, `stuff_bit_offset`, the source and the
    returned number of bits. -/
def stuff (state : List (BitVec w)) (offset numBits : Nat) (src : Src) : Option (List (BitVec w) × Nat × Src × Nat) :=
  let shift := (2 ^ 64 + w - 8 - offset % w) % 2 ^ 64
  match stuffLoop (numBits + 1) ⟨state, offset, offset / w, shift, 0, numBits, src⟩ with
  | none => none
  | some s =>
    if s.numBits ≠ 0 ∧ s.src.avail ≠ 0 then
      let n := min s.numBits s.src.avail
      let messageEnd := w - s.offset % w
      match s.src.next with
      | none => none
      | some (b, src) =>
        let v : BitVec w := b.setWidth w
        let v := if messageEnd < 8 then v >>> (8 - messageEnd) else if messageEnd > 8 then v <<< (messageEnd - 8) else v
        match orAt s.state s.element v with
        | none => none
        | some state => if n < 8 then some (state, s.offset + n, src, s.stuffed + n) else none
    else some (s.state, s.offset, s.src, s.stuffed)

/-- models: what differs between the hash functions: adobe/sha.hpp:502-737 the `*_traits_t`. `digest` is the digest of a block,
    `outLen` the number of words of `digest_type`. -/
structure Traits (w : Nat) where
  init : List (BitVec w)
  digest : List (BitVec w) → List (BitVec w) → List (BitVec w)
  outLen : Nat

/-- `message_blocksize_k` -/
def blockBits (w : Nat) : Nat := 16 * w

/-- an empty message block, adobe/sha.hpp:495, 572, 786 -/
def zeroBlock (w : Nat) : List (BitVec w) := List.replicate 16 0

/-- models: adobe/sha.hpp:951-954 the data members of `sha`. -/
structure Obj (w : Nat) where
  messageSize : BitVec 64
  state : List (BitVec w)
  digest : List (BitVec w)
  stuffedSize : Nat

/-- models: adobe/sha.hpp:786-788 the constructor. -/
def Obj.new (T : Traits w) : Obj w := ⟨0, zeroBlock w, T.init, 0⟩

/-- models: adobe/sha.hpp:297-308: the loop of `block_and_digest`. -/
def blockLoop (T : Traits w) : Nat → Nat → Obj w → Src → Option (Obj w)
  | 0, _, _, _ => none
  | fuel + 1, bitsAvailable, o, src =>
    if src.avail > 0 then
      match stuff o.state o.stuffedSize bitsAvailable src with
      | none => none
      | some (state, stuffedSize, src, n) =>
        let o := if n = bitsAvailable then { o with state := zeroBlock w, digest := T.digest o.digest state, stuffedSize := 0 }
                 else { o with state, stuffedSize }
        blockLoop T fuel (blockBits w) { o with messageSize := o.messageSize + BitVec.ofNat 64 n } src
    else some o

/-- models: adobe/sha.hpp:265-309 `block_and_digest`. -/
def blockAndDigest (T : Traits w) (fuel : Nat) (o : Obj w) (src : Src) : Option (Obj w) :=
  blockLoop T fuel (blockBits w - o.stuffedSize) o src

/-- models: adobe/sha.hpp:808-815 `update(first, last)`. -/
def Obj.update (T : Traits w) (o : Obj w) (l : List Byte) : Option (Obj w) :=
  if o.stuffedSize % 8 = 0 then blockAndDigest T (8 * l.length + 1) o (.range l) else none

/-- models: adobe/sha.hpp:836-843 `update(first, num_bits)`; `l` are the bytes that can be read. -/
def Obj.updateBits (T : Traits w) (o : Obj w) (l : List Byte) (numBits : Nat) : Option (Obj w) :=
  if o.stuffedSize % 8 = 0 then blockAndDigest T (numBits + 1) o (.counted l numBits) else none

/-- models: adobe/sha.hpp:312-329 `shift_down`. -/
def shiftDown (state : List (BitVec w)) (messageSize : BitVec 64) : List (BitVec w) :=
  if 64 ≤ w then state
  else if messageSize.toNat > 2 ^ w - 1 then state.set 14 ((messageSize >>> w).setWidth w) else state

/-- models: adobe/sha.hpp:333-434 `finalize`, which works on the references it is given. -/
def finalizeImpl (T : Traits w) (o : Obj w) : Option (Obj w × List (BitVec w)) :=
  match stuff o.state o.stuffedSize 1 (.counted [0x80#8] 1) with
  | none => none
  | some (state, stuffed, _, _) =>
    let (state, digest, stuffed) := if stuffed = blockBits w then (zeroBlock w, T.digest o.digest state, 0) else (state, o.digest, stuffed)
    let (state, digest) := if stuffed > blockBits w - 2 * w then (zeroBlock w, T.digest digest state) else (state, digest)
    let state := shiftDown state o.messageSize
    let state := state.set 15 (o.messageSize.setWidth w)
    let digest := T.digest digest state
    some (⟨o.messageSize, zeroBlock w, digest, 0⟩, digest.take T.outLen)

/-- models: adobe/sha.hpp:850-858 the member function `finalize`, which passes copies. -/
def Obj.finalize (T : Traits w) (o : Obj w) : Option (Obj w × List (BitVec w)) :=
  let copy := o
  match finalizeImpl T copy with
  | none => none
  | some (_, result) => some (o, result)

/-- the calls a client makes -/
inductive Call where
  | bytes (l : List Byte)
  | bits (l : List Byte) (numBits : Nat)
  | finalize

/-- the object after a sequence of calls, and the digests that `finalize` returned -/
def Obj.calls (T : Traits w) (o : Obj w) : List Call → Option (Obj w × List (List (BitVec w)))
  | [] => some (o, [])
  | .bytes l :: cs => match o.update T l with
    | none => none
    | some o => o.calls T cs
  | .bits l n :: cs => match o.updateBits T l n with
    | none => none
    | some o => o.calls T cs
  | .finalize :: cs => match o.finalize T with
    | none => none
    | some (o, d) => match o.calls T cs with
      | none => none
      | some (o, ds) => some (o, d :: ds)

/-! ### the digest of a block -/

/-- models: adobe/sha.hpp:43-66 `shr`, `rotr`, `rotl`. -/
def shr (n : Nat) (x : BitVec w) : BitVec w := x >>> n
def rotr (n : Nat) (x : BitVec w) : BitVec w := (x >>> n) ||| (x <<< (w - n))
def rotl (n : Nat) (x : BitVec w) : BitVec w := (x <<< n) ||| (x >>> (w - n))

/-- models: adobe/sha.hpp:70-83 `ch`, `parity`, `maj`. -/
def ch (x y z : BitVec w) : BitVec w := (x &&& y) ^^^ (~~~x &&& z)
def parity (x y z : BitVec w) : BitVec w := x ^^^ y ^^^ z
def maj (x y z : BitVec w) : BitVec w := (x &&& y) ^^^ (x &&& z) ^^^ (y &&& z)

/-- the schedule loops (456-458 and 523-525): elements `t`, `t+1`, … are appended -/
def extend (f : List (BitVec w) → Nat → BitVec w) : Nat → List (BitVec w) → List (BitVec w)
  | 0, s => s
  | n + 1, s => extend f n (s ++ [f s s.length])

/-- models: adobe/sha.hpp:537-543 `A_ROUND`. -/
def aRound (schedule : List (BitVec 32)) (F : BitVec 32 → BitVec 32 → BitVec 32 → BitVec 32) (k : BitVec 32)
    (r : BitVec 32 × BitVec 32 × BitVec 32 × BitVec 32 × BitVec 32) (t : Nat) : BitVec 32 × BitVec 32 × BitVec 32 × BitVec 32 × BitVec 32 :=
  let (a, b, c, d, e) := r
  let T := rotl 5 a + F b c d + e + k + schedule.getD t 0
  (T, a, rotl 30 b, c, d)

/-- models: adobe/sha.hpp:545-550 `FIVE_ROUNDS`. -/
def fiveRounds (schedule : List (BitVec 32)) (F : BitVec 32 → BitVec 32 → BitVec 32 → BitVec 32) (k : BitVec 32)
    (r : BitVec 32 × BitVec 32 × BitVec 32 × BitVec 32 × BitVec 32) (t : Nat) : BitVec 32 × BitVec 32 × BitVec 32 × BitVec 32 × BitVec 32 :=
  let r := aRound schedule F k r (t + 0)
  let r := aRound schedule F k r (t + 1)
  let r := aRound schedule F k r (t + 2)
  let r := aRound schedule F k r (t + 3)
  aRound schedule F k r (t + 4)

/-- models: adobe/sha.hpp:552-556 `TWENTY_ROUNDS`. -/
def twentyRounds (schedule : List (BitVec 32)) (F : BitVec 32 → BitVec 32 → BitVec 32 → BitVec 32) (k : BitVec 32)
    (r : BitVec 32 × BitVec 32 × BitVec 32 × BitVec 32 × BitVec 32) (t : Nat) : BitVec 32 × BitVec 32 × BitVec 32 × BitVec 32 × BitVec 32 :=
  let r := fiveRounds schedule F k r (t + 0)
  let r := fiveRounds schedule F k r (t + 5)
  let r := fiveRounds schedule F k r (t + 10)
  fiveRounds schedule F k r (t + 15)

/-- models: adobe/sha.hpp:515-575 `sha1_traits_t::digest_message_block` (a digest that has not 5 words is left alone). -/
def digest1 (digest block : List (BitVec 32)) : List (BitVec 32) :=
  let schedule := extend (fun s t => rotl 1 (s.getD (t - 3) 0 ^^^ s.getD (t - 8) 0 ^^^ s.getD (t - 14) 0 ^^^ s.getD (t - 16) 0)) 64 block
  match digest with
  | [a0, b0, c0, d0, e0] =>
    let r := (a0, b0, c0, d0, e0)
    let r := twentyRounds schedule ch 0x5a827999#32 r 0
    let r := twentyRounds schedule parity 0x6ed9eba1#32 r 20
    let r := twentyRounds schedule maj 0x8f1bbcdc#32 r 40
    let (a, b, c, d, e) := twentyRounds schedule parity 0xca62c1d6#32 r 60
    [a0 + a, b0 + b, c0 + c, d0 + d, e0 + e]
  | _ => digest

/-- the members of the SHA-2 traits -/
structure Sha2 (w : Nat) where
  bigSigma0 : BitVec w → BitVec w
  bigSigma1 : BitVec w → BitVec w
  smallSigma0 : BitVec w → BitVec w
  smallSigma1 : BitVec w → BitVec w
  k : List (BitVec w)
  rounds : Nat

/-- the working variables a … h -/
structure Vars (w : Nat) where
  a : BitVec w
  b : BitVec w
  c : BitVec w
  d : BitVec w
  e : BitVec w
  f : BitVec w
  g : BitVec w
  h : BitVec w

/-- models: adobe/sha.hpp:469-481: one round. -/
def round2 (P : Sha2 w) (schedule : List (BitVec w)) (v : Vars w) (t : Nat) : Vars w :=
  let T1 := v.h + P.bigSigma1 v.e + ch v.e v.f v.g + P.k.getD t 0 + schedule.getD t 0
  let T2 := P.bigSigma0 v.a + maj v.a v.b v.c
  let v := { v with h := v.g }
  let v := { v with g := v.f }
  let v := { v with f := v.e }
  let v := { v with e := v.d + T1 }
  let v := { v with d := v.c }
  let v := { v with c := v.b }
  let v := { v with b := v.a }
  { v with a := T1 + T2 }

/-- models: adobe/sha.hpp:438-497 `sha_2_digest_message_block` (a digest that has not 8 words is left alone). -/
def digest2 (P : Sha2 w) (digest block : List (BitVec w)) : List (BitVec w) :=
  let schedule := extend (fun s t => P.smallSigma1 (s.getD (t - 2) 0) + s.getD (t - 7) 0 + P.smallSigma0 (s.getD (t - 15) 0) + s.getD (t - 16) 0)
    (P.rounds - 16) block
  match digest with
  | [a, b, c, d, e, f, g, h] =>
    let v := (List.range P.rounds).foldl (round2 P schedule) ⟨a, b, c, d, e, f, g, h⟩
    [a + v.a, b + v.b, c + v.c, d + v.d, e + v.e, f + v.f, g + v.g, h + v.h]
  | _ => digest

/-- models: adobe/sha.hpp:511-513 `sha1_traits_t::initial_state`. -/
def init1 : List (BitVec 32) := [0x67452301#32, 0xefcdab89#32, 0x98badcfe#32, 0x10325476#32, 0xc3d2e1f0#32]
/-- models: adobe/sha.hpp:589-592 `sha256_traits_t::initial_state`. -/
def init256 : List (BitVec 32) := [0x6a09e667#32, 0xbb67ae85#32, 0x3c6ef372#32, 0xa54ff53a#32, 0x510e527f#32, 0x9b05688c#32, 0x1f83d9ab#32, 0x5be0cd19#32]
/-- models: adobe/sha.hpp:643-646 `sha224_traits_t::initial_state`. -/
def init224 : List (BitVec 32) := [0xc1059ed8#32, 0x367cd507#32, 0x3070dd17#32, 0xf70e5939#32, 0xffc00b31#32, 0x68581511#32, 0x64f98fa7#32, 0xbefa4fa4#32]
/-- models: adobe/sha.hpp:660-666 `sha512_traits_t::initial_state`. -/
def init512 : List (BitVec 64) := [0x6a09e667f3bcc908#64, 0xbb67ae8584caa73b#64, 0x3c6ef372fe94f82b#64, 0xa54ff53a5f1d36f1#64,
   0x510e527fade682d1#64, 0x9b05688c2b3e6c1f#64, 0x1f83d9abfb41bd6b#64, 0x5be0cd19137e2179#64]
/-- models: adobe/sha.hpp:732-738 `sha384_traits_t::initial_state`. -/
def init384 : List (BitVec 64) := [0xcbbb9d5dc1059ed8#64, 0x629a292a367cd507#64, 0x9159015a3070dd17#64, 0x152fecd8f70e5939#64,
   0x67332667ffc00b31#64, 0x8eb44a8768581511#64, 0xdb0c2e0d64f98fa7#64, 0x47b5481dbefa4fa4#64]
/-- models: adobe/sha.hpp:619-635 `sha256_traits_t::k`. -/
def k256 : List (BitVec 32) :=
  [0x428a2f98#32, 0x71374491#32, 0xb5c0fbcf#32, 0xe9b5dba5#32, 0x3956c25b#32, 0x59f111f1#32, 0x923f82a4#32, 0xab1c5ed5#32,
   0xd807aa98#32, 0x12835b01#32, 0x243185be#32, 0x550c7dc3#32, 0x72be5d74#32, 0x80deb1fe#32, 0x9bdc06a7#32, 0xc19bf174#32,
   0xe49b69c1#32, 0xefbe4786#32, 0x0fc19dc6#32, 0x240ca1cc#32, 0x2de92c6f#32, 0x4a7484aa#32, 0x5cb0a9dc#32, 0x76f988da#32,
   0x983e5152#32, 0xa831c66d#32, 0xb00327c8#32, 0xbf597fc7#32, 0xc6e00bf3#32, 0xd5a79147#32, 0x06ca6351#32, 0x14292967#32,
   0x27b70a85#32, 0x2e1b2138#32, 0x4d2c6dfc#32, 0x53380d13#32, 0x650a7354#32, 0x766a0abb#32, 0x81c2c92e#32, 0x92722c85#32,
   0xa2bfe8a1#32, 0xa81a664b#32, 0xc24b8b70#32, 0xc76c51a3#32, 0xd192e819#32, 0xd6990624#32, 0xf40e3585#32, 0x106aa070#32,
   0x19a4c116#32, 0x1e376c08#32, 0x2748774c#32, 0x34b0bcb5#32, 0x391c0cb3#32, 0x4ed8aa4a#32, 0x5b9cca4f#32, 0x682e6ff3#32,
   0x748f82ee#32, 0x78a5636f#32, 0x84c87814#32, 0x8cc70208#32, 0x90befffa#32, 0xa4506ceb#32, 0xbef9a3f7#32, 0xc67178f2#32]
/-- models: adobe/sha.hpp:691-724 `sha512_traits_t::k`. -/
def k512 : List (BitVec 64) :=
  [0x428a2f98d728ae22#64, 0x7137449123ef65cd#64, 0xb5c0fbcfec4d3b2f#64, 0xe9b5dba58189dbbc#64,
   0x3956c25bf348b538#64, 0x59f111f1b605d019#64, 0x923f82a4af194f9b#64, 0xab1c5ed5da6d8118#64,
   0xd807aa98a3030242#64, 0x12835b0145706fbe#64, 0x243185be4ee4b28c#64, 0x550c7dc3d5ffb4e2#64,
   0x72be5d74f27b896f#64, 0x80deb1fe3b1696b1#64, 0x9bdc06a725c71235#64, 0xc19bf174cf692694#64,
   0xe49b69c19ef14ad2#64, 0xefbe4786384f25e3#64, 0x0fc19dc68b8cd5b5#64, 0x240ca1cc77ac9c65#64,
   0x2de92c6f592b0275#64, 0x4a7484aa6ea6e483#64, 0x5cb0a9dcbd41fbd4#64, 0x76f988da831153b5#64,
   0x983e5152ee66dfab#64, 0xa831c66d2db43210#64, 0xb00327c898fb213f#64, 0xbf597fc7beef0ee4#64,
   0xc6e00bf33da88fc2#64, 0xd5a79147930aa725#64, 0x06ca6351e003826f#64, 0x142929670a0e6e70#64,
   0x27b70a8546d22ffc#64, 0x2e1b21385c26c926#64, 0x4d2c6dfc5ac42aed#64, 0x53380d139d95b3df#64,
   0x650a73548baf63de#64, 0x766a0abb3c77b2a8#64, 0x81c2c92e47edaee6#64, 0x92722c851482353b#64,
   0xa2bfe8a14cf10364#64, 0xa81a664bbc423001#64, 0xc24b8b70d0f89791#64, 0xc76c51a30654be30#64,
   0xd192e819d6ef5218#64, 0xd69906245565a910#64, 0xf40e35855771202a#64, 0x106aa07032bbd1b8#64,
   0x19a4c116b8d2d0c8#64, 0x1e376c085141ab53#64, 0x2748774cdf8eeb99#64, 0x34b0bcb5e19b48a8#64,
   0x391c0cb3c5c95a63#64, 0x4ed8aa4ae3418acb#64, 0x5b9cca4f7763e373#64, 0x682e6ff3d6b2b8a3#64,
   0x748f82ee5defb2fc#64, 0x78a5636f43172f60#64, 0x84c87814a1f0ab72#64, 0x8cc702081a6439ec#64,
   0x90befffa23631e28#64, 0xa4506cebde82bde9#64, 0xbef9a3f7b2c67915#64, 0xc67178f2e372532b#64,
   0xca273eceea26619c#64, 0xd186b8c721c0c207#64, 0xeada7dd6cde0eb1e#64, 0xf57d4f7fee6ed178#64,
   0x06f067aa72176fba#64, 0x0a637dc5a2c898a6#64, 0x113f9804bef90dae#64, 0x1b710b35131c471b#64,
   0x28db77f523047d84#64, 0x32caab7b40c72493#64, 0x3c9ebe0a15c9bebc#64, 0x431d67c49c100d4c#64,
   0x4cc5d4becb3e42b6#64, 0x597f299cfc657e2a#64, 0x5fcb6fab3ad6faec#64, 0x6c44198c4a475817#64]

/-- models: adobe/sha.hpp:580-636 `sha256_traits_t`. -/
def p256 : Sha2 32 where
  bigSigma0 x := rotr 2 x ^^^ rotr 13 x ^^^ rotr 22 x
  bigSigma1 x := rotr 6 x ^^^ rotr 11 x ^^^ rotr 25 x
  smallSigma0 x := rotr 7 x ^^^ rotr 18 x ^^^ shr 3 x
  smallSigma1 x := rotr 17 x ^^^ rotr 19 x ^^^ shr 10 x
  k := k256
  rounds := 64

/-- models: adobe/sha.hpp:651-725 `sha512_traits_t`. -/
def p512 : Sha2 64 where
  bigSigma0 x := rotr 28 x ^^^ rotr 34 x ^^^ rotr 39 x
  bigSigma1 x := rotr 14 x ^^^ rotr 18 x ^^^ rotr 41 x
  smallSigma0 x := rotr 1 x ^^^ rotr 8 x ^^^ shr 7 x
  smallSigma1 x := rotr 19 x ^^^ rotr 61 x ^^^ shr 6 x
  k := k512
  rounds := 80

/-- models: adobe/sha.hpp:502-576 -/
def sha1 : Traits 32 := ⟨init1, digest1, 5⟩
/-- models: adobe/sha.hpp:640-647 -/
def sha224 : Traits 32 := ⟨init224, digest2 p256, 7⟩
/-- models: adobe/sha.hpp:580-636 -/
def sha256 : Traits 32 := ⟨init256, digest2 p256, 8⟩
/-- models: adobe/sha.hpp:729-737 -/
def sha384 : Traits 64 := ⟨init384, digest2 p512, 6⟩
/-- models: adobe/sha.hpp:651-725 -/
def sha512 : Traits 64 := ⟨init512, digest2 p512, 8⟩

/-- models: adobe/sha.hpp:875-882 and 898-905 the static functions `digest`. -/
def digestBytes (T : Traits w) (l : List Byte) : Option (List (BitVec w)) :=
  match (Obj.new T).update T l with
  | none => none
  | some o => (o.finalize T).map Prod.snd

def digestBits (T : Traits w) (l : List Byte) (numBits : Nat) : Option (List (BitVec w)) :=
  match (Obj.new T).updateBits T l numBits with
  | none => none
  | some o => (o.finalize T).map Prod.snd

/-- models: adobe/sha.hpp:918 `lut_k`. -/
def lut : List Char := "0123456789abcdef".toList

/-- models: adobe/sha.hpp:931-940: the characters of one element (`char` is taken to be 8 bits wide; `>>` of a negative
    `char` and the mask give the high half of the byte). -/
def hexElement (e : BitVec w) : List Char :=
  (List.range (w / 8)).flatMap fun i =>
    let c : BitVec 8 := ((e >>> (w - (i + 1) * 8)) &&& 0xff#w).setWidth 8
    [lut.getD (((c.signExtend 32).sshiftRight 4) &&& 0xf#32).toNat '?', lut.getD ((c.signExtend 32) &&& 0xf#32).toNat '?']

/-- models: adobe/sha.hpp:914-943 `to_string`. -/
def toStr (spaces : Bool) : Bool → List (BitVec w) → List Char
  | _, [] => []
  | first, e :: es => (if !first && spaces then [' '] else []) ++ hexElement e ++ toStr spaces false es

end Verif.Sha
