/-
Model of adobe/unicode.hpp (copy_utf and everything below it).

Code units are natural numbers (the bit pattern of the 8, 16 or 32 bit unit); the sign of `char` does not matter
because every use is masked or cast back.  A read of `*first` when `first == last` is the outcome `none`
(undefined behaviour).  `ok = false` records that an ADOBE_ASSERT condition failed: a debug build stops there, a
release build goes on; the other fields are the values a release build computes.  A local variable that is read
without having been assigned has the arbitrary value `junk`.
-/
namespace Verif.Unicode

/-- Result of decoding one code point: `*result`, the returned iterator (remaining input), and whether all assertions held. -/
structure Dec where
  code : Nat
  rest : List Nat
  ok : Bool
deriving DecidableEq, Repr

/-- models: adobe/unicode.hpp:53-71 `utf8_header_t<N>` (N = 0 is the continuation marker). -/
def header : Nat → Nat
  | 0 => 0x80
  | 2 => 0xC0
  | 3 => 0xE0
  | _ => 0xF0

/-- models: adobe/unicode.hpp:78-89 `utf8_add_mask` on an 8 bit value. -/
def addMask (mask code : Nat) : Nat := (code ||| mask) % 256

/-- models: adobe/unicode.hpp:92-102 `utf8_strip_mask`: `code & ~Mask`, as an 8 bit value. -/
def stripMask (mask code : Nat) : Nat := code &&& (255 ^^^ mask)

/-- models: adobe/unicode.hpp:105-113 `promote_fragment<Position>`. -/
def promote (pos fragment : Nat) : Nat := fragment <<< ((pos - 1) * 6)

/-- models: adobe/unicode.hpp:120-133 `demote_fragment<Position>`. -/
def demote (pos code : Nat) : Nat := (code >>> ((pos - 1) * 6)) &&& 0x3F

/-- models: adobe/unicode.hpp:139-162 `demotion_engine_t<T, n, hdr>`. -/
def demotion : Nat → Bool → Nat → List Nat
  | 0, _, _ => []
  | 1, _, code => [addMask (header 0) (demote 1 code)]
  | n + 1, hdr, code => addMask (header (if hdr then n + 1 else 0)) (demote (n + 1) code) :: demotion n false code

/-- models: adobe/unicode.hpp:164-199 `promotion_engine_t<n, hdr>`; on running out of input it returns 0. -/
def promotion : Nat → Bool → List Nat → Option Dec
  | _, _, [] => none
  | 0, _, l => some ⟨0, l, true⟩
  | 1, _, b :: rest => some ⟨promote 1 (stripMask (header 0) b), rest, true⟩
  | n + 1, hdr, b :: rest =>
    let shifted := promote (n + 1) (stripMask (header (if hdr then n + 1 else 0)) b)
    match rest with
    | [] => some ⟨0, [], false⟩
    | r :: rs =>
      match promotion n false (r :: rs) with
      | none => none
      | some d => some { d with code := shifted ||| d.code }

/-- models: adobe/unicode.hpp:233-258 `to_utf32` from UTF-8. -/
def decode8 (junk : Nat) : List Nat → Option Dec
  | [] => none
  | n :: rest =>
    let d : Option Dec :=
      if n < 128 then some ⟨n, rest, true⟩
      else if n < 224 then (promotion 2 true (n :: rest)).map (fun d => { d with ok := d.ok && !(decide (n < 192)) })
      else if n < 240 then promotion 3 true (n :: rest)
      else if n < 248 then promotion 4 true (n :: rest)
      else some ⟨junk, n :: rest, false⟩
    d.map (fun d => { d with ok := d.ok && !(decide (0x10FFFF < d.code)) &&
      !(decide (0xD800 ≤ d.code) && decide (d.code ≤ 0xDFFF)) })

/-- models: adobe/unicode.hpp:202-229 `to_utf32` from UTF-16.  `(code-0xD800)*1024 + (trail-0xDC00) + 0x10000` is never
    negative for any 16 bit trail, so it is written without negative intermediate values. -/
def decode16 (junk : Nat) : List Nat → Option Dec
  | [] => none
  | code :: rest =>
    if code < 0xD800 then some ⟨code, rest, true⟩
    else if code < 0xDC00 then
      match rest with
      | [] => some ⟨junk, [], false⟩
      | trail :: rest =>
        some ⟨(code - 0xD800) * 1024 + trail + 0x10000 - 0xDC00, rest, decide (0xDC00 ≤ trail) && decide (trail ≤ 0xDFFF)⟩
    else some ⟨code, rest, !(decide (code < 0xE000))⟩

/-- models: adobe/unicode.hpp:262-267 `to_utf32` from UTF-32. -/
def decode32 (_junk : Nat) : List Nat → Option Dec
  | [] => none
  | code :: rest => some ⟨code, rest, true⟩

/-- models: adobe/unicode.hpp:276-293 `utf32_to_utf8` (written units, all assertions held). -/
def encode8 (code : Nat) : List Nat × Bool :=
  if code < 2 ^ 7 then ([code], true)
  else if code < 2 ^ 11 then (demotion 2 true code, true)
  else if code < 2 ^ 16 then (demotion 3 true code, true)
  else if code < 2 ^ 21 then (demotion 4 true code, true)
  else ([], false)

/-- models: adobe/unicode.hpp:302-317 `utf32_to_utf16`. -/
def encode16 (code : Nat) : List Nat × Bool :=
  if code < 0x10000 then ([code], true)
  else ([(((code - 0x10000) >>> 10) + 0xD800) % 65536, (((code - 0x10000) &&& 0x03FF) + 0xDC00) % 65536], true)

/-- models: adobe/unicode.hpp:438-448 (`*o++ = result`). -/
def encode32 (code : Nat) : List Nat × Bool := ([code], true)

/-- State of the conversion loops `while (first != last) { first = to_utf32(...); output = ...; }`. -/
inductive Res where
  /-- loop left normally: output and whether all assertions held -/
  | done (out : List Nat) (ok : Bool)
  /-- undefined behaviour (read past the end) -/
  | ub
  /-- the step budget was used up; `out` is what has been written so far -/
  | running (out : List Nat)
deriving DecidableEq, Repr

def Res.cons (o : List Nat) (ok : Bool) : Res → Res
  | .done out ok' => .done (o ++ out) (ok && ok')
  | .ub => .ub
  | .running out => .running (o ++ out)

/-- models: adobe/unicode.hpp:343-353, 365-372, 383-393, 417-424, 439-448: the common loop, with a step budget.
    `junks n` is the value found in the uninitialised local when `n` steps remain. -/
def loop (dec : Nat → List Nat → Option Dec) (enc : Nat → List Nat × Bool) (junks : Nat → Nat) : Nat → List Nat → Res
  | _, [] => .done [] true
  | 0, _ :: _ => .running []
  | n + 1, b :: l =>
    match dec (junks n) (b :: l) with
    | none => .ub
    | some d => (loop dec enc junks n d.rest).cons (enc d.code).1 (d.ok && (enc d.code).2)

/-- Outcome of the loops in a build where a failed ADOBE_ASSERT stops the program. -/
inductive ResD where
  | done (out : List Nat)
  /-- stopped by an assertion after writing `out` -/
  | asserted (out : List Nat)
  | ub
  | running (out : List Nat)
deriving DecidableEq, Repr

def ResD.cons (o : List Nat) : ResD → ResD
  | .done out => .done (o ++ out)
  | .asserted out => .asserted (o ++ out)
  | .ub => .ub
  | .running out => .running (o ++ out)

/-- models: the same loops as `loop`, in a debug build (ADOBE_ASSERT aborts).  `utf32_to_utf8` asserts only when it
    writes nothing, so nothing is written in the step that asserts. -/
def loopD (dec : Nat → List Nat → Option Dec) (enc : Nat → List Nat × Bool) (junks : Nat → Nat) : Nat → List Nat → ResD
  | _, [] => .done []
  | 0, _ :: _ => .running []
  | n + 1, b :: l =>
    match dec (junks n) (b :: l) with
    | none => .ub
    | some d =>
      if d.ok && (enc d.code).2 then (loopD dec enc junks n d.rest).cons (enc d.code).1
      else .asserted []

/-- Width of a code unit: the tag dispatch on `sizeof`. -/
inductive W | u8 | u16 | u32
deriving DecidableEq, Repr

def decoder : W → Nat → List Nat → Option Dec
  | .u8 => decode8
  | .u16 => decode16
  | .u32 => decode32

def encoder : W → Nat → List Nat × Bool
  | .u8 => encode8
  | .u16 => encode16
  | .u32 => encode32

/-- models: adobe/unicode.hpp:329-331, 404-406 and 428-448 `to_utf_` / :560-563 `copy_utf`: identical 8 or 16 bit widths
    are a plain std::copy. `budget` is the number of loop iterations observed. -/
def copyUtf (src dst : W) (junks : Nat → Nat) (budget : Nat) (l : List Nat) : Res :=
  match src, dst with
  | .u8, .u8 => .done l true
  | .u16, .u16 => .done l true
  | s, d => loop (decoder s) (encoder d) junks budget l

/-- models: `copyUtf` in a debug build. -/
def copyUtfDebug (src dst : W) (junks : Nat → Nat) (budget : Nat) (l : List Nat) : ResD :=
  match src, dst with
  | .u8, .u8 => .done l
  | .u16, .u16 => .done l
  | s, d => loopD (decoder s) (encoder d) junks budget l

/-- models: adobe/unicode.hpp:455-489 `expand_utf_t` (read as a table on bit widths, as documented; the code indexes it
    with byte sizes and therefore does not compile when used). -/
def expand : W → W → Nat
  | .u16, .u8 => 3
  | .u32, .u8 => 4
  | .u32, .u16 => 2
  | _, _ => 1

end Verif.Unicode
