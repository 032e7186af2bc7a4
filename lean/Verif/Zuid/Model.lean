import Verif.Md5.Model
/-!
Model of `zuid_t` (adobe/zuid.hpp, source/zuid.cpp), source/zuid_uuid.cpp and the parts of zuid_sys_dep it uses.

Simplifications:
* the machine is little endian and not a Macintosh (adobe/implementation/zuid_sys_dep.hpp:117-127);
* the system clock and the random numbers are inputs;
* `printf` and `scanf` are modelled for the conversions that are used; a `scanf` prefix "0x" without a digit is a matching failure.
-/
namespace Verif.Zuid

abbrev Byte := BitVec 8
abbrev Str := List Char

/-- models: adobe/zuid.hpp:90-97 `uuid_t`; the same for `zuid_t`, whose only member it is (136). -/
structure Uuid where
  data1 : BitVec 32
  data2 : BitVec 16
  data3 : BitVec 16
  data4 : Vector Byte 8
  deriving DecidableEq

/-! ### Text -/

/-- A hexadecimal digit as printf prints it. -/
def hexDigit (n : Nat) : Char := if n < 10 then Char.ofNat (48 + n) else Char.ofNat (87 + n)

/-- `%x`. -/
def hexMin (v : Nat) : Str := if v < 16 then [hexDigit v] else hexMin (v / 16) ++ [hexDigit (v % 16)]

/-- `%0<w>x`. -/
def fmtX (w v : Nat) : Str := List.replicate (w - (hexMin v).length) '0' ++ hexMin v

/-- models: source/zuid.cpp:107-114 `format_uuid`, what is to be printed. -/
def formatUuid (u : Uuid) : Str :=
  fmtX 8 u.data1.toNat ++ ['-'] ++ fmtX 4 u.data2.toNat ++ ['-'] ++ fmtX 4 u.data3.toNat ++ ['-'] ++
  fmtX 2 u.data4[0].toNat ++ fmtX 2 u.data4[1].toNat ++ ['-'] ++
  fmtX 2 u.data4[2].toNat ++ fmtX 2 u.data4[3].toNat ++ fmtX 2 u.data4[4].toNat ++ fmtX 2 u.data4[5].toNat ++
  fmtX 2 u.data4[6].toNat ++ fmtX 2 u.data4[7].toNat

/-- models: source/zuid.cpp:219-227, 231-241 `str`, `c_str`: 36 characters fit into the buffer. -/
def str (u : Uuid) : Str := (formatUuid u).take 36

def isSpace (c : Char) : Bool := c ∈ [' ', '\t', '\n', '\x0b', '\x0c', '\r']

def isHex (c : Char) : Bool := c.isDigit || ('a' ≤ c && c ≤ 'f') || ('A' ≤ c && c ≤ 'F')

def hexValue (c : Char) : Nat :=
  if c.isDigit then c.toNat - 48 else if 'a' ≤ c then c.toNat - 87 else c.toNat - 55

def ofHex (s : Str) : Nat := s.foldl (fun a c => 16 * a + hexValue c) 0

/-- scanf: an optional sign; whether it is a minus, the width that is left and the rest. -/
def scanSign (w : Nat) : Str → Bool × Nat × Str
  | '-' :: r => (true, w - 1, r)
  | '+' :: r => (false, w - 1, r)
  | s => (false, w, s)

/-- scanf: an optional "0x". -/
def scan0x (w : Nat) : Str → Nat × Str
  | '0' :: x :: r => if (x = 'x' ∨ x = 'X') ∧ 2 ≤ w then (w - 2, r) else (w, '0' :: x :: r)
  | s => (w, s)

/-- `%<w>x`, `%<w>lx`, `%<w>hx` of scanf: white space, sign and "0x" are accepted; the number and what is left. -/
def scanHex (w : Nat) (s : Str) : Option (Int × Str) :=
  let a := scanSign w (s.dropWhile isSpace)
  let b := scan0x a.2.1 a.2.2
  let ds := (b.2.take b.1).takeWhile isHex
  if ds = [] then none
  else some (if a.1 then -(ofHex ds : Int) else ofHex ds, b.2.drop ds.length)

/-- A character of the format of scanf that is neither white space nor a conversion. -/
def lit (c : Char) (s : Str) : Option Str := match s with
  | x :: r => if x = c then some r else none
  | [] => none

/-- models: source/zuid.cpp:165-184 `zuid_t(const char*)`.  `none`: `sscanf` has not assigned all the variables, and an indeterminate
value is read. -/
def ofCString (s : Str) : Option Uuid := do
  let s := s.takeWhile (· ≠ '\x00')
  let (d1, s) ← scanHex 8 s
  let s ← lit '-' s
  let (d2, s) ← scanHex 4 s
  let s ← lit '-' s
  let (d3, s) ← scanHex 4 s
  let s ← lit '-' s
  let (b0, s) ← scanHex 2 s
  let (b1, s) ← scanHex 2 s
  let s ← lit '-' s
  let (b2, s) ← scanHex 2 s
  let (b3, s) ← scanHex 2 s
  let (b4, s) ← scanHex 2 s
  let (b5, s) ← scanHex 2 s
  let (b6, s) ← scanHex 2 s
  let (b7, _) ← scanHex 2 s
  some ⟨BitVec.ofInt 32 d1, BitVec.ofInt 16 d2, BitVec.ofInt 16 d3,
    #v[BitVec.ofInt 8 b0, BitVec.ofInt 8 b1, BitVec.ofInt 8 b2, BitVec.ofInt 8 b3, BitVec.ofInt 8 b4, BitVec.ofInt 8 b5,
      BitVec.ofInt 8 b6, BitVec.ofInt 8 b7]⟩

/-- models: source/zuid.cpp:148-161 `zuid_t(const std::string&)`. -/
def ofString (s : Str) : Option Uuid := ofCString (s.take 36)

/-! ### Order -/

/-- models: source/zuid_uuid.cpp:204-206 `ADOBE_UUID_COMPARE_CHECK`, and what comes after it. -/
def check {n : Nat} (a b : BitVec n) (k : Int) : Int := if a ≠ b then (if a < b then -1 else 1) else k

/-- models: source/zuid_uuid.cpp:212-214. -/
def compareBytes : List Byte → List Byte → Int
  | a :: as, b :: bs => check a b (compareBytes as bs)
  | _, _ => 0

/-- models: source/zuid_uuid.cpp:203-219 `uuid_compare`. -/
def uuidCompare (a b : Uuid) : Int :=
  check a.data1 b.data1 (check a.data2 b.data2 (check a.data3 b.data3 (compareBytes a.data4.toList b.data4.toList)))

/-- models: source/zuid.cpp:245-247 `operator==`. -/
def eq (a b : Uuid) : Bool := uuidCompare a b == 0
/-- models: source/zuid.cpp:251-253 `operator<`. -/
def lt (a b : Uuid) : Bool := uuidCompare a b == -1

/-! ### From a name -/

/-- models: adobe/implementation/zuid_sys_dep.hpp:89-93. -/
def swab32 (x : BitVec 32) : BitVec 32 := (x <<< 24) ||| ((x &&& 0x0000FF00#32) <<< 8) ||| ((x &&& 0x00FF0000#32) >>> 8) ||| (x >>> 24)
/-- models: adobe/implementation/zuid_sys_dep.hpp:95-99. -/
def swab16 (x : BitVec 16) : BitVec 16 := (x <<< 8) ||| (x >>> 8)

/-- The bytes of a number in memory. -/
def le32 (x : BitVec 32) : List Byte := [x.extractLsb' 0 8, x.extractLsb' 8 8, x.extractLsb' 16 8, x.extractLsb' 24 8]
def le16 (x : BitVec 16) : List Byte := [x.extractLsb' 0 8, x.extractLsb' 8 8]

/-- The bytes of a `uuid_t` in memory (it has no padding). -/
def memory (u : Uuid) : List Byte := le32 u.data1 ++ le16 u.data2 ++ le16 u.data3 ++ u.data4.toList

/-- The `uuid_t` with these 16 bytes. -/
def ofMemory (h : List Byte) : Uuid :=
  let b (i : Nat) : Byte := h.getD i 0
  ⟨b 3 ++ b 2 ++ b 1 ++ b 0, b 5 ++ b 4, b 7 ++ b 6, #v[b 8, b 9, b 10, b 11, b 12, b 13, b 14, b 15]⟩

/-- models: source/zuid_uuid.cpp:70-87 `format_uuid_v3`. -/
def formatV3 (hash : List Byte) : Uuid :=
  let u := ofMemory hash
  let u := { u with data1 := swab32 u.data1, data2 := swab16 u.data2, data3 := swab16 u.data3 }
  { u with data3 := (u.data3 &&& 0x0FFF#16) ||| (3#16 <<< 12), data4 := u.data4.set 0 ((u.data4[0] &&& 0x3F#8) ||| 0x80#8) }

/-- models: source/zuid_uuid.cpp:179-199 `uuid_create_from_name`; `buffer` is the uninitialised buffer of the `md5_t`, `none` an access
out of bounds in it. -/
def createFromName (buffer : List Byte) (ns : Uuid) (name : List Byte) (namelen : BitVec 16) : Option Uuid := do
  let net : Uuid := { ns with data1 := swab32 ns.data1, data2 := swab16 ns.data2, data3 := swab16 ns.data3 }
  let c := Md5.St.new buffer
  let c ← c.update (memory net)
  let c ← c.update (name.take namelen.toNat)
  let (_, hash) ← c.final
  some (formatV3 hash)

/-- models: source/zuid.cpp:188-193 `zuid_t(const zuid_t&, const std::string&)`. -/
def ofName (buffer : List Byte) (ns : Uuid) (name : List Byte) : Option Uuid :=
  createFromName buffer ns name (BitVec.ofNat 16 name.length)

/-! ### From the clock -/

/-- models: source/zuid_uuid.cpp:101-103, the static variables of `get_current_time`, shared by all threads. -/
structure Clock where
  timeLast : BitVec 64
  tick : BitVec 16
  inited : Bool
  deriving DecidableEq

/-- Before the first call. -/
def Clock.start : Clock := ⟨0, 0, false⟩

/-- models: source/zuid_sys_dep.cpp:83-87 `uuid_state_t`. -/
structure Saved where
  ts : BitVec 64
  node : Vector Byte 6
  cs : BitVec 16
  deriving DecidableEq

/-- models: source/zuid_sys_dep.cpp:91-95, the variables of one thread. -/
structure Thread where
  state : Option Saved
  node : Option (Vector Byte 6)
  deriving DecidableEq

def Thread.start : Thread := ⟨none, none⟩

/-- What the system answers during one call: the time, a random node and a random number. -/
structure Input where
  now : BitVec 64
  node : Vector Byte 6
  random : BitVec 64

/-- models: source/zuid_uuid.cpp:100-132 `get_current_time`. -/
def currentTime (g : Clock) (now : BitVec 64) : Clock × BitVec 64 :=
  let g := if g.inited then g else { g with timeLast := now, inited := true }
  let g :=
    if g.tick < 10#16 then { g with tick := g.tick + 1 }
    else if now > g.timeLast + g.tick.setWidth 64 then { g with tick := 0, timeLast := now }
    else { g with tick := g.tick + 1 }
  (g, g.timeLast + g.tick.setWidth 64)

/-- models: source/zuid_uuid.cpp:51-65 `format_uuid_v1`. -/
def formatV1 (cs : BitVec 16) (ts : BitVec 64) (node : Vector Byte 6) : Uuid where
  data1 := (ts &&& 0xFFFFFFFF#64).setWidth 32
  data2 := ((ts >>> 32) &&& 0xFFFF#64).setWidth 16
  data3 := ((ts >>> 48) &&& 0x0FFF#64).setWidth 16 ||| (1#16 <<< 12)
  data4 := #v[((cs &&& 0x3F00#16) >>> 8).setWidth 8 ||| 0x80#8, (cs &&& 0xFF#16).setWidth 8,
    node[0], node[1], node[2], node[3], node[4], node[5]]

/-- models: source/zuid_uuid.cpp:139-173 `uuid_create` with source/zuid_sys_dep.cpp:243-256, 277-308: `zuid_t()`. -/
def create (g : Clock) (t : Thread) (i : Input) : Clock × Thread × Uuid :=
  let (g, ts) := currentTime g i.now
  let node := t.node.getD i.node
  let cs := match t.state with
    | none => i.random.setWidth 16
    | some s => if node ≠ s.node then i.random.setWidth 16 else if ts < s.ts then s.cs + 1 else s.cs
  (g, ⟨some ⟨ts, node, cs⟩, some node⟩, formatV1 cs ts node)

/-- Calls of `zuid_t()` in one thread. -/
def creates (g : Clock) (t : Thread) : List Input → Clock × Thread × List Uuid
  | [] => (g, t, [])
  | i :: is =>
    let (g, t, u) := create g t i
    let (g, t, us) := creates g t is
    (g, t, u :: us)

/-- Calls of `zuid_t()` in several threads, one after the other in any order; all of them share the clock (the code does not synchronise
its use; what a data race could do besides is not modelled). -/
def run (g : Clock) (ts : Nat → Thread) : List (Nat × Input) → List Uuid
  | [] => []
  | (k, i) :: is =>
    let r := create g (ts k) i
    r.2.2 :: run r.1 (fun j => if j = k then r.2.1 else ts j) is

end Verif.Zuid
