import Verif.Common.Ring
/-
Model of adobe/closed_hash.hpp (closed_hash_set / closed_hash_map) at the level of nodes and links.

Nodes of a table of capacity `cap` are numbered: `0 … cap-1` = `storage_m[i]`, `cap` = `free_tail()`,
`cap+1` = `used_tail()`.  The two low bits of `next_m` (the state) are a separate field; `T` is assumed to be aligned so
that the bits are free (the code assumes the same).  `val n = none` means that no object lives in the node's storage:
constructing over a live object, destroying or dereferencing a dead one is the outcome `none`.
Simplifications: default allocator only; memory is unbounded except for the size computation in `allocate`; copy/move
of elements does not throw; `hash`, `key_eq`, `key_function` are pure functions, the same for all sets.
-/
namespace Verif.ClosedHash
open Verif.Ring

/-- models: adobe/closed_hash.hpp:232-266 `header_t` with its nodes. -/
structure Hdr (α : Type) where
  cap : Nat
  size : Nat
  next : Nat → Nat
  prior : Nat → Nat
  state : Nat → Nat
  val : Nat → Option α

variable {α K : Type}

/-- `free_tail().address()` -/
def Hdr.F (h : Hdr α) : Nat := h.cap
/-- `used_tail().address()` -/
def Hdr.U (h : Hdr α) : Nat := h.cap + 1

/-- models: adobe/closed_hash.hpp:197-200 `set_next` (keeps the state bits of `x`). -/
def Hdr.setNext (h : Hdr α) (x y : Nat) : Hdr α := { h with next := upd h.next x y, prior := upd h.prior y x }

/-- models: adobe/closed_hash.hpp:202-205 `set_next_raw` (clears the state bits of `x`). -/
def Hdr.setNextRaw (h : Hdr α) (x y : Nat) : Hdr α :=
  { h with next := upd h.next x y, prior := upd h.prior y x, state := upd h.state x 0 }

/-- models: adobe/closed_hash.hpp:210-213 `set_state`. -/
def Hdr.setState (h : Hdr α) (x s : Nat) : Hdr α := { h with state := upd h.state x s }

/-- models: adobe/iterator/set_next.hpp:69-72 `skip_node`. -/
def Hdr.skipNode (h : Hdr α) (n : Nat) : Hdr α := h.setNext (h.prior n) (h.next n)

/-- models: adobe/iterator/set_next.hpp:57-62 `splice_node_range`. -/
def Hdr.splice (h : Hdr α) (loc f l : Nat) : Hdr α := (h.setNext loc f).setNext l (h.next loc)

/-- `construct_at(&*location, x)`; only storage nodes have room for a value. -/
def Hdr.construct (h : Hdr α) (n : Nat) (x : α) : Option (Hdr α) :=
  if n < h.cap then
    match h.val n with
    | some _ => none
    | none => some { h with val := upd h.val n (some x) }
  else none

/-- `destroy(&*location)` -/
def Hdr.destroy (h : Hdr α) (n : Nat) : Option (Hdr α) :=
  match h.val n with
  | none => none
  | some _ => some { h with val := upd h.val n none }

/-- models: adobe/closed_hash.hpp:590-594 `insert_raw`. -/
def Hdr.insertRaw (h : Hdr α) (n : Nat) (x : α) (st : Nat) : Option (Hdr α) :=
  (h.construct n x).map (fun h => (h.setState n st).skipNode n)

/-- models: adobe/closed_hash.hpp:597-601 `erase_raw`. -/
def Hdr.eraseRaw (h : Hdr α) (n : Nat) : Option (Hdr α) :=
  (h.destroy n).map (fun h => (h.setState n 0).splice h.F n n)

/-- models: adobe/closed_hash.hpp:531-537 `prime_table`. -/
def primeTable : List Nat :=
  [3, 7, 17, 37, 79, 163, 331, 673, 1361, 2729, 5471, 10949, 21911, 43853, 87719, 175447, 350899, 701819, 1403641, 2807303,
   5614657, 11229331, 22458671, 44917381, 89834777, 179669557, 359339171, 718678369, 1437356741, 2874713497, 2 ^ 64 - 1]

/-- models: adobe/closed_hash.hpp:549-564: a fresh table of capacity `n`, all nodes chained into the free list.
    Storage starts as raw memory (state 3 here stands for garbage). -/
def freshTable (n : Nat) : Hdr α :=
  let h0 : Hdr α := { cap := n, size := 0, next := id, prior := id, state := fun i => if i < n then 3 else 0, val := fun _ => none }
  let r := (List.range n).foldl (fun (p : Hdr α × Nat) first => (p.1.setNextRaw p.2 first, first)) (h0, n)
  r.1.setNextRaw r.2 n

/-- models: adobe/closed_hash.hpp:528-565 `allocate` for the default allocator.  `lower_bound` on the sorted table is the
    first entry not less than `n`.  For the last entry, ULONG_MAX, the byte count
    `sizeof(header_t) - sizeof(node_t) + sizeof(node_t) * n` wraps around and the loop writes outside of the block: `none`. -/
def allocate (n : Nat) : Option (Option (Hdr α)) :=
  if n = 0 then some none
  else match primeTable.find? (fun p => decide (n ≤ p)) with
    | none => none
    | some p => if p = 2 ^ 64 - 1 then none else some (some (freshTable p))

section
variable (hash : K → Nat) (keq : K → K → Bool) (key : α → K)

/-- models: adobe/closed_hash.hpp:574-576 `bucket_`. -/
def Hdr.bucket (h : Hdr α) (k : K) : Nat := hash k % h.cap

/-- models: adobe/closed_hash.hpp:579-587 `find(f, l, key)`, `do … while`; `none` also if `fuel` rounds do not suffice. -/
def Hdr.findChain (h : Hdr α) (k : K) (l : Nat) : Nat → Nat → Option Nat
  | 0, _ => none
  | fuel + 1, f =>
    match h.val f with
    | none => none
    | some v =>
      if keq k (key v) then some f
      else
        let f' := h.next f
        if f' ≠ l ∧ h.state f' ≠ 1 then h.findChain k l fuel f' else some l

/-- The nodes visited by `for (it = n; it != end(); ++it)`; `none` if the end is not reached in `fuel` steps. -/
def Hdr.walk (h : Hdr α) : Nat → Nat → Option (List Nat)
  | 0, n => if n = h.U then some [] else none
  | fuel + 1, n => if n = h.U then some [] else (h.walk fuel (h.next n)).map (n :: ·)

/-- The values seen by iterating from `n` to `end()`; `none` if a node without a value is dereferenced. -/
def Hdr.valsFrom (h : Hdr α) (n : Nat) : Option (List α) :=
  (h.walk (h.cap + 1) n).bind (fun ns => ns.mapM h.val)

/-- models: adobe/closed_hash.hpp:465-497, `insert` after the capacity check. -/
def Hdr.insertCore (h : Hdr α) (x : α) : Option (Hdr α × Nat × Bool) :=
  let node := h.bucket hash (key x)
  let placeHome (h : Hdr α) : Option (Hdr α × Nat × Bool) :=
    (h.insertRaw node x 1).map (fun h =>
      let h := h.splice h.U node node
      ({ h with size := h.size + 1 }, node, true))
  if h.state node = 1 then
    match h.findChain keq key (key x) h.U (h.cap + 1) node with
    | none => none
    | some found =>
      if found ≠ h.U then
        -- `*found = std::move(x)`
        match h.val found with
        | none => none
        | some _ => some ({ h with val := upd h.val found (some x) }, found, false)
      else
        let free := h.next h.F
        (h.insertRaw free x 2).map (fun h =>
          let h := h.splice node free free
          ({ h with size := h.size + 1 }, free, true))
  else if h.state node = 2 then
    let free := h.next h.F
    match h.val node with
    | none => none
    | some v =>
      match h.insertRaw free v 2 with
      | none => none
      | some h =>
        let h := h.setNext (h.prior node) free
        let h := h.setNext free (h.next node)
        match h.eraseRaw node with
        | none => none
        | some h => placeHome h
  else placeHome h

/-- A set: a header pointer that may be null. -/
abbrev CSet (α : Type) := Option (Hdr α)

/-- models: adobe/closed_hash.hpp:340 `size()`. -/
def CSet.size (s : CSet α) : Nat := match s with | none => 0 | some h => h.size
/-- models: adobe/closed_hash.hpp:343 `capacity()`. -/
def CSet.capacity (s : CSet α) : Nat := match s with | none => 0 | some h => h.cap
/-- models: adobe/closed_hash.hpp:362 `begin()`. -/
def CSet.begin (s : CSet α) : Nat := match s with | none => 0 | some h => h.next h.U
/-- models: adobe/closed_hash.hpp:363 `end()`. -/
def CSet.end_ (s : CSet α) : Nat := match s with | none => 0 | some h => h.U

/-- Values from iterator `it` to `end()`. -/
def CSet.valsFrom (s : CSet α) (it : Nat) : Option (List α) :=
  match s with
  | none => if it = 0 then some [] else none
  | some h => h.valsFrom it

/-- Values from `begin()` to `end()`. -/
def CSet.vals (s : CSet α) : Option (List α) := s.valsFrom s.begin

/-- Dereferencing an iterator. -/
def CSet.deref (s : CSet α) (it : Nat) : Option α :=
  match s with
  | none => none
  | some h => h.val it

/-- `std::advance(begin(), i)`. -/
def CSet.advance (s : CSet α) : Nat → Nat
  | 0 => s.begin
  | i + 1 => match s with | none => 0 | some h => h.next (CSet.advance s i)

/-- models: adobe/closed_hash.hpp:447-453 `move_insert` into the temporary of `reserve`; a nested growth of the temporary
    would be a recursive call and is `none` here (proved not to happen). -/
def moveInsert (h : Hdr α) : List α → Option (Hdr α)
  | [] => some h
  | x :: xs =>
    if h.cap = h.size then none
    else match h.insertCore hash keq key x with
      | none => none
      | some (h', _, _) => moveInsert h' xs

/-- models: adobe/closed_hash.hpp:345-356 `reserve`. -/
def CSet.reserve (s : CSet α) (n : Nat) : Option (CSet α) :=
  if n ≤ s.capacity then some s
  else match s with
    | none => allocate n
    | some h =>
      match allocate n with
      | none => none
      | some none => none
      | some (some tmp) =>
        match h.valsFrom (h.next h.U) with
        | none => none
        | some vs => (moveInsert hash keq key tmp vs).map some

/-- models: adobe/closed_hash.hpp:461-498 `insert(value_type)`. -/
def CSet.insert (s : CSet α) (x : α) : Option (CSet α × Nat × Bool) :=
  let s' := if s.capacity = s.size then s.reserve hash keq key (if s.size ≠ 0 then 2 * s.size else 3) else some s
  match s' with
  | none => none
  | some none => none
  | some (some h) => (h.insertCore hash keq key x).map (fun r => (some r.1, r.2.1, r.2.2))

/-- models: adobe/closed_hash.hpp:439-445 `insert(first, last)`. -/
def CSet.insertAll (s : CSet α) : List α → Option (CSet α)
  | [] => some s
  | x :: xs => match s.insert hash keq key x with
    | none => none
    | some (s', _, _) => CSet.insertAll s' xs

/-- models: adobe/closed_hash.hpp:410-421 `find(key)`. -/
def CSet.find (s : CSet α) (k : K) : Option Nat :=
  match s with
  | none => some 0
  | some h =>
    let node := h.bucket hash k
    if h.state node ≠ 1 then some h.U else h.findChain keq key k h.U (h.cap + 1) node

/-- models: adobe/closed_hash.hpp:437 `count(key)`. -/
def CSet.count (s : CSet α) (k : K) : Option Nat :=
  (s.find hash keq key k).map (fun it => if it ≠ s.end_ then 1 else 0)

/-- models: adobe/closed_hash.hpp:376-393 `erase(iterator)`. -/
def Hdr.erase (h : Hdr α) (loc : Nat) : Option (Hdr α × Nat) :=
  let nxt := h.next loc
  let fin (h : Hdr α) (loc res : Nat) : Option (Hdr α × Nat) :=
    ((h.skipNode loc).eraseRaw loc).map (fun h => ({ h with size := h.size - 1 }, res))
  if h.state loc = 1 ∧ nxt ≠ h.U ∧ h.state nxt = 2 then
    -- `swap(*next, *location)`
    match h.val nxt, h.val loc with
    | some a, some b => fin { h with val := upd (upd h.val nxt (some b)) loc (some a) } nxt loc
    | _, _ => none
  else fin h loc nxt

def CSet.eraseIt (s : CSet α) (it : Nat) : Option (CSet α × Nat) :=
  match s with
  | none => none
  | some h => (h.erase it).map (fun r => (some r.1, r.2))

/-- models: adobe/closed_hash.hpp:395-401 `erase(key)`. -/
def CSet.eraseKey (s : CSet α) (k : K) : Option (CSet α × Nat) :=
  match s.find hash keq key k with
  | none => none
  | some it => if it = s.end_ then some (s, 0) else (s.eraseIt it).map (fun r => (r.1, 1))

/-- models: adobe/closed_hash.hpp:403-406 `clear`; `none` if the loop does not end within `fuel` rounds. -/
def CSet.clearLoop (s : CSet α) : Nat → Nat → Option (CSet α)
  | 0, first => if first = s.end_ then some s else none
  | fuel + 1, first =>
    if first = s.end_ then some s
    else match s.eraseIt first with
      | none => none
      | some (s', first') => CSet.clearLoop s' fuel first'

def CSet.clear (s : CSet α) : Option (CSet α) := s.clearLoop s.size s.begin

/-- models: adobe/closed_hash.hpp:322-326 copy constructor. -/
def CSet.copy (s : CSet α) : Option (CSet α) :=
  match allocate s.size with
  | none => none
  | some t => match s.vals with
    | none => none
    | some vs => CSet.insertAll hash keq key t vs

/-- models: adobe/closed_hash.hpp:516-521 the loop of `operator==`; `veq` is `operator==` of the values. -/
def eqLoop (veq : α → α → Bool) (y : CSet α) : List α → Option Bool
  | [] => some true
  | v :: vs =>
    match y.find hash keq key (key v) with
    | none => none
    | some it =>
      if it = y.end_ then some false
      else match y.deref it with
        | none => none
        | some w => if veq v w then eqLoop veq y vs else some false

/-- models: adobe/closed_hash.hpp:513-523 `operator==`. -/
def CSet.eq (veq : α → α → Bool) (x y : CSet α) : Option Bool :=
  if x.size ≠ y.size then some false
  else match x.vals with
    | none => none
    | some vs => eqLoop hash keq key veq y vs

/-- models: adobe/closed_hash.hpp:674-680 closed_hash_map `operator[]` followed by reading the reference;
    `d` is `make_pair(k, mapped_type())`. -/
def CSet.index (s : CSet α) (d : α) : Option (CSet α × Nat) :=
  match s.find hash keq key (key d) with
  | none => none
  | some it => if it = s.end_ then (s.insert hash keq key d).map (fun r => (r.1, r.2.1)) else some (s, it)

/-- models: adobe/closed_hash.hpp:502-509 the destructor's loop (`destroy(&*first)`). -/
def destroyAll (h : Hdr α) : List Nat → Option (Hdr α)
  | [] => some h
  | n :: ns => (h.destroy n).bind (fun h => destroyAll h ns)

def CSet.destruct (s : CSet α) : Option (CSet α) :=
  match s with
  | none => some none
  | some h => match h.walk (h.cap + 1) (h.next h.U) with
    | none => none
    | some ns => (destroyAll h ns).map some

/-- Client operations on one set. -/
inductive Op (α K : Type) where
  | insert (x : α)
  | find (k : K)
  | eraseKey (k : K)
  /-- erase the element `i` steps after `begin()` if there is one -/
  | eraseNth (i : Nat)
  | index (d : α)
  | clear
  | reserve (n : Nat)
  /-- replace the set by a copy of itself -/
  | copy
  | size
  /-- list the elements by iterating -/
  | iterate

/-- What the client sees. -/
inductive Out (α : Type) where
  /-- value at the returned iterator, and the flag -/
  | inserted (v : α) (b : Bool)
  | found (v : Option α)
  | erased (n : Nat)
  | removed (v : Option α)
  | ref (v : α)
  | unit
  | size (n : Nat)
  | list (vs : List α)

/-- One operation and its observable result; `none` = undefined behaviour or non-termination. -/
def step (s : CSet α) : Op α K → Option (CSet α × Out α)
  | .insert x => match s.insert hash keq key x with
    | none => none
    | some (s', it, b) => (s'.deref it).map (fun v => (s', .inserted v b))
  | .find k => match s.find hash keq key k with
    | none => none
    | some it => if it = s.end_ then some (s, .found none) else (s.deref it).map (fun v => (s, .found (some v)))
  | .eraseKey k => (s.eraseKey hash keq key k).map (fun r => (r.1, .erased r.2))
  | .eraseNth i =>
    if i < s.size then
      match s.deref (s.advance i) with
      | none => none
      | some v => (s.eraseIt (s.advance i)).map (fun r => (r.1, .removed (some v)))
    else some (s, .removed none)
  | .index d => match s.index hash keq key d with
    | none => none
    | some (s', it) => (s'.deref it).map (fun v => (s', .ref v))
  | .clear => s.clear.map (fun s => (s, .unit))
  | .reserve n => (s.reserve hash keq key n).map (fun s => (s, .unit))
  | .copy => (s.copy hash keq key).map (fun s => (s, .unit))
  | .size => some (s, .size s.size)
  | .iterate => s.vals.map (fun vs => (s, .list vs))

/-- A history. -/
def run (s : CSet α) : List (Op α K) → Option (CSet α × List (Out α))
  | [] => some (s, [])
  | o :: os => match step hash keq key s o with
    | none => none
    | some (s', out) => (run s' os).map (fun r => (r.1, out :: r.2))

end

end Verif.ClosedHash
