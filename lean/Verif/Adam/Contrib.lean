import Verif.Adam.Halves
/-!
Model of what a sheet reports about contributing and enabled cells: `contributing`, `contributing_to_cell`, `monitor_contributing`,
`monitor_enabled` of `/repo/source/adam.cpp`.

Simplification: a `dictionary_t` (a closed hash map from names to values) is an association list in order of insertion; only its
lookups and, for `set`, some order of its elements are observed.
-/
namespace Verif.Adam
variable {N V : Type} [DecidableEq N] [DecidableEq V] [Values V]

/-- A dictionary. -/
abbrev Dict (N V : Type) := List (N × V)
/-- models: `find`, `count`, `get_value` of adobe/dictionary.hpp. -/
def Dict.get (d : Dict N V) (n : N) : Option V := d.lookup n
/-- models: `insert(make_pair(name, value))`: nothing happens when the name is there. -/
def Dict.insert (d : Dict N V) (n : N) (v : V) : Dict N V := if (Dict.get d n).isSome then d else d ++ [(n, v)]

/-- The local variables of `contributing_set`. models: source/adam.cpp:1397-1399. -/
structure Scan (N V : Type) where
  changed : Dict N V
  touched : Dict N V
  includeTouched : Bool

/-- The body of the loop of `contributing_set`, for cell `i`. models: source/adam.cpp:1402-1416. -/
def scanCell (s : Sheet N V) (mark : Dict N V) (b : Bits) (a : Scan N V) (i : Nat) : Scan N V :=
  if b.testBit i then
    let c := s.cell i
    match Dict.get mark c.name with
    | none => { a with includeTouched := true, changed := Dict.insert a.changed c.name c.state }
    | some w =>
        if w ≠ c.state then { a with changed := Dict.insert a.changed c.name c.state }
        else if s.priorityAccessed.testBit i then { a with touched := Dict.insert a.touched c.name c.state }
        else a
  else a

/-- models: source/adam.cpp:1395-1424 `contributing_set`. -/
def contributingSet (s : Sheet N V) (mark : Dict N V) (b : Bits) : Dict N V :=
  let a := (List.range s.size).foldl (scanCell s mark b) ⟨[], [], false⟩
  if a.includeTouched then a.touched.foldl (fun d e => Dict.insert d e.1 e.2) a.changed else a.changed

/-- The cells which contribute to an output, or to an interface cell when there are no outputs.
models: source/adam.cpp:1356-1365. -/
def outputBits (s : Sheet N V) (ord : List Nat) : Bits := ord.foldl (fun b i =>
  if (s.cell i).spec = .output ∨ (s.hasOutput = false ∧ (s.cell i).spec = .interfaceOutput) then b ||| (s.cell i).contributing else b) 0

/-- models: source/adam.cpp:1355-1370 `contributing(mark)`; `ord` is the iteration order of `output_index_m`. -/
def contributingOf (s : Sheet N V) (ord : List Nat) (mark : Dict N V) : Dict N V := contributingSet s mark (outputBits s ord)

/-- models: source/adam.cpp:1374-1381 `contributing_to_cell`; `none` when it throws. -/
def contributingToCell (s : Sheet N V) (n : N) : Option (Dict N V) :=
  (s.outputIndex.find n).map fun i => contributingSet s [] (s.cell i).contributing

/-- A connection made by `monitor_contributing`. -/
structure ContribMonitor (N V : Type) where
  cell : Nat
  mark : Dict N V

/-- models: source/adam.cpp:988-1011 `monitor_contributing`: what the monitor is told at once, and the connection; `none` when it throws. -/
def monitorContributing (s : Sheet N V) (n : N) (mark : Dict N V) : Option (Dict N V × ContribMonitor N V) :=
  (s.outputIndex.find n).map fun i => (contributingSet s mark (s.cell i).contributing, ⟨i, mark⟩)

/-- The part of `update` which comes before the notifications.  models: source/adam.cpp:1161-1258. -/
def updateMid (srt : Sorter) (ord : List Nat) : M N V (Bits × Bits) := do
  modify startUpdate
  conditionals (List.range (← gets (·.nrel)))
  modify fun s => { s with condContributing := s.accumulate }
  let pa ← flow srt
  calcOutputs ord
  let poison ← poisonLoop 0 (← gets (·.invariants))
  pure (pa, poison)

/-- What the monitor is told (source/adam.cpp:1301-1304, with the `bind` of 1008-1010); `t` is the sheet in the middle of the update, when
`contributing_set` runs.  (The flags `invariant_m` which the notifications change are not read by `contributing_set`.) -/
def ContribMonitor.told (m : ContribMonitor N V) (t : Sheet N V) : Event N V → Option (Dict N V)
  | .contributing i b => if i = m.cell then some (contributingSet t m.mark b) else none
  | _ => none

/-- What the monitor is told by an update of `s`. -/
def ContribMonitor.heard (m : ContribMonitor N V) (srt : Sorter) (ord : List Nat) (s : Sheet N V) : List (Dict N V) :=
  match update srt ord s with
  | (.ok ev, _) => ev.filterMap (m.told (updateMid srt ord s).2)
  | _ => []

/-- A connection made by `monitor_enabled`. -/
structure EnabledMonitor where
  cell : Nat
  touch : Bits

/-- The touch set: `none` when a name is not that of an input. models: source/adam.cpp:938-946. -/
def touchSet (s : Sheet N V) : List N → Option Bits
  | [] => some 0
  | n :: l => match s.inputIndex.find n with
      | none => none
      | some i => (touchSet s l).map fun b => Bits.single i ||| b

/-- models: source/adam.cpp:929-958 `monitor_enabled`: what the monitor is told at once, and the connection; `none` when it throws. -/
def monitorEnabled (s : Sheet N V) (n : N) (touch : List N) : Option (Bool × EnabledMonitor) :=
  match s.inputIndex.find n with
  | none => none
  | some i => (touchSet s touch).map fun t =>
      (s.active.testBit i || (s.valueAccessed.testBit i && decide (t &&& s.priorityAccessed ≠ 0)), ⟨i, t⟩)

/-- models: source/adam.cpp:429-454 `enabled_filter`; `t` is the sheet in the middle of the update: the members `priority_accessed_m` and
`active_m` are assigned after the notification. -/
def EnabledMonitor.told (m : EnabledMonitor) (t : Sheet N V) : Event N V → Option Bool
  | .enabled pa active =>
      let newTouch := pa &&& m.touch
      let oldTouch := t.priorityAccessed &&& m.touch
      if newTouch ^^^ oldTouch = 0 ∧ t.active.testBit m.cell = active.testBit m.cell then none
      else some (active.testBit m.cell || (t.valueAccessed.testBit m.cell && decide (newTouch ≠ 0)))
  | _ => none

/-- What the monitor is told by an update of `s`. -/
def EnabledMonitor.heard (m : EnabledMonitor) (srt : Sorter) (ord : List Nat) (s : Sheet N V) : List Bool :=
  match update srt ord s with
  | (.ok ev, _) => ev.filterMap (m.told (updateMid srt ord s).2)
  | _ => []

end Verif.Adam
