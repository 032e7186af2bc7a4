import Verif.Xml.Model
/-!
Model of xstring: the glossary (`context_frame_t`), marker replacement (`replacement_engine_t`), lookup and contexts; source/xstring.cpp and
adobe/xstring.hpp, on top of the models of the XML parser (component Xml) and of attribute sets (XmlAttr).

Simplifications:
* memory does not change: the text of the glossary, of the xstring and of the markers are ranges in it; the static texts `xstr`, `marker` and
  `id` are too (`Lib`);
* `std::multimap` is a list in its order, with the contracts of `insert` and `equal_range`;
* reading an attribute does not go outside of the vector (proved: C89), which is why `lookup` is taken with a default;
* a build with `NDEBUG`: asserts are not checked, and a lookup does not add to the glossary;
* `xstr_once` has been called (`marker_parse` does not call it: without any call of it before, it would dereference a null pointer);
* thread-local storage is one frame; line positions, `parsed_m` (which is false whenever it is read) and the string pool are left out;
* what a glossary parse that throws has stored before it throws is given as an argument.
-/
namespace Verif.XString
open Verif.XmlAttr (Mem Tok Attr tokenRangeEqual tokenRangeLess)
open Verif.Xml (Call Cfg St R)

/-- Memory, the entities, and `xstr_tag_g`, `marker_tag_g`, `attribute_id_g`.  models: source/xstring.cpp:41-43. -/
structure Lib where
  mem : Mem
  byName : List Entity.Entry
  xstr : Tok
  marker : Tok
  id : Tok

/-- models: adobe/xstring.hpp:42-48 `xstring_preorder_predicate`. -/
def Lib.pred (L : Lib) (t : Tok) : Bool := tokenRangeEqual L.mem t L.xstr || tokenRangeEqual L.mem t L.marker

/-- models: adobe/xstring.hpp:90-91: a value of `store_t`. -/
structure Entry where
  key : Tok
  attrs : List Attr
  value : Tok
  deriving DecidableEq

abbrev Glossary := List Entry

/-- models: `std::multimap::insert` ([associative.reqmts]): after the elements with equivalent keys. -/
def insertEntry (L : Lib) (e : Entry) : Glossary → Glossary
  | [] => [e]
  | x :: xs => if tokenRangeLess L.mem e.key x.key then e :: x :: xs else x :: insertEntry L e xs

/-- models: adobe/xstring.hpp:127-129 `range_for_key`: `std::multimap::equal_range`. -/
def rangeForKey (L : Lib) (g : Glossary) (key : Tok) : List Entry :=
  (g.dropWhile fun x => tokenRangeLess L.mem x.key key).takeWhile fun x => !tokenRangeLess L.mem key x.key

/-- models: source/xstring.cpp:386 `attribute_set[*attribute_id_g]`. -/
def idOf (L : Lib) (attrs : List Attr) : Tok := (XmlAttr.lookup L.mem attrs L.id).getD .null

/-- models: source/xstring.cpp:174-189 `exact_match_exists`.  `std::equal_to<element_t>` does not find the `operator==` of
adobe/xstring.hpp:165-167, which is in a namespace that is not associated with `element_t`: the one of `std::pair` compares the pointers of the
values. -/
def exactMatch (L : Lib) (g : Glossary) (attrs : List Attr) (value : Tok) : Option Entry :=
  (rangeForKey L g (idOf L attrs)).find? fun x => XmlAttr.equal L.mem attrs x.attrs && decide (value = x.value)

/-- models: source/xstring.cpp:203-261 `store`, without `copy`: the glossary and the element. -/
def store (L : Lib) (g : Glossary) (key : Tok) (attrs : List Attr) (value : Tok) : Glossary × Entry :=
  match exactMatch L g attrs value with
  | some e => (g, e)
  | none => (insertEntry L ⟨key, attrs, value⟩ g, ⟨key, attrs, value⟩)

/-- What a call of `xml_xstr_store` does to the glossary. models: source/xstring.cpp:381-388. -/
def storeCall (L : Lib) (g : Glossary) (k : Call) : Glossary :=
  if tokenRangeEqual L.mem k.name L.xstr then (store L g (idOf L k.attrs) k.attrs k.value).1 else g

/-- models: source/xstring.cpp:375-392 `xml_xstr_store`, with the glossary `g` before the first call. -/
def storeCfg (L : Lib) (g : Glossary) : Cfg where
  mem := L.mem
  byName := L.byName
  pred := L.pred
  callback cs k :=
    if tokenRangeEqual L.mem k.name L.xstr then some (store L (cs.foldl (storeCall L) g) (idOf L k.attrs) k.attrs k.value).2.value
    else some k.entire

/-- models: adobe/xstring.hpp:311-325 `glossary_parse`: the new glossary. -/
def glossaryParse (L : Lib) (n : Nat) (g : Glossary) (slurp : Tok) : R Unit Glossary :=
  if slurp.size = 0 then .ok g ()
  else
    match Xml.parseElementSequence (storeCfg L g) n (St.new slurp) with
    | .ok _ s => .ok (s.calls.foldl (storeCall L) g) ()
    | .throw => .throw
    | .ub => .ub
    | .stuck => .stuck

/-- models: source/xstring.cpp:473-479 `marker_t`. -/
structure Marker where
  attrs : List Attr
  value : Tok

/-- models: source/xstring.cpp:622-623: `adobe::find(marker_set_m, …)`, with `operator==`, 483-487. -/
def findMarker (L : Lib) (ms : List Marker) (attrs : List Attr) : Option Marker := ms.find? fun m => XmlAttr.equal L.mem m.attrs attrs

/-- The id after a call of `xstr_id_harvest`: the test for an empty id subtracts an iterator from itself and always holds.
models: source/xstring.cpp:587-589. -/
def harvestCall (L : Lib) (id : Tok) (k : Call) : Tok :=
  if tokenRangeEqual L.mem k.name L.xstr then idOf L k.attrs else id

/-- models: source/xstring.cpp:581-592 `xstr_id_harvest`. -/
def harvestCfg (L : Lib) : Cfg := ⟨L.mem, L.byName, L.pred, fun _ _ => some .null⟩

/-- models: source/xstring.cpp:509-520 the constructor from an xstring: the id. -/
def harvest (L : Lib) (n : Nat) (xstr : Tok) : R Unit Tok :=
  match Xml.parseContent (harvestCfg L) n (St.new xstr) with
  | .ok _ s => .ok (s.calls.foldl (harvestCall L) .null) ()
  | .throw => .throw
  | .ub => .ub
  | .stuck => .stuck

/-- models: source/xstring.cpp:594-610 `marker_parse`. -/
def markerCfg (L : Lib) : Cfg :=
  ⟨L.mem, L.byName, L.pred, fun _ k => if tokenRangeEqual L.mem k.name L.marker then some .null else some k.entire⟩

def markerCall (L : Lib) (ms : List Marker) (k : Call) : List Marker :=
  if tokenRangeEqual L.mem k.name L.marker then ms ++ [⟨k.attrs, k.value⟩] else ms

/-- models: source/xstring.cpp:522-531 `add_marker`. -/
def addMarker (L : Lib) (n : Nat) (ms : List Marker) (marker : Tok) : R Unit (List Marker) :=
  match Xml.parseContent (markerCfg L) n (St.new marker) with
  | .ok _ s => .ok (s.calls.foldl (markerCall L) ms) ()
  | .throw => .throw
  | .ub => .ub
  | .stuck => .stuck

/-- The score after a call of `candidate_parse`. models: source/xstring.cpp:618-633. -/
def scoreCall (L : Lib) (ms : List Marker) (score : Int) (k : Call) : Int :=
  if tokenRangeEqual L.mem k.name L.marker then
    if score = -1 then -1
    else match findMarker L ms k.attrs with
      | some _ => score + 1
      | none => -1
  else score

/-- models: source/xstring.cpp:612-642 `candidate_parse`. -/
def candidateCfg (L : Lib) (ms : List Marker) : Cfg where
  mem := L.mem
  byName := L.byName
  pred := L.pred
  callback cs k :=
    if tokenRangeEqual L.mem k.name L.marker then
      if cs.foldl (scoreCall L ms) 0 = -1 then some .null
      else match findMarker L ms k.attrs with
        | some m => some m.value
        | none => some .null
    else some .null

/-- models: source/xstring.cpp:544-556: a candidate: its score and text. -/
def candidate (L : Lib) (n : Nat) (ms : List Marker) (value : Tok) : R Unit (Int × List Nat) :=
  match Xml.parseContent (candidateCfg L ms) n (St.new value) with
  | .ok _ s => .ok (s.calls.foldl (scoreCall L ms) 0, s.out) ()
  | .throw => .throw
  | .ub => .ub
  | .stuck => .stuck

/-- models: source/xstring.cpp:543-563, the loop of `run`: `score_m` and `result_m`. -/
def runLoop (L : Lib) (n : Nat) (ms : List Marker) : List Entry → Int → List Nat → R Unit (Int × List Nat)
  | [], score, result => .ok (score, result) ()
  | e :: es, score, result =>
    match candidate L n ms e.value with
    | .ok (s, t) _ => if score < s then runLoop L n ms es s t else runLoop L n ms es score result
    | .throw => .throw
    | .ub => .ub
    | .stuck => .stuck

/-- models: source/xstring.cpp:533-578 `run`; an exception of the parser and "no viable candidates" are both `throw`. -/
def run (L : Lib) (n : Nat) (g : Glossary) (ms : List Marker) (id : Tok) : R Unit (List Nat) :=
  match runLoop L n ms (rangeForKey L g id) (-1) [] with
  | .ok (score, result) _ => if score < 0 then .throw else .ok result ()
  | .throw => .throw
  | .ub => .ub
  | .stuck => .stuck

/-- models: source/xstring.cpp:666-667, 688-689: the markers. -/
def addMarkers (L : Lib) (n : Nat) : List Marker → List Tok → R Unit (List Marker)
  | ms, [] => .ok ms ()
  | ms, t :: ts =>
    match addMarker L n ms t with
    | .ok ms _ => addMarkers L n ms ts
    | .throw => .throw
    | .ub => .ub
    | .stuck => .stuck

/-- models: source/xstring.cpp:684-692, 674-680 `xstring_replace` with an id. -/
def replaceId (L : Lib) (n : Nat) (g : Glossary) (id : Tok) (markers : List Tok) : R Unit (List Nat) :=
  match addMarkers L n [] markers with
  | .ok ms _ => run L n g ms id
  | .throw => .throw
  | .ub => .ub
  | .stuck => .stuck

/-- models: source/xstring.cpp:652-670 `xstring_replace` with an xstring. -/
def replace (L : Lib) (n : Nat) (g : Glossary) (xstr : Tok) (markers : List Tok) : R Unit (List Nat) :=
  match harvest L n xstr with
  | .ok id _ => replaceId L n g id markers
  | .throw => .throw
  | .ub => .ub
  | .stuck => .stuck

/-- models: source/xstring.cpp:325-334 `closest_match`: the search is disabled, and the end of the glossary is returned. -/
def closestMatch (_range : List Entry) (_searching : List Attr) : Option Entry := none

/-- models: source/xstring.cpp:396-434 `xml_xstr_lookup`, with the attributes and the glossary of the frame. -/
def xstrLookup (L : Lib) (attrs : List Attr) (g : Glossary) (k : Call) : Tok :=
  if tokenRangeEqual L.mem k.name L.xstr then
    let merged := XmlAttr.merge L.mem k.attrs attrs
    match closestMatch (rangeForKey L g (idOf L merged)) merged with
    | none => k.value
    | some e => e.value
  else k.entire

/-- models: adobe/xstring.hpp:139-149 `element_handler` with adobe/xml_parser.hpp:593-599 `xml_element_strip`; `handler`: `predicate_m` and
`callback_m`, if they have been set; and 191-196, the parser. -/
def lookupCfg (L : Lib) (attrs : List Attr) (g : Glossary) (handler : Option ((Tok → Bool) × (Call → Tok))) : Cfg where
  mem := L.mem
  byName := L.byName
  pred _ := true
  callback _ k :=
    if L.pred k.name then some (xstrLookup L attrs g k)
    else match handler with
      | some (p, f) => if p k.name then some (f k) else some k.value
      | none => some k.value

/-- models: adobe/xstring.hpp:187-200, 232-240 `xstring`. -/
def xstring (L : Lib) (n : Nat) (attrs : List Attr) (g : Glossary) (handler : Option ((Tok → Bool) × (Call → Tok))) (xstr : Tok) : R Unit (List Nat) :=
  match Xml.parseContent (lookupCfg L attrs g handler) n (St.new xstr) with
  | .ok _ s => .ok s.out ()
  | .throw => .throw
  | .ub => .ub
  | .stuck => .stuck

/-- models: adobe/xstring.hpp:153-160, the frame of the thread; `handler` is a name for the functions set. -/
structure Frame where
  attrs : List Attr
  glossary : Glossary
  predicate : Option Nat
  callback : Option Nat
  slurp : Tok

/-- Outcome of a constructor: the frame is also there when it throws. -/
inductive Out where
  | ok (f : Frame)
  | throw (f : Frame)
  | ub
  | stuck

/-- models: adobe/xstring.hpp:262-298, the constructors of `xstring_context_t`, without the saving of the frame; `slurp`: `none` for the one
without text; `part`: what is stored by a parse that throws. -/
def enter (L : Lib) (n : Nat) (f : Frame) (as : List Attr) (slurp : Option Tok) (part : Glossary) : Out :=
  let f := { f with attrs := (XmlAttr.insertAll L.mem f.attrs as).getD [] }
  match slurp with
  | none => .ok f
  | some t =>
    let f := { f with slurp := t }
    match glossaryParse L n f.glossary t with
    | .ok g _ => .ok { f with glossary := g }
    | .throw => .throw { f with glossary := part }
    | .ub => .ub
    | .stuck => .stuck

/-- models: adobe/xstring.hpp:308 `~xstring_context_t`, with 109-120 `operator=`: `slurp_m` is not assigned. -/
def leave (f back : Frame) : Frame := { back with slurp := f.slurp }

/-- What a client does with contexts: constructs one, destroys the one constructed last, or sets a function. -/
inductive Op where
  | enter (as : List Attr) (slurp : Option Tok) (part : Glossary)
  | leave
  | setPredicate (p : Nat)
  | setHandler (p : Nat)

/-- models: adobe/xstring.hpp:262-308: the frame of the thread, and the frames saved in the contexts there are (`back_frame_m`), the last one
first; `false`: the constructor has thrown, and there is no context to be destroyed. -/
def stepOp (L : Lib) (n : Nat) (f : Frame) (saved : List Frame) : Op → Option (Bool × Frame × List Frame)
  | .enter as slurp part =>
    match enter L n f as slurp part with
    | .ok f' => some (true, f', f :: saved)
    | .throw f' => some (false, f', saved)
    | .ub => none
    | .stuck => none
  | .leave =>
    match saved with
    | [] => none
    | back :: saved => some (true, leave f back, saved)
  | .setPredicate p => some (true, { f with predicate := some p }, saved)
  | .setHandler p => some (true, { f with callback := some p }, saved)

/-- Operations one after the other, as long as none throws. -/
def runOps (L : Lib) (n : Nat) : List Op → Frame → List Frame → Option (Frame × List Frame)
  | [], f, saved => some (f, saved)
  | o :: os, f, saved =>
    match stepOp L n f saved o with
    | some (true, f', saved') => runOps L n os f' saved'
    | _ => none

end Verif.XString
