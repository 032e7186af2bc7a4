import Verif.XString.Violated
import Verif.Xml.Examples
/-! Cases that meet the hypotheses of C119 and C120. -/
namespace Verif.XString
open Verif.XmlAttr (Mem Tok Attr)
open Verif.Xml (Call Cfg St R Here chars_nil)
open Verif.Xml.Spec
open Spec

/-- `<xstr id='p'>Hi <marker n='1'/>!</xstr>` and another entry with fewer markers. -/
def text1 : String := "<xstr id='p'>Hi!</xstr><xstr id='p'>Hi <marker n='1'/>!</xstr>"
def mark1 : String := "<marker n='1'>Bob</marker>"
def lib1 : Lib := lib [(100, text1), (200, "p"), (300, mark1)]

def xhead : Head := ⟨[], bytes "xstr", [⟨[32], bytes "id", [], [], 39, bytes "p"⟩], []⟩
def mhead : Head := ⟨[], bytes "marker", [⟨[32], bytes "n", [], [], 39, bytes "1"⟩], []⟩
def hi1 : Content := .nil (bytes "Hi!")
def hi2 : Content := .cons (bytes "Hi ") (.empty mhead) (.nil (bytes "!"))
def seq1 : List (Item × List Nat) := [(.elem xhead hi1 [] [], []), (.elem xhead hi2 [] [], [])]
def mcontent : Content := .cons [] (.elem mhead (.nil (bytes "Bob")) [] []) (.nil [])

theorem isName_of {l : List Nat} (c : Nat) (r : List Nat) (h : l = c :: r) (h1 : 97 ≤ c ∧ c ≤ 122) (h2 : ∀ x ∈ l, 97 ≤ x ∧ x ≤ 122) : IsName l :=
  ⟨⟨c, r, h, .inr (.inl h1)⟩, fun x hx => .inl (.inr (.inl (h2 x hx)))⟩

theorem xhead_ok : xhead.Ok :=
  ⟨by simp [Blank, xhead], isName_of 120 _ rfl (by omega) (by decide +kernel),
    by
      intro a ha
      simp only [xhead, List.mem_cons, List.not_mem_nil, or_false] at ha
      subst ha
      exact ⟨by simp [Blank, White], isName_of 105 _ rfl (by omega) (by decide +kernel), by simp [Blank], by simp [Blank], .inr rfl,
        by intro c hc; revert c; decide +kernel⟩,
    by
      intro a as h
      simp only [xhead, List.cons.injEq] at h
      rw [← h.1]; simp,
    by simp [Blank, xhead]⟩

theorem mhead_ok : mhead.Ok :=
  ⟨by simp [Blank, mhead], isName_of 109 _ rfl (by omega) (by decide +kernel),
    by
      intro a ha
      simp only [mhead, List.mem_cons, List.not_mem_nil, or_false] at ha
      subst ha
      exact ⟨by simp [Blank, White], isName_of 110 _ rfl (by omega) (by decide +kernel), by simp [Blank], by simp [Blank], .inr rfl,
        by intro c hc; revert c; decide +kernel⟩,
    by
      intro a as h
      simp only [mhead, List.cons.injEq] at h
      rw [← h.1]; simp,
    by simp [Blank, mhead]⟩

theorem chars_of {l : List Nat} (h : ∀ c ∈ l, c ≠ 60 ∧ c ≠ 38 ∧ c ≠ 62 ∧ c ≠ 47) : IsChars l := by
  refine ⟨fun c hc => ⟨(h c hc).1, (h c hc).2.1⟩, ?_, ?_⟩
  · rintro ⟨r, rfl⟩; exact (h 62 (by simp)).2.2.1 rfl
  · rintro ⟨r, rfl⟩; exact (h 62 (by simp)).2.2.1 rfl

theorem hi1_ok : hi1.Ok := chars_of (by decide +kernel)
theorem hi2_ok : hi2.Ok := ⟨chars_of (by decide +kernel), mhead_ok, chars_of (by decide +kernel)⟩

theorem seq1_ok : SeqOk seq1 := by
  intro q hq
  simp only [seq1, List.mem_cons, List.not_mem_nil, or_false] at hq
  rcases hq with rfl | rfl
  · exact ⟨⟨xhead_ok, hi1_ok, trivial, by simp [Blank], by simp [Blank]⟩, by simp [Item.head?], chars_nil⟩
  · exact ⟨⟨xhead_ok, hi2_ok, trivial, by simp [Blank], by simp [Blank]⟩, by simp [Item.head?], chars_nil⟩

theorem all1 : (seq1.flatMap fun q => allItem lib1.mk' lib1.xs q.1) = [(xhead, hi1), (xhead, hi2)] := by
  have h1 : xhead.name = lib1.xs := by decide +kernel
  have h2 : ¬ mhead.name = lib1.xs := by decide +kernel
  simp [seq1, allItem, allContent, hi1, hi2, h1, h2]

/-- C120_glossary_partial: the hypotheses are met, and what it says. -/
theorem glossary1 : ∃ n0 g', (∀ n, n0 ≤ n → glossaryParse lib1 n [] (tok 100 text1) = .ok g' ()) ∧
    List.Forall₂ (fun e x => Reads lib1.mem e.value x) (rangeForKey lib1 g' (tok 200 "p")) [hi1, hi2] := by
  obtain ⟨n0, g', h1, h2⟩ := C120_glossary_partial (L := lib1) (g := []) .empty (t := tok 100 text1) (ss := seq1) (by decide +kernel)
    (by decide +kernel) (by decide +kernel) seq1_ok (by
      rw [all1]
      intro s hs
      simp only [List.mem_cons, List.not_mem_nil, or_false] at hs
      rcases hs with rfl | rfl
      · exact ⟨by decide +kernel, trivial⟩
      · exact ⟨by decide +kernel, rfl, trivial⟩) (by simp)
  refine ⟨n0, g', h1, ?_⟩
  obtain ⟨new, h3, h4⟩ := h2 (tok 200 "p")
  rw [all1] at h4
  rw [h3]
  have e : rangeForKey lib1 [] (tok 200 "p") = [] := rfl
  rw [e, List.nil_append]
  have e2 : (([(xhead, hi1), (xhead, hi2)] : List (Head × Content)).filter fun s => (lastAtt s.1.atts (lib1.id.text lib1.mem)).getD [] = (tok 200 "p").text lib1.mem).map (·.2) = [hi1, hi2] := by
    have : (lastAtt xhead.atts (lib1.id.text lib1.mem)).getD [] = (tok 200 "p").text lib1.mem := by decide +kernel
    simp [this]
  rw [e2] at h4
  exact h4

theorem mname : mhead.name = lib1.mk' := by decide +kernel

theorem given1 : given lib1 [mcontent] = [(mhead, .nil (bytes "Bob"))] := by
  simp [given, mcontent, outer, outerItem, named, mname]

theorem marker1 : MarkerText lib1 (tok 300 mark1) mcontent := by
  refine ⟨by decide +kernel, ⟨by decide +kernel, by decide +kernel, ⟨chars_nil, ⟨mhead_ok, chars_of (by decide +kernel), trivial, by simp [Blank], by simp [Blank]⟩, chars_nil⟩⟩, ?_⟩
  intro s hs
  have : (outer lib1.mk' lib1.xs mcontent).filterMap (named lib1.mk') = [(mhead, .nil (bytes "Bob"))] := by
    simpa [given] using given1
  rw [this] at hs
  simp only [List.mem_cons, List.not_mem_nil, or_false] at hs
  subst hs
  exact ⟨trivial, trivial⟩

/-- C119_replace_id: the entry with the marker is taken, and the marker replaced. -/
example : ∃ n0 g', (∀ n, n0 ≤ n → glossaryParse lib1 n [] (tok 100 text1) = .ok g' ()) ∧ ∃ n1, ∀ n, n1 ≤ n →
    replaceId lib1 n g' (tok 200 "p") [tok 300 mark1] = .ok (bytes "Hi Bob!") () := by
  obtain ⟨n0, g', h1, h2⟩ := glossary1
  refine ⟨n0, g', h1, ?_⟩
  have hn : ¬ mhead.name = lib1.xs := by decide +kernel
  have hm1 : marks lib1.mk' lib1.xs hi1 = [] := by simp [marks, hi1, outer]
  have hm2 : marks lib1.mk' lib1.xs hi2 = [mhead] := by simp [marks, hi2, outer, outerItem, named, mname]
  have hp : pick (given lib1 [mcontent]) mhead = some (.nil (bytes "Bob")) := by
    rw [given1]
    have : sameAtts mhead.atts mhead.atts = true := by decide +kernel
    simp [pick, this]
  have hb : Best lib1.mk' lib1.xs (given lib1 [mcontent]) [hi1, hi2] hi2 :=
    ⟨[hi1], [], rfl, by simp [viable, hm2, hp], by simp [hm1, hm2], by simp⟩
  obtain ⟨n1, h3⟩ := (C119_replace_id h2 (.cons marker1 .nil)).2 hi2 hb
  refine ⟨n1, fun n hle => ?_⟩
  rw [h3 n hle]
  have : replaced lib1.byName lib1.mk' lib1.xs (given lib1 [mcontent]) hi2 = bytes "Hi Bob!" := by
    unfold replaced hi2
    simp only [fill, fillItem, mname, if_true, hp, Option.map_some, Option.getD_some, plainText]
    decide +kernel
  rw [this]

/-- … and it is what the program gives. -/
example : shown (replaceId lib1 80 (made lib1 80 [tok 100 text1] []) (tok 200 "p") [tok 300 mark1]) = some (bytes "Hi Bob!") := by decide +kernel

/-- Without the marker, the other entry. -/
example : shown (replaceId lib1 80 (made lib1 80 [tok 100 text1] []) (tok 200 "p") []) = some (bytes "Hi!") := by decide +kernel

/-- C120_lookup_partial. -/
example : ∃ n0, ∀ n, n0 ≤ n → xstring lib1 n [] [] none (tok 100 text1) = .ok (bytes "Hi!Hi <marker n='1'/>!") () := by
  have h := C120_lookup_partial (L := lib1) [] [] (by decide +kernel) (t := tok 100 text1)
    (x := .cons [] (.elem xhead hi1 [] []) (.cons [] (.elem xhead hi2 [] []) (.nil []))) (by decide +kernel)
    ⟨by decide +kernel, by decide +kernel, ⟨chars_nil, ⟨xhead_ok, hi1_ok, trivial, by simp [Blank], by simp [Blank]⟩,
      ⟨chars_nil, ⟨xhead_ok, hi2_ok, trivial, by simp [Blank], by simp [Blank]⟩, chars_nil⟩⟩⟩
    ⟨.inr ⟨trivial, trivial⟩, .inr ⟨⟨rfl, trivial⟩, trivial, trivial⟩, trivial⟩
  have e : strip lib1.byName (lib1.marker.text lib1.mem) (.cons [] (.elem xhead hi1 [] []) (.cons [] (.elem xhead hi2 [] []) (.nil []))) =
      bytes "Hi!Hi <marker n='1'/>!" := by decide +kernel
  rw [e] at h
  exact h

/-- C119_replace_xstr_partial: the text is one xstr element, with the id `p`. -/
example : ∃ id n0, id.text lib1.mem = bytes "p" ∧ ∀ n, n0 ≤ n → replace lib1 n [] ⟨100, 100 + (bytes "<xstr id='p'>Hi!</xstr>").length⟩ [] = replaceId lib1 n [] id [] := by
  have hx : xhead.name = lib1.xs := by decide +kernel
  have hxm : ¬ lib1.xs = lib1.mk' := by decide +kernel
  obtain ⟨id, n0, h1, h2⟩ := C119_replace_xstr_partial (L := lib1) (g := []) (t := ⟨100, 100 + (bytes "<xstr id='p'>Hi!</xstr>").length⟩)
    (y := .cons [] (.elem xhead hi1 [] []) (.nil [])) ⟨by decide +kernel, by decide +kernel, ⟨chars_nil, ⟨xhead_ok, hi1_ok, trivial, by simp [Blank], by simp [Blank]⟩, chars_nil⟩⟩
    (h := xhead) (x := hi1) (by simp [outer, outerItem, named, hx]) []
  exact ⟨id, n0, h1.trans (by decide +kernel), h2⟩

/-- C120_context: one context inside of another, and a function set. -/
example : Inside [.setPredicate 3, .enter [] none [], .setHandler 4, .leave] := .predicate (.context (.handler .nil) .nil)

example : (runOps lib1 80 [.enter [(tok 20 "marker", tok 200 "p")] (some (tok 100 text1)) [], .setPredicate 3, .enter [] none [], .setHandler 4, .leave, .leave]
    ⟨[], [], none, none, .null⟩ []).isSome = true := by decide +kernel

end Verif.XString
