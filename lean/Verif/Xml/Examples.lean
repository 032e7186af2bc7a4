import Verif.Xml.Props
/-!
Cases that meet the hypotheses of C91–C95.
-/
namespace Verif.Xml
open Verif.Xml.Spec
open Verif.XmlAttr (Mem Tok Attr)

/-- C91_token: `b="c"` inside of a tag, and outside of one. -/
example : parseToken true [98, 61, 34, 99, 34] = .tok .name 0 1 1 ∧ parseToken true [34, 99, 34, 62] = .tok .attValue 1 1 3 ∧
    parseToken false [98, 61, 34, 99, 34] = .tok .charData 0 5 5 := by decide +kernel

example : LexError true [34, 99, 60] := .attValue 34 [99] 60 [] (.inl rfl) (by simp [IsValue]) (.inl rfl)

example : LexError false [60, 33, 45, 45, 97, 45, 45, 98, 45, 45, 62] := by
  refine ((C91_token false (by simp)).2.1).mp ?_
  decide +kernel

/-- C91_progress: a value without its second quote. -/
example : parseToken true [34, 99] = .tok .attValue 1 1 3 := by decide +kernel

/-- `x<d/>` with the head `a b="c"` around it. -/
def head0 : Head := ⟨[], [97], [⟨[32], [98], [], [], 34, [99]⟩], []⟩
def item0 : Item := .elem head0 (.cons [120] (.empty ⟨[], [100], [], []⟩) (.nil [])) [] []
def text0 : List Nat := [60, 97, 32, 98, 61, 34, 99, 34, 62, 120, 60, 100, 47, 62, 60, 47, 97, 62]

theorem text0_eq : text0 = item0.render := by decide +kernel

theorem name1 {n : Nat} (h : NameStart n) : IsName [n] := ⟨⟨n, [], rfl, h⟩, by simp [NameChar, h]⟩

theorem chars_nil : IsChars [] := ⟨by simp, by simp, by simp⟩

theorem head0_ok : head0.Ok :=
  ⟨by simp [Blank, head0], name1 (by simp [NameStart]),
    by
      intro a ha
      simp only [head0, List.mem_cons, List.not_mem_nil, or_false] at ha
      subst ha
      exact ⟨by simp [Blank, White], name1 (by simp [NameStart]), by simp [Blank], by simp [Blank], .inl rfl, by simp [IsValue]⟩,
    by
      intro a as h
      simp only [head0, List.cons.injEq] at h
      rw [← h.1]; simp,
    by simp [Blank, head0]⟩

theorem headd_ok : (Head.mk [] [100] [] []).Ok :=
  ⟨by simp [Blank], name1 (by simp [NameStart]), by simp, by simp, by simp [Blank]⟩

theorem item0_ok : item0.Ok :=
  ⟨head0_ok, ⟨⟨by simp, by simp, by simp⟩, headd_ok, chars_nil⟩, trivial, by simp [Blank], by simp [Blank]⟩

/-- C92_content, C95_verbatim: the hypotheses are met with this element, for any client that gives back its elements. -/
example : ∃ cs, Gives (parseContent (client false text0)) (at8 text0) text0 cs := by
  have := C95_verbatim (c := client false text0) (x := .cons [] item0 (.nil [])) (a := 8) (last := 8 + text0.length)
    (fun _ _ => rfl) (by omega) (by decide +kernel) ⟨chars_nil, item0_ok, chars_nil⟩ ⟨⟨⟨trivial, trivial⟩, rfl, rfl⟩, trivial⟩ (.inl rfl)
  rwa [show (Content.cons [] item0 (.nil [])).render = text0 by decide +kernel] at this

/-- … and what it gives: one call, for the empty element inside. -/
example : Gives (parseContent (client false text0)) (at8 text0) text0 [⟨⟨18, 22⟩, ⟨19, 20⟩, [], .null⟩] :=
  .of (content_mono _) 40 (by decide +kernel)

/-- C95_value_range_partial: the same element as a preorder element: one call with its attributes and its content. -/
example : Gives (parseContent (client true text0)) ⟨8, 8 + text0.length⟩ text0
    [⟨⟨8, 26⟩, ⟨9, 10⟩, [(⟨11, 12⟩, ⟨14, 15⟩)], ⟨17, 22⟩⟩] := by
  have := C95_value_range_partial (c := client true text0) (h := head0) (x := .cons [120] (.empty ⟨[], [100], [], []⟩) (.nil []))
    (w1 := []) (w2 := []) (a := 8) (last := 8 + text0.length) (fun _ _ => rfl) (by omega) (by omega) (by decide +kernel) item0_ok rfl
    ⟨rfl, trivial⟩
  have e : (Item.elem head0 (.cons [120] (.empty ⟨[], [100], [], []⟩) (.nil [])) [] []).render = text0 := by decide +kernel
  rw [e] at this
  refine Eq.mp (congrArg _ ?_) this
  decide +kernel

/-- C92_document, C93_document: `<?x?> <a b="c">x<d/></a>`. -/
example : Gives (parseDocument (client false [60, 63, 120, 63, 62, 32, 60, 97, 32, 98, 61, 34, 99, 34, 62, 120, 60, 100, 47, 62, 60, 47, 97, 62])) (at8 [60, 63, 120, 63, 62, 32, 60, 97, 32, 98, 61, 34, 99, 34, 62, 120, 60, 100, 47, 62, 60, 47, 97, 62]) text0
    [⟨⟨24, 28⟩, ⟨25, 26⟩, [], .null⟩] := by
  have hid : Identity (client false [60, 63, 120, 63, 62, 32, 60, 97, 32, 98, 61, 34, 99, 34, 62, 120, 60, 100, 47, 62, 60, 47, 97, 62]) := fun _ _ => rfl
  have h := ItemSem.elem (c := client false [60, 63, 120, 63, 62, 32, 60, 97, 32, 98, 61, 34, 99, 34, 62, 120, 60, 100, 47, 62, 60, 47, 97, 62]) (a := 14) (h := head0) (w1 := []) (w2 := []) (cs := []) rfl
    (ContentSem.cons (t := [120]) (ItemSem.empty (h := ⟨[], [100], [], []⟩) rfl (hid _ _)) (ContentSem.nil (t := [])))
  have g := C92_document (c := client false [60, 63, 120, 63, 62, 32, 60, 97, 32, 98, 61, 34, 99, 34, 62, 120, 60, 100, 47, 62, 60, 47, 97, 62]) (a := 8) (last := 32) (p := [60, 63, 120, 63, 62, 32]) (r := []) (i := item0)
    (by omega) (by decide +kernel)
    (.pi (t := []) (body := [120]) (ws := [32])
      ⟨chars_nil, by simp, fun _ => .inr ⟨_, _, _, _, .pi [120] _ (by simp [IsPI, List.infix_cons_iff]), by simp⟩⟩
      (by simp [Bom16]) (by simp [IsPI, List.infix_cons_iff]) (by simp [Blank, White])
      (by rw [show item0.render ++ [] = text0 by decide +kernel]; intro d r' h; cases h; simp [White]))
    item0_ok (by simp [item0, Item.head?]) (by intro h; cases h) h
  exact g

/-- C92_sequence, C93_sequence: `<a/> <b>y</b>`. -/
example : Gives (parseElementSequence (client false [60, 97, 47, 62, 32, 60, 98, 62, 121, 60, 47, 98, 62])) (at8 [60, 97, 47, 62, 32, 60, 98, 62, 121, 60, 47, 98, 62]) [60, 97, 47, 62, 60, 98, 62, 121, 60, 47, 98, 62] [⟨⟨8, 12⟩, ⟨9, 10⟩, [], .null⟩] :=
  .of sequence_mono 40 (by decide +kernel)

example : SeqSem (client false [60, 97, 47, 62, 32, 60, 98, 62, 121, 60, 47, 98, 62]) 8 [60, 97, 47, 62, 32, 60, 98, 62, 121, 60, 47, 98, 62] [] [60, 97, 47, 62, 60, 98, 62, 121, 60, 47, 98, 62] [⟨⟨8, 12⟩, ⟨9, 10⟩, [], .null⟩] := by
  have hg : Gives (parseElementSequence (client false [60, 97, 47, 62, 32, 60, 98, 62, 121, 60, 47, 98, 62])) (at8 [60, 97, 47, 62, 32, 60, 98, 62, 121, 60, 47, 98, 62]) [60, 97, 47, 62, 60, 98, 62, 121, 60, 47, 98, 62] [⟨⟨8, 12⟩, ⟨9, 10⟩, [], .null⟩] :=
    .of sequence_mono 40 (by decide +kernel)
  obtain ⟨n, h⟩ := hg
  obtain ⟨s, e, ho, hc⟩ := h n (Nat.le_refl n)
  have := (C93_sequence e).2
  rw [ho, hc] at this
  exact this

/-- C94_ends_partial: both kinds of client that replace no elements; and a text with no quote. -/
example (l : List Nat) : NoRewrite (client true l) := .inr fun _ _ _ h => (Option.some.inj h).symm

example : NoRewrite ⟨page 8 text0, [], fun _ => false, fun _ _ => some ⟨8, 9⟩⟩ := .inl fun _ => rfl

example (l : List Nat) (h : ∀ x ∈ l, ¬ Quote x) : ¬ OpenValue l := by
  rintro ⟨p, t, v, rfl, ht, _⟩
  exact h t (by simp) ht

/-- C94_rounds: two elements take fewer than 40 rounds. -/
example : parseContent (client false text0) 40 (St.new (at8 text0)) ≠ .stuck := by
  intro h
  have : look (parseContent (client false text0) 40 (St.new (at8 text0))) = some (some (text0, [⟨⟨18, 22⟩, ⟨19, 20⟩, [], .null⟩])) := by
    decide +kernel
  rw [h] at this
  cases this

/-- A client that replaces preorder elements: `<a/>` by the text at address 100, which is parsed in its place. -/
example : Gives (parseContent ⟨fun p => if p < 50 then page 8 [117, 60, 97, 47, 62, 118] p else page 100 [60, 98, 62, 119, 60, 47, 98, 62] p, [],
    fun t => t.first == 10, fun _ k => if k.name.first = 10 then some ⟨100, 108⟩ else some k.entire⟩) ⟨8, 14⟩
    [117, 60, 98, 62, 119, 60, 47, 98, 62, 118] [⟨⟨9, 13⟩, ⟨10, 11⟩, [], .null⟩] :=
  .of (content_mono _) 40 (by decide +kernel)

end Verif.Xml
