import Verif.XString.Lookup
/-!
**C119** – marker replacement (`xstring_replace`), and **C120** – the glossary, lookup (`xstring`) and contexts.

`L` has the memory, the entities and the names `marker`, `xstr` and `id`.  The functions take a number of rounds for the parser; the theorems say
what they give with any sufficiently large number.  `Reads mem t x`: the text of the range `t` is that of the well-formed content `x`.
-/
namespace Verif.XString
open Verif.XmlAttr (Mem Tok Attr)
open Verif.Xml (Call Cfg St R Here)
open Verif.Xml.Spec
open Spec

variable {L : Lib}

/-! ### C119: replacement -/

/-- What the loop over the candidates keeps. -/
def keep (L : Lib) (M : List (Head × Content)) (b : Int × List Nat) (x : Content) : Int × List Nat :=
  if viable L.mk' L.xs M x = true ∧ b.1 < ((marks L.mk' L.xs x).length : Int) then (((marks L.mk' L.xs x).length : Int), replaced L.byName L.mk' L.xs M x) else b

theorem loop_spec {ms : List Marker} {M : List (Head × Content)} (hg : List.Forall₂ (Given L) ms M) : ∀ {es : List Entry} {xs : List Content},
    List.Forall₂ (fun e x => Reads L.mem e.value x) es xs → ∃ n0, ∀ n, n0 ≤ n → ∀ b : Int × List Nat, -1 ≤ b.1 →
      runLoop L n ms es b.1 b.2 = .ok (xs.foldl (keep L M) b) () := by
  intro es xs h
  induction h with
  | nil => exact ⟨0, fun n _ b _ => rfl⟩
  | @cons e x es xs hx _ ih =>
    obtain ⟨n1, h1⟩ := ih
    obtain ⟨n2, o, h2, h3⟩ := candidate_spec hg hx
    refine ⟨max n1 n2, fun n hn b hb => ?_⟩
    simp only [runLoop, h3 n (by omega), List.foldl_cons]
    by_cases hv : viable L.mk' L.xs M x = true
    · rw [if_pos hv, h2 hv]
      by_cases hl : b.1 < ((marks L.mk' L.xs x).length : Int)
      · rw [if_pos hl]
        have : keep L M b x = (((marks L.mk' L.xs x).length : Int), replaced L.byName L.mk' L.xs M x) := by unfold keep; rw [if_pos ⟨hv, hl⟩]
        rw [this]
        exact h1 n (by omega) (((marks L.mk' L.xs x).length : Int), replaced L.byName L.mk' L.xs M x) (by simp only; omega)
      · rw [if_neg hl]
        have : keep L M b x = b := by unfold keep; rw [if_neg (fun h => hl h.2)]
        rw [this]
        exact h1 n (by omega) b hb
    · rw [if_neg hv, if_neg (by omega)]
      have : keep L M b x = b := by unfold keep; rw [if_neg (fun h => hv h.1)]
      rw [this]
      exact h1 n (by omega) b hb

theorem keep_none {M : List (Head × Content)} {xs : List Content} (h : ∀ x ∈ xs, viable L.mk' L.xs M x = false) (b : Int × List Nat) :
    xs.foldl (keep L M) b = b := by
  induction xs with
  | nil => rfl
  | cons x xs ih =>
    have : keep L M b x = b := by unfold keep; rw [if_neg (fun h' => by rw [h x List.mem_cons_self] at h'; cases h'.1)]
    rw [List.foldl_cons, this]
    exact ih fun y hy => h y (List.mem_cons_of_mem _ hy)

theorem keep_below {M : List (Head × Content)} {xs : List Content} {m : Int} (h : ∀ x ∈ xs, viable L.mk' L.xs M x = true →
    ((marks L.mk' L.xs x).length : Int) < m) : ∀ {b : Int × List Nat}, b.1 < m → (xs.foldl (keep L M) b).1 < m := by
  induction xs with
  | nil => intro b hb; exact hb
  | cons x xs ih =>
    intro b hb
    rw [List.foldl_cons]
    refine ih (fun y hy => h y (List.mem_cons_of_mem _ hy)) ?_
    unfold keep
    split
    · rename_i h'; exact h x List.mem_cons_self h'.1
    · exact hb

theorem keep_above {M : List (Head × Content)} {xs : List Content} {b : Int × List Nat} (h : ∀ x ∈ xs, viable L.mk' L.xs M x = true →
    ((marks L.mk' L.xs x).length : Int) ≤ b.1) : xs.foldl (keep L M) b = b := by
  induction xs with
  | nil => rfl
  | cons x xs ih =>
    have : keep L M b x = b := by
      unfold keep
      rw [if_neg]
      rintro ⟨h1, h2⟩
      have := h x List.mem_cons_self h1
      omega
    rw [List.foldl_cons, this]
    exact ih fun y hy => h y (List.mem_cons_of_mem _ hy)

theorem keep_best {M : List (Head × Content)} {xs : List Content} {x : Content} (h : Best L.mk' L.xs M xs x) :
    xs.foldl (keep L M) (-1, []) = (((marks L.mk' L.xs x).length : Int), replaced L.byName L.mk' L.xs M x) := by
  obtain ⟨p, s, rfl, hv, h1, h2⟩ := h
  have hb := keep_below (L := L) (M := M) (xs := p) (m := ((marks L.mk' L.xs x).length : Int)) (fun y hy hyv => by exact_mod_cast h1 y hy hyv)
    (b := (-1, [])) (by simp only; omega)
  rw [List.foldl_append, List.foldl_cons]
  have : keep L M (p.foldl (keep L M) (-1, [])) x = (((marks L.mk' L.xs x).length : Int), replaced L.byName L.mk' L.xs M x) := by
    generalize p.foldl (keep L M) (-1, []) = b at hb
    unfold keep
    rw [if_pos ⟨hv, hb⟩]
  rw [this]
  exact keep_above fun y hy hyv => by have := h2 y hy hyv; simp only; omega

/-- **C119** – there is a candidate to be taken if and only if one is viable, and it determines the result. -/
theorem C119_best (mk xs : List Nat) (ms : List (Head × Content)) (cands : List Content) :
    ((∃ x, Best mk xs ms cands x) ↔ ∃ x ∈ cands, viable mk xs ms x = true) ∧ ∀ x y, Best mk xs ms cands x → Best mk xs ms cands y → x = y := by
  constructor
  · constructor
    · rintro ⟨x, p, s, rfl, hv, -⟩; exact ⟨x, by simp, hv⟩
    · intro h
      induction cands with
      | nil => obtain ⟨x, hx, -⟩ := h; cases hx
      | cons c cands ih =>
        by_cases hr : ∃ x ∈ cands, viable mk xs ms x = true
        · obtain ⟨x, p, s, rfl, hv, h1, h2⟩ := ih hr
          by_cases hc : viable mk xs ms c = true ∧ (marks mk xs x).length ≤ (marks mk xs c).length
          · refine ⟨c, [], p ++ x :: s, rfl, hc.1, by simp, fun y hy hyv => ?_⟩
            rcases List.mem_append.mp hy with hy | hy
            · have := h1 y hy hyv; omega
            · rcases List.mem_cons.mp hy with rfl | hy
              · exact hc.2
              · have := h2 y hy hyv; omega
          · refine ⟨x, c :: p, s, rfl, hv, fun y hy hyv => ?_, h2⟩
            rcases List.mem_cons.mp hy with rfl | hy
            · by_contra hn; exact hc ⟨hyv, by omega⟩
            · exact h1 y hy hyv
        · obtain ⟨x, hx, hv⟩ := h
          have hx : x = c := by
            rcases List.mem_cons.mp hx with e | hx
            · exact e
            · exact absurd ⟨x, hx, hv⟩ hr
          subst hx
          exact ⟨x, [], cands, rfl, hv, by simp, fun y hy hyv => absurd ⟨y, hy, hyv⟩ hr⟩
  · rintro x y ⟨p, s, e, hx, h1, h2⟩ ⟨p', s', e', hy, h1', h2'⟩
    rw [e] at e'
    rcases List.append_eq_append_iff.mp e' with ⟨z, e1, e2⟩ | ⟨z, e1, e2⟩
    · cases z with
      | nil => simp only [List.nil_append, List.cons.injEq] at e2; exact e2.1
      | cons c z =>
        simp only [List.cons_append, List.cons.injEq] at e2
        have a1 := h1' x (by rw [e1, ← e2.1]; simp) hx
        have a2 := h2 y (by rw [e2.2]; simp) hy
        omega
    · cases z with
      | nil => simp only [List.nil_append, List.cons.injEq] at e2; exact e2.1.symm
      | cons c z =>
        simp only [List.cons_append, List.cons.injEq] at e2
        have a1 := h1 y (by rw [e1, ← e2.1]; simp) hy
        have a2 := h2' x (by rw [e2.2]; simp) hx
        omega

/-- The markers given with the texts `ys`. -/
def given (L : Lib) (ys : List Content) : List (Head × Content) := ys.flatMap fun y => (outer L.mk' L.xs y).filterMap (named L.mk')

/-- **C119** – `xstring_replace` with an id: let the entries of the glossary under this id, in the order in which they were stored, be the contents
`xs`, and the texts of the markers be the contents `ys` with markers of plain text.  If no entry is viable, that is, every entry has a marker for
which no marker with the same attributes is given, it throws.  Otherwise the result is the entry with the most markers – the first such entry – with
all its markers replaced by the contents of the given markers that have the same attributes. -/
theorem C119_replace_id {g : Glossary} {id : Tok} {xs : List Content} {markers : List Tok} {ys : List Content}
    (hx : List.Forall₂ (fun e x => Reads L.mem e.value x) (rangeForKey L g id) xs) (hm : List.Forall₂ (MarkerText L) markers ys) :
    ((∀ x ∈ xs, viable L.mk' L.xs (given L ys) x = false) → ∃ n0, ∀ n, n0 ≤ n → replaceId L n g id markers = .throw) ∧
    ∀ x, Best L.mk' L.xs (given L ys) xs x → ∃ n0, ∀ n, n0 ≤ n →
      replaceId L n g id markers = .ok (replaced L.byName L.mk' L.xs (given L ys) x) () := by
  obtain ⟨n1, h1⟩ := addMarkers_spec hm
  obtain ⟨ms, hms, h2⟩ := h1 []
  obtain ⟨n2, h3⟩ := loop_spec hms hx
  have key : ∀ n, max n1 n2 ≤ n → replaceId L n g id markers =
      if (xs.foldl (keep L (given L ys)) (-1, [])).1 < 0 then .throw else .ok (xs.foldl (keep L (given L ys)) (-1, [])).2 () := by
    intro n hn
    unfold replaceId
    rw [h2 n (by omega)]
    simp only [List.nil_append]
    unfold run
    have h4 := h3 n (by omega) (-1, []) (by simp)
    change _ = R.ok (xs.foldl (keep L (given L ys)) (-1, [])) () at h4
    generalize xs.foldl (keep L (given L ys)) (-1, []) = b at h4
    obtain ⟨score, result⟩ := b
    rw [h4]
  constructor
  · intro hv
    refine ⟨max n1 n2, fun n hn => ?_⟩
    rw [key n hn, keep_none hv, if_pos (by simp)]
  · intro x hb
    refine ⟨max n1 n2, fun n hn => ?_⟩
    rw [key n hn, keep_best hb, if_neg (by simp)]

/-- **C119** – `xstring_replace` with an xstring is `xstring_replace` with the id of its `xstr` element, if it has one such element outside of
others (the empty id, if it has none). -/
theorem C119_replace_xstr_partial {g : Glossary} {t : Tok} {y : Content} (hy : Reads L.mem t y) {h : Head} {x : Content}
    (hone : (outer L.mk' L.xs y).filterMap (named L.xs) = [(h, x)]) (markers : List Tok) :
    ∃ id n0, id.text L.mem = (lastAtt h.atts (L.id.text L.mem)).getD [] ∧ ∀ n, n0 ≤ n → replace L n g t markers = replaceId L n g id markers := by
  obtain ⟨n0, id, h1, h2⟩ := harvest_spec hy
  rw [hone] at h2
  refine ⟨id, n0, h2, fun n hn => ?_⟩
  unfold replace
  rw [h1 n hn]

/-! ### C120: glossary, lookup, contexts -/

/-- **C120** – a glossary is what has been stored, by id: after any number of insertions, the entries under an id are those stored with it, in the
order of storing. -/
theorem C120_multimap (es : List Entry) (id : Tok) :
    rangeForKey L (es.foldl (fun g e => insertEntry L e g) []) id = es.filter fun e => e.key.text L.mem = id.text L.mem := by
  have : ∀ (es : List Entry) (g : Glossary), Ordered L g → Ordered L (es.foldl (fun g e => insertEntry L e g) g) ∧
      (es.foldl (fun g e => insertEntry L e g) g).filter (fun e => keyText L e = id.text L.mem) =
        g.filter (fun e => keyText L e = id.text L.mem) ++ es.filter (fun e => keyText L e = id.text L.mem) := by
    intro es
    induction es with
    | nil => intro g hg; exact ⟨hg, by simp⟩
    | cons e es ih =>
      intro g hg
      obtain ⟨h1, h2⟩ := ih _ (insert_ordered hg e)
      refine ⟨h1, ?_⟩
      rw [List.foldl_cons, h2, insert_filter hg, List.filter_cons]
      by_cases hk : keyText L e = id.text L.mem <;> simp [hk]
  obtain ⟨h1, h2⟩ := this es [] List.Pairwise.nil
  rw [range_filter h1, h2]
  rfl

/-- A glossary that can be: made by contexts from texts, each in its own memory. -/
inductive Made (L : Lib) : Glossary → Prop where
  | empty : Made L []
  | parse {g g' t n} : Made L g → glossaryParse L n g t = .ok g' () → Made L g'

theorem fold_ordered {ks : List Call} : ∀ {g : Glossary}, Ordered L g → Ordered L (ks.foldl (storeCall L) g) := by
  induction ks with
  | nil => intro g h; exact h
  | cons k ks ih =>
    intro g h
    rw [List.foldl_cons]
    refine ih ?_
    unfold storeCall store
    split
    · split
      · exact h
      · exact insert_ordered h _
    · exact h

theorem made_ordered {g : Glossary} (h : Made L g) : Ordered L g := by
  induction h with
  | empty => exact List.Pairwise.nil
  | @parse g g' t n _ hp ih =>
    unfold glossaryParse at hp
    split at hp
    · cases hp; exact ih
    · split at hp
      · cases hp; exact fold_ordered ih
      · cases hp
      · cases hp
      · cases hp

/-- **C120** – the glossary after a context has been constructed: under every id, the entries there were, followed by the `xstr` elements of the text
with this id, with their contents, in the order of the text.  The text is a sequence of elements; all of its `xstr` elements, also those inside of
other ones, have content, without comments; and the values of the entries there were are not inside of this text. -/
theorem C120_glossary_partial {g : Glossary} (hg : Made L g) {t : Tok} {ss : List (Item × List Nat)} (h0 : t.first ≠ 0) (hle : t.first ≤ t.second)
    (ht : t.text L.mem = seqRender ss) (hok : SeqOk ss) (hf : ∀ s ∈ ss.flatMap (fun q => allItem L.mk' L.xs q.1), s.2.render ≠ [] ∧ s.2.uncommented)
    (hd : ∀ e ∈ g, e.value.first ≤ t.first ∨ t.second ≤ e.value.first) :
    ∃ n0 g', (∀ n, n0 ≤ n → glossaryParse L n g t = .ok g' ()) ∧ ∀ id : Tok, ∃ new, rangeForKey L g' id = rangeForKey L g id ++ new ∧
      List.Forall₂ (fun e x => Reads L.mem e.value x) new
        (((ss.flatMap fun q => allItem L.mk' L.xs q.1).filter fun s => (lastAtt s.1.atts (L.id.text L.mem)).getD [] = id.text L.mem).map (·.2)) := by
  have ho := made_ordered hg
  obtain ⟨n0, g', new, h1, h2, h3, h4, h5, h6⟩ := glossary_spec ho h0 hle ht hok hf hd
  refine ⟨n0, g', h1, fun id => ⟨new.filter fun e => keyText L e = id.text L.mem, ?_, ?_⟩⟩
  · rw [range_filter h3, range_filter ho, h2]
  · clear h1 h2 h3 h4 h6
    generalize (ss.flatMap fun q => allItem L.mk' L.xs q.1) = l at h5
    induction h5 with
    | nil => exact .nil
    | @cons e s es l he _ ih =>
      rw [List.filter_cons, List.filter_cons, he.1]
      by_cases hk : (lastAtt s.1.atts (L.id.text L.mem)).getD [] = id.text L.mem
      · simp only [hk, decide_true, if_true, List.map_cons]
        exact .cons he.2 ih
      · simp only [hk, decide_false, Bool.false_eq_true, if_false]
        exact ih

/-- **C120** – `xstring` without an element handler: the text without its tags, but with `marker` elements as they are, with references resolved and
comments taken out.  Contents of elements have no comments. -/
theorem C120_lookup_partial (attrs : List Attr) (g : Glossary) (hne : L.marker.text L.mem ≠ L.xstr.text L.mem) {t : Tok} {x : Content}
    (h0 : t.first ≠ 0) (hx : Reads L.mem t x) (hb : bare L.mk' x) :
    ∃ n0, ∀ n, n0 ≤ n → xstring L n attrs g none t = .ok (strip L.byName (L.marker.text L.mem) x) () := by
  obtain ⟨a, last⟩ := t
  obtain ⟨cs, hs⟩ := lookup_content attrs g hne x (a := a) (last := last) (r := []) h0 [] hx.2.2 ⟨hx.1, by simpa using hx.2.1⟩ hb
  obtain ⟨n0, hn⟩ := Xml.C92_content (r := []) hx.1 (by rw [List.append_nil]; exact hx.2.1) hx.2.2 (Content.stops_nil x) hs
  refine ⟨n0, fun n hle => ?_⟩
  obtain ⟨s, e1, e2, -⟩ := hn n hle
  unfold xstring
  rw [e1]
  simp only [e2]

/-- **C120** – `xstring` is to look for the entry of the glossary that matches best, but it never finds one: its result does not depend on the
glossary or on the attributes of the context. -/
theorem C120_lookup_violated (n : Nat) (attrs attrs' : List Attr) (g g' : Glossary) (handler : Option ((Tok → Bool) × (Call → Tok))) (t : Tok) :
    xstring L n attrs g handler t = xstring L n attrs' g' handler t := rfl

/-- Sequences of operations in which the contexts are properly nested: inside of one, functions may be set. -/
inductive Inside : List Op → Prop where
  | nil : Inside []
  | predicate {p os} : Inside os → Inside (.setPredicate p :: os)
  | handler {p os} : Inside os → Inside (.setHandler p :: os)
  | context {as slurp part body os} : Inside body → Inside os → Inside (.enter as slurp part :: (body ++ .leave :: os))

theorem runOps_append (n : Nat) (os os' : List Op) (f : Frame) (saved : List Frame) :
    runOps L n (os ++ os') f saved = (runOps L n os f saved).bind fun r => runOps L n os' r.1 r.2 := by
  induction os generalizing f saved with
  | nil => rfl
  | cons o os ih =>
    simp only [List.cons_append, runOps]
    cases h : stepOp L n f saved o with
    | none => rfl
    | some r =>
      obtain ⟨b, f', saved'⟩ := r
      cases b with
      | true => exact ih f' saved'
      | false => rfl

theorem inside_saved {os : List Op} (h : Inside os) : ∀ {n : Nat} {f f' : Frame} {saved saved' : List Frame},
    runOps L n os f saved = some (f', saved') → saved' = saved := by
  induction h with
  | nil => intro n f f' saved saved' e; simp only [runOps, Option.some.injEq, Prod.mk.injEq] at e; exact e.2.symm
  | predicate _ ih => intro n f f' saved saved' e; exact ih e
  | handler _ ih => intro n f f' saved saved' e; exact ih e
  | @context as slurp part body os _ _ ih1 ih2 =>
    intro n f f' saved saved' e
    simp only [runOps] at e
    cases hs : stepOp L n f saved (.enter as slurp part) with
    | none => rw [hs] at e; cases e
    | some r =>
      obtain ⟨b, f1, s1⟩ := r
      rw [hs] at e
      cases b with
      | false => cases e
      | true =>
        simp only at e
        have hs1 : s1 = f :: saved := by
          simp only [stepOp] at hs
          split at hs <;> simp at hs
          exact hs.2.symm
        subst hs1
        rw [runOps_append] at e
        cases hb : runOps L n body f1 (f :: saved) with
        | none => rw [hb] at e; cases e
        | some q =>
          obtain ⟨f2, s2⟩ := q
          rw [hb] at e
          have := ih1 hb
          subst this
          exact ih2 e

/-- **C120** – a context that is constructed and destroyed, with whatever is done inside of it, leaves the attributes, the glossary and the functions
as they were. -/
theorem C120_context {n : Nat} {as : List Attr} {slurp : Option Tok} {part : Glossary} {body : List Op} {f f' : Frame} {saved saved' : List Frame}
    (hb : Inside body) (h : runOps L n (.enter as slurp part :: (body ++ [.leave])) f saved = some (f', saved')) :
    f'.attrs = f.attrs ∧ f'.glossary = f.glossary ∧ f'.predicate = f.predicate ∧ f'.callback = f.callback ∧ saved' = saved := by
  simp only [runOps] at h
  cases hs : stepOp L n f saved (.enter as slurp part) with
  | none => rw [hs] at h; cases h
  | some r =>
    obtain ⟨b, f1, s1⟩ := r
    rw [hs] at h
    cases b with
    | false => cases h
    | true =>
      simp only at h
      have hs1 : s1 = f :: saved := by
        simp only [stepOp] at hs
        split at hs <;> simp at hs
        exact hs.2.symm
      subst hs1
      rw [runOps_append] at h
      cases hq : runOps L n body f1 (f :: saved) with
      | none => rw [hq] at h; cases h
      | some q =>
        obtain ⟨f2, s2⟩ := q
        rw [hq] at h
        have := inside_saved hb hq
        subst this
        simp only [Option.bind_some, runOps, stepOp, Option.some.injEq, Prod.mk.injEq] at h
        obtain ⟨rfl, rfl⟩ := h
        exact ⟨rfl, rfl, rfl, rfl, rfl⟩

/-- **C120** – inside of a context, its attributes are in force, and those of the contexts around it where it has none. -/
theorem C120_context_attributes {n : Nat} {as : List Attr} {part : Glossary} {f f' : Frame} {saved : List Frame}
    (hf : XmlAttr.Spec.Built L.mem f.attrs) (h : stepOp L n f saved (.enter as none part) = some (true, f', f :: saved)) (k : Tok) :
    XmlAttr.lookup L.mem f'.attrs k = match XmlAttr.Spec.lastGiven L.mem as (k.text L.mem) with
      | some a => some a.2
      | none => XmlAttr.lookup L.mem f.attrs k := by
  obtain ⟨s, h1, h2, h3⟩ := XmlAttr.insertAll_spec as (XmlAttr.built_sorted hf)
  simp only [stepOp, enter, h1, Option.getD_some, Option.some.injEq, Prod.mk.injEq, and_true, true_and] at h
  subst h
  rw [XmlAttr.lookup_spec h2, h3 (k.text L.mem), XmlAttr.lookup_spec (XmlAttr.built_sorted hf)]
  cases XmlAttr.Spec.lastGiven L.mem as (k.text L.mem) <;> rfl

end Verif.XString
