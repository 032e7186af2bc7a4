import Verif.XString.Lemmas
namespace Verif.XString
open Verif.XmlAttr (Mem Tok Attr tokenRangeEqual tokenRangeLess tokenRangeEqual_iff)
open Verif.XmlAttr.Spec (value Built)
open Verif.Xml (Call Cfg St R Here)
open Verif.Xml.Spec
open Spec

variable {L : Lib}

/-- The text `marker`. -/
abbrev Lib.mk' (L : Lib) : List Nat := L.marker.text L.mem
/-- The text `xstr`. -/
abbrev Lib.xs (L : Lib) : List Nat := L.xstr.text L.mem

def Lib.p (L : Lib) (t : List Nat) : Bool := decide (t = L.xs) || decide (t = L.mk')

theorem eq_decide (x y : Tok) : tokenRangeEqual L.mem x y = decide (x.text L.mem = y.text L.mem) := by
  rw [Bool.eq_iff_iff, tokenRangeEqual_iff, decide_eq_true_eq]

theorem pred_p (t : Tok) : L.pred t = L.p (t.text L.mem) := by simp [Lib.pred, Lib.p, eq_decide]

/-- A marker for replacement has been given as `<marker …>…</marker>` somewhere in memory, with simple content. -/
def Given (L : Lib) (m : Marker) (s : Head × Content) : Prop :=
  (∃ a last l, Here L.mem last a (60 :: (s.1.render ++ l)) ∧ m.attrs = s.1.attrs L.mem a) ∧ Reads L.mem m.value s.2 ∧ simple s.2

theorem find_pick : ∀ {ms : List Marker} {M : List (Head × Content)} (_ : List.Forall₂ (Given L) ms M) {last a : Nat} {h : Head} {l : List Nat}
    (_ : Here L.mem last a (60 :: (h.render ++ l))),
    (findMarker L ms (h.attrs L.mem a) = none ∧ pick M h = none) ∨
    ∃ m x, findMarker L ms (h.attrs L.mem a) = some m ∧ pick M h = some x ∧ Reads L.mem m.value x ∧ simple x := by
  intro ms M hg
  induction hg with
  | nil => intros; exact .inl ⟨rfl, rfl⟩
  | @cons m s ms M hm hms ih =>
    intro last a h l hh
    obtain ⟨⟨a', last', l', h1, h2⟩, h3, h4⟩ := hm
    have e : XmlAttr.equal L.mem m.attrs (h.attrs L.mem a) = sameAtts s.1.atts h.atts := by rw [h2]; exact equal_attrs h1 hh
    unfold findMarker pick
    simp only [List.find?_cons, e]
    cases sameAtts s.1.atts h.atts with
    | true => exact .inr ⟨m, s.2, rfl, rfl, h3, h4⟩
    | false => exact ih hh

/-- The text of the answer to a marker. -/
def markerText (L : Lib) (ms : List Marker) (M : List (Head × Content)) (attrs : List Attr) : List Nat :=
  match ms, M with
  | m :: ms, s :: M => if XmlAttr.equal L.mem m.attrs attrs then plainText L.byName s.2 else markerText L ms M attrs
  | _, _ => []

def candAns (L : Lib) (ms : List Marker) (M : List (Head × Content)) (cs : List Call) (k : Call) : List Nat :=
  if tokenRangeEqual L.mem k.name L.marker then
    if cs.foldl (scoreCall L ms) 0 = -1 then [] else markerText L ms M k.attrs
  else []

theorem reads_null (mem : Mem) : Reads mem .null (.nil []) := ⟨Nat.le_refl _, rfl, by simp, by simp, by simp⟩

theorem markerText_find : ∀ {ms : List Marker} {M : List (Head × Content)} (_ : List.Forall₂ (Given L) ms M) (attrs : List Attr),
    ∃ y, Reads L.mem ((findMarker L ms attrs).map (·.value) |>.getD .null) y ∧ simple y ∧ markerText L ms M attrs = plainText L.byName y := by
  intro ms M hg attrs
  induction hg with
  | nil => exact ⟨.nil [], reads_null _, trivial, rfl⟩
  | @cons m s ms M hm hms ih =>
    obtain ⟨-, h3, h4⟩ := hm
    unfold findMarker markerText
    simp only [List.find?_cons]
    cases XmlAttr.equal L.mem m.attrs attrs with
    | true => exact ⟨s.2, h3, h4, rfl⟩
    | false => exact ih

theorem markerText_pick : ∀ {ms : List Marker} {M : List (Head × Content)} (_ : List.Forall₂ (Given L) ms M) {last a : Nat} {h : Head} {l : List Nat}
    (_ : Here L.mem last a (60 :: (h.render ++ l))), markerText L ms M (h.attrs L.mem a) = ((pick M h).map (plainText L.byName)).getD [] := by
  intro ms M hg
  induction hg with
  | nil => intros; rfl
  | @cons m s ms M hm hms ih =>
    intro last a h l hh
    obtain ⟨⟨a', last', l', h1, h2⟩, h3, h4⟩ := hm
    have e : XmlAttr.equal L.mem m.attrs (h.attrs L.mem a) = sameAtts s.1.atts h.atts := by rw [h2]; exact equal_attrs h1 hh
    unfold markerText pick
    simp only [List.find?_cons, e]
    cases sameAtts s.1.atts h.atts with
    | true => rfl
    | false => exact ih hh

theorem cand_answers {ms : List Marker} {M : List (Head × Content)} (hg : List.Forall₂ (Given L) ms M) :
    Answers (candidateCfg L ms) L.p (candAns L ms M) where
  pred t := pred_p t
  pre cs k _ := by
    simp only [candidateCfg, candAns]
    by_cases hk : tokenRangeEqual L.mem k.name L.marker = true
    · simp only [hk, if_true]
      by_cases hs : cs.foldl (scoreCall L ms) 0 = -1
      · simp only [hs, if_true]
        exact ⟨_, rfl, .inr ⟨.nil [], reads_null _, trivial, rfl⟩⟩
      · simp only [hs, if_false]
        obtain ⟨y, h1, h2, h3⟩ := markerText_find hg k.attrs
        cases hf : findMarker L ms k.attrs with
        | none => rw [hf] at h1; exact ⟨_, rfl, .inr ⟨y, h1, h2, h3⟩⟩
        | some m => rw [hf] at h1; exact ⟨_, rfl, .inr ⟨y, h1, h2, h3⟩⟩
    · simp only [hk, Bool.false_eq_true, if_false]
      exact ⟨_, rfl, .inr ⟨.nil [], reads_null _, trivial, rfl⟩⟩
  post cs k hp := by
    have hk : tokenRangeEqual L.mem k.name L.marker = false := by
      simp only [Lib.p, Bool.or_eq_false_iff] at hp
      rw [eq_decide]; exact hp.2
    simp only [candidateCfg, candAns, hk, Bool.false_eq_true, if_false]
    exact ⟨_, rfl, rfl⟩

/-- How a marker changes the score. -/
def step (M : List (Head × Content)) (s : Int) (h : Head) : Int := if s = -1 then -1 else if (pick M h).isSome then s + 1 else -1

theorem foldl_lost (M : List (Head × Content)) (hs : List Head) : hs.foldl (step M) (-1) = -1 := by
  induction hs with
  | nil => rfl
  | cons h hs ih => simpa [step] using ih

theorem foldl_step (M : List (Head × Content)) (hs : List Head) : ∀ {s : Int}, 0 ≤ s →
    hs.foldl (step M) s = if hs.all fun h => (pick M h).isSome then s + hs.length else -1 := by
  induction hs with
  | nil => simp
  | cons h hs ih =>
    intro s h0
    have hne : ¬ s = -1 := by omega
    simp only [List.foldl_cons, step, hne, if_false, List.all_cons]
    by_cases hp : (pick M h).isSome = true
    · simp only [hp, if_true, Bool.true_and, ih (s := s + 1) (by omega), List.length_cons]
      split
      · push_cast; omega
      · rfl
    · simp [hp, foldl_lost]

/-- The effect of one call. -/
theorem score_call {ms : List Marker} {M : List (Head × Content)} (hg : List.Forall₂ (Given L) ms M) {i : Item} {h : Head} {last a : Nat} {r : List Nat}
    (hd : i.head? = some h) (hh : Here L.mem last a (i.render ++ r)) (s : Int) :
    scoreCall L ms s (i.call L.mem a h) = if h.name = L.mk' then step M s h else s := by
  obtain ⟨l, hl⟩ := item_here hd hh
  have hn : tokenRangeEqual L.mem (i.call L.mem a h).name L.marker = decide (h.name = L.mk') := by
    rw [eq_decide]
    have : ((i.call L.mem a h).name).text L.mem = h.name := Xml.Head.name_text hl
    rw [this]
  unfold scoreCall step
  rw [hn]
  have ha : (i.call L.mem a h).attrs = h.attrs L.mem a := rfl
  rw [ha]
  rcases find_pick hg hl with ⟨h1, h2⟩ | ⟨m, x, h1, h2, -, -⟩ <;> simp [h1, h2]

def marksItem (mk xs : List Nat) (i : Item) : List Head := (outerItem mk xs i).filterMap fun i => (named mk i).map (·.1)

theorem marks_cons (mk xs t : List Nat) (i : Item) (x : Content) : marks mk xs (.cons t i x) = marksItem mk xs i ++ marks mk xs x := by
  simp [marks, marksItem, outer, List.filterMap_append]

theorem marks_elem {mk xs : List Nat} {h : Head} (hp : ¬ (h.name = mk ∨ h.name = xs)) (x : Content) (w1 w2 : List Nat) :
    marksItem mk xs (.elem h x w1 w2) = marks mk xs x := by
  simp only [marksItem, marks, outerItem, hp, if_false]

theorem p_iff (t : List Nat) : L.p t = true ↔ t = L.mk' ∨ t = L.xs := by
  simp only [Lib.p, Bool.or_eq_true, decide_eq_true_eq]; exact or_comm

theorem marks_pre {i : Item} {h : Head} (hd : i.head? = some h) (hp : L.p h.name = true) :
    marksItem L.mk' L.xs i = if h.name = L.mk' then [h] else [] := by
  have hp' := (p_iff h.name).mp hp
  cases i with
  | ref _ => simp [Item.head?] at hd
  | comment _ => simp [Item.head?] at hd
  | empty g =>
    simp only [Item.head?, Option.some.injEq] at hd
    subst hd
    have ho : outerItem L.mk' L.xs (.empty g) = [.empty g] := by simp only [outerItem]; rw [if_pos hp']
    simp only [marksItem, ho, List.filterMap_cons, List.filterMap_nil, named]
    by_cases hm : g.name = L.mk' <;> simp [hm]
  | elem g x w1 w2 =>
    simp only [Item.head?, Option.some.injEq] at hd
    subst hd
    have ho : outerItem L.mk' L.xs (.elem g x w1 w2) = [.elem g x w1 w2] := by simp only [outerItem]; rw [if_pos hp']
    simp only [marksItem, ho, List.filterMap_cons, List.filterMap_nil, named]
    by_cases hm : g.name = L.mk' <;> simp [hm]

mutual
theorem score_item {ms : List Marker} {M : List (Head × Content)} (hg : List.Forall₂ (Given L) ms M) (i : Item) {last a : Nat} {r : List Nat}
    (hh : Here L.mem last a (i.render ++ r)) (s : Int) :
    (callsItem L.p L.mem a i).foldl (scoreCall L ms) s = (marksItem L.mk' L.xs i).foldl (step M) s := by
  match i with
  | .ref b => rfl
  | .comment b => rfl
  | .empty h =>
    simp only [callsItem, List.foldl_cons, List.foldl_nil]
    rw [score_call hg (h := h) rfl hh]
    by_cases hm : h.name = L.mk'
    · rw [marks_pre (h := h) rfl (by rw [p_iff]; exact .inl hm)]
      simp [hm]
    · rw [if_neg hm]
      cases hp : L.p h.name with
      | true => rw [marks_pre (h := h) rfl hp, if_neg hm]; rfl
      | false =>
        have hp' : ¬ (h.name = L.mk' ∨ h.name = L.xs) := by rw [← p_iff, hp]; simp
        simp only [marksItem, outerItem, hp', if_false]; rfl
  | .elem h x w1 w2 =>
    simp only [callsItem]
    cases hp : L.p h.name with
    | true =>
      rw [if_pos rfl, marks_pre (h := h) rfl hp]
      simp only [List.foldl_cons, List.foldl_nil]
      rw [score_call hg (h := h) rfl hh]
      by_cases hm : h.name = L.mk' <;> simp [hm]
    | false =>
      rw [if_neg (by simp), marks_elem (by rw [← p_iff, hp]; simp)]
      exact score_content hg x (elem_here hh) s
theorem score_content {ms : List Marker} {M : List (Head × Content)} (hg : List.Forall₂ (Given L) ms M) (x : Content) {last a : Nat} {r : List Nat}
    (hh : Here L.mem last a (x.render ++ r)) (s : Int) :
    (callsContent L.p L.mem a x).foldl (scoreCall L ms) s = (marks L.mk' L.xs x).foldl (step M) s := by
  match x with
  | .nil t => rfl
  | .openRef t b => rfl
  | .cons t i rest =>
    simp only [Content.render, List.append_assoc] at hh
    simp only [callsContent, marks_cons, List.foldl_append]
    rw [score_item hg i hh.drop, score_content hg rest hh.drop.drop]
end

/-- What a marker is replaced by. -/
def sub (byName : List Entity.Entry) (M : List (Head × Content)) (h : Head) : List Nat := ((pick M h).map (plainText byName)).getD []

theorem ans_marker {ms : List Marker} {M : List (Head × Content)} (hg : List.Forall₂ (Given L) ms M) {i : Item} {h : Head} {last a : Nat} {r : List Nat}
    (hd : i.head? = some h) (hh : Here L.mem last a (i.render ++ r)) {cs : List Call} (hs : cs.foldl (scoreCall L ms) 0 ≠ -1) :
    candAns L ms M cs (i.call L.mem a h) = if h.name = L.mk' then sub L.byName M h else [] := by
  obtain ⟨l, hl⟩ := item_here hd hh
  have hn : tokenRangeEqual L.mem (i.call L.mem a h).name L.marker = decide (h.name = L.mk') := by
    rw [eq_decide]
    have : ((i.call L.mem a h).name).text L.mem = h.name := Xml.Head.name_text hl
    rw [this]
  unfold candAns
  rw [hn, if_neg hs]
  have ha : (i.call L.mem a h).attrs = h.attrs L.mem a := rfl
  rw [ha, markerText_pick hg hl]
  by_cases hm : h.name = L.mk' <;> simp [hm, sub]

theorem not_lost {M : List (Head × Content)} {hs : List Head} {s : Int} (h : hs.foldl (step M) s ≠ -1) : s ≠ -1 := by
  rintro rfl
  exact h (foldl_lost M hs)

mutual
theorem out_item {ms : List Marker} {M : List (Head × Content)} (hg : List.Forall₂ (Given L) ms M) (i : Item) {last a : Nat} {r : List Nat}
    (hh : Here L.mem last a (i.render ++ r)) {cs : List Call} (hs : (cs ++ callsItem L.p L.mem a i).foldl (scoreCall L ms) 0 ≠ -1) :
    (runItem L.p L.mem L.byName (candAns L ms M) a i cs).1 = fillItem L.byName L.mk' L.xs (sub L.byName M) i := by
  have h0 : cs.foldl (scoreCall L ms) 0 ≠ -1 := by
    rw [List.foldl_append, score_item hg i hh] at hs
    exact not_lost hs
  match i with
  | .ref b => rfl
  | .comment b => rfl
  | .empty h =>
    simp only [runItem, fillItem]
    exact ans_marker hg rfl hh h0
  | .elem h x w1 w2 =>
    simp only [runItem, fillItem]
    cases hp : L.p h.name with
    | true =>
      rw [if_pos rfl]
      have := ans_marker hg (h := h) rfl hh h0
      simp only [this]
      rcases (p_iff h.name).mp hp with e | e
      · simp [e]
      · by_cases hm : h.name = L.mk' <;> simp [e]
    | false =>
      rw [if_neg (by simp)]
      have hp' : ¬ (h.name = L.mk' ∨ h.name = L.xs) := by rw [← p_iff, hp]; simp
      simp only [not_or] at hp'
      rw [if_neg hp'.1, if_neg hp'.2]
      have := out_content hg x (elem_here hh) (cs := cs) (by simpa only [callsItem, hp, Bool.false_eq_true, if_false] using hs)
      simp only [this]
theorem out_content {ms : List Marker} {M : List (Head × Content)} (hg : List.Forall₂ (Given L) ms M) (x : Content) {last a : Nat} {r : List Nat}
    (hh : Here L.mem last a (x.render ++ r)) {cs : List Call} (hs : (cs ++ callsContent L.p L.mem a x).foldl (scoreCall L ms) 0 ≠ -1) :
    (runContent L.p L.mem L.byName (candAns L ms M) a x cs).1 = fill L.byName L.mk' L.xs (sub L.byName M) x := by
  match x with
  | .nil t => rfl
  | .openRef t b => rfl
  | .cons t i rest =>
    simp only [Content.render, List.append_assoc] at hh
    simp only [callsContent, ← List.append_assoc] at hs
    have h1 : (cs ++ callsItem L.p L.mem (a + t.length) i).foldl (scoreCall L ms) 0 ≠ -1 := by
      rw [List.foldl_append, score_content hg rest hh.drop.drop] at hs
      exact not_lost hs
    simp only [runContent, fill]
    rw [item_calls, out_item hg i hh.drop h1, out_content hg rest hh.drop.drop hs]
end

/-- A candidate. -/
theorem candidate_spec {ms : List Marker} {M : List (Head × Content)} (hg : List.Forall₂ (Given L) ms M) {t : Tok} {x : Content}
    (hx : Reads L.mem t x) : ∃ n0 o, (viable L.mk' L.xs M x = true → o = replaced L.byName L.mk' L.xs M x) ∧ ∀ n, n0 ≤ n →
      candidate L n ms t = .ok (if viable L.mk' L.xs M x then ((marks L.mk' L.xs x).length : Int) else -1, o) () := by
  obtain ⟨n0, h0⟩ := parse_answers (cand_answers hg) hx
  have hh : Here L.mem t.second t.first (x.render ++ []) := ⟨hx.1, by simpa using hx.2.1⟩
  have hsc := score_content hg x hh 0
  rw [foldl_step M _ (Int.le_refl 0)] at hsc
  refine ⟨n0, (runContent L.p L.mem L.byName (candAns L ms M) t.first x []).1, fun hv => ?_, fun n hn => ?_⟩
  rotate_left 1
  · obtain ⟨s, h1, h2, h3⟩ := h0 n hn
    unfold candidate
    rw [h1]
    simp only
    rw [h2, h3]
    show R.ok (List.foldl (scoreCall L ms) 0 (callsContent L.p L.mem t.first x), _) () = _
    rw [hsc]
    simp only [viable, Int.zero_add]
    rfl
  · refine out_content hg x hh (cs := []) ?_
    simp only [List.nil_append]
    rw [hsc]
    unfold viable at hv
    rw [if_pos hv]
    omega

end Verif.XString
