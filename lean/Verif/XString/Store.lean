import Verif.XString.Glossary
namespace Verif.XString
open Verif.XmlAttr (Mem Tok Attr tokenRangeEqual tokenRangeLess tokenRangeEqual_iff tokenRangeLess_iff)
open Verif.XmlAttr.Spec (value Built Shortlex)
open Verif.Xml (Call Cfg St R Here)
open Verif.Xml.Spec
open Spec

variable {L : Lib}

/-- The content of an element, as the client gets it. -/
theorem value_reads {i : Item} {h : Head} {x : Content} {nm r : List Nat} {a last : Nat} (ha : a ≠ 0) (hok : i.Ok) (hn : named nm i = some (h, x))
    (hh : Here L.mem last a (i.render ++ r)) (hu : x.uncommented) :
    Reads L.mem (i.value a) x ∧ i.head? = some h ∧ h.name = nm ∧
      (x.render ≠ [] → a < (i.value a).first ∧ (i.value a).first < a + i.render.length) := by
  cases i with
  | ref _ => simp [named] at hn
  | comment _ => simp [named] at hn
  | empty g =>
    simp only [named] at hn
    split at hn
    · rename_i e
      cases hn
      exact ⟨reads_null _, rfl, e, fun h => absurd rfl h⟩
    · cases hn
  | elem g y w1 w2 =>
    simp only [named] at hn
    split at hn
    · rename_i e
      cases hn
      unfold Item.Ok at hok
      have hr : (Item.elem h x w1 w2).value a = if x.render = [] then .null
          else ⟨a + 1 + h.render.length + 1, a + 1 + h.render.length + 1 + x.render.length⟩ := by
        simp only [Item.value]; exact Xml.range_uncommented (by omega) hu
      refine ⟨?_, rfl, e, fun hx => ?_⟩
      · rw [hr]
        by_cases hx : x.render = []
        · rw [if_pos hx]; exact ⟨Nat.le_refl _, by rw [hx]; rfl, hok.2.1⟩
        · rw [if_neg hx]; exact ⟨Nat.le_add_right _ _, (elem_here hh).text, hok.2.1⟩
      · rw [hr, if_neg hx]
        refine ⟨?_, ?_⟩
        · show a < a + 1 + h.render.length + 1
          omega
        · simp [Item.render]; omega
    · cases hn

/-- Whether a call for a preorder element is for one of that name. -/
theorem named_call {lo hi : Nat} {k : Call} {i : Item} (hk : CallOf L lo hi k i) (t : Tok) :
    tokenRangeEqual L.mem k.name t = (named (t.text L.mem) i).isSome := by
  obtain ⟨a, last, r, h, hh, hd, hok, rfl, -, -⟩ := hk
  obtain ⟨l, hl⟩ := item_here hd hh
  have : ((i.call L.mem a h).name).text L.mem = h.name := Xml.Head.name_text hl
  rw [eq_decide, this]
  cases i with
  | ref _ => simp [Item.head?] at hd
  | comment _ => simp [Item.head?] at hd
  | empty g =>
    simp only [Item.head?, Option.some.injEq] at hd
    subst hd
    by_cases e : g.name = t.text L.mem <;> simp [named, e]
  | elem g y w1 w2 =>
    simp only [Item.head?, Option.some.injEq] at hd
    subst hd
    by_cases e : g.name = t.text L.mem <;> simp [named, e]

/-! ### Markers -/

theorem foldl_filter {α β : Type} (f : β → α → β) (p : α → Bool) (h : ∀ b a, p a = false → f b a = b) (l : List α) :
    ∀ b, l.foldl f b = (l.filter p).foldl f b := by
  induction l with
  | nil => intro b; rfl
  | cons a l ih =>
    intro b
    rw [List.foldl_cons, List.filter_cons]
    cases hp : p a with
    | true => simp [ih]
    | false => simp [h b a hp, ih]

theorem marker_pre (ms : List Marker) (k : Call) (h : L.pred k.name = false) : markerCall L ms k = ms := by
  simp only [Lib.pred, Bool.or_eq_false_iff] at h
  simp [markerCall, h.2]

theorem harvest_pre (id : Tok) (k : Call) (h : L.pred k.name = false) : harvestCall L id k = id := by
  simp only [Lib.pred, Bool.or_eq_false_iff] at h
  simp [harvestCall, h.1]

theorem store_pre (g : Glossary) (k : Call) (h : L.pred k.name = false) : storeCall L g k = g := by
  simp only [Lib.pred, Bool.or_eq_false_iff] at h
  simp [storeCall, h.1]

def markerAns (L : Lib) (_ : List Call) (k : Call) : List Nat := if tokenRangeEqual L.mem k.name L.marker then [] else k.entire.text L.mem

theorem marker_answers : Answers (markerCfg L) L.p (markerAns L) where
  pred t := pred_p t
  pre cs k _ := by
    simp only [markerCfg, markerAns]
    by_cases hk : tokenRangeEqual L.mem k.name L.marker = true
    · simp only [hk, if_true]
      exact ⟨_, rfl, .inr ⟨.nil [], reads_null _, trivial, rfl⟩⟩
    · simp only [hk, Bool.false_eq_true, if_false]
      exact ⟨_, rfl, .inl ⟨rfl, rfl⟩⟩
  post cs k hp := by
    have hk : tokenRangeEqual L.mem k.name L.marker = false := by
      simp only [Lib.p, Bool.or_eq_false_iff] at hp
      rw [eq_decide]; exact hp.2
    simp only [markerCfg, markerAns, hk, Bool.false_eq_true, if_false]
    exact ⟨_, rfl, rfl⟩

theorem harvest_answers : Answers (harvestCfg L) L.p (fun _ _ => []) where
  pred t := pred_p t
  pre cs k _ := ⟨_, rfl, .inr ⟨.nil [], reads_null _, trivial, rfl⟩⟩
  post cs k _ := ⟨_, rfl, rfl⟩

theorem markers_given {lo hi : Nat} (hlo : lo ≠ 0) : ∀ {ks : List Call} {is : List Item}, List.Forall₂ (CallOf L lo hi) ks is →
    (∀ s ∈ is.filterMap (named L.mk'), simple s.2 ∧ s.2.uncommented) → ∀ ms : List Marker,
    ∃ new, ks.foldl (markerCall L) ms = ms ++ new ∧ List.Forall₂ (Given L) new (is.filterMap (named L.mk')) := by
  intro ks is h
  induction h with
  | nil => intro _ ms; exact ⟨[], by simp, .nil⟩
  | @cons k i ks is hk hks ih =>
    intro hs ms
    have hn := named_call hk L.marker
    cases hi : named L.mk' i with
    | none =>
      have e : markerCall L ms k = ms := by unfold markerCall; rw [hn, hi]; rfl
      obtain ⟨new, h1, h2⟩ := ih (fun s h => hs s (by rw [List.filterMap_cons, hi]; exact h)) ms
      refine ⟨new, by rw [List.foldl_cons, e, h1], ?_⟩
      rw [List.filterMap_cons, hi]; exact h2
    | some s =>
      have e : markerCall L ms k = ms ++ [⟨k.attrs, k.value⟩] := by unfold markerCall; rw [hn, hi]; rfl
      obtain ⟨new, h1, h2⟩ := ih (fun s' h => hs s' (by rw [List.filterMap_cons, hi]; exact List.mem_cons_of_mem _ h)) (ms ++ [⟨k.attrs, k.value⟩])
      refine ⟨⟨k.attrs, k.value⟩ :: new, by rw [List.foldl_cons, e, h1]; simp, ?_⟩
      rw [List.filterMap_cons, hi]
      refine .cons ?_ h2
      obtain ⟨a, last, r, h, hh, hd, hok, rfl, hle, -⟩ := hk
      obtain ⟨s1, s2⟩ := s
      obtain ⟨p1, p2⟩ := hs (s1, s2) (by rw [List.filterMap_cons, hi]; exact List.mem_cons_self)
      obtain ⟨q1, q2, -, -⟩ := value_reads (by omega) hok hi hh p2
      rw [hd] at q2
      cases q2
      obtain ⟨l, hl⟩ := item_here hd hh
      exact ⟨⟨a, last, l, hl, rfl⟩, q1, p1⟩

theorem addMarker_spec {t : Tok} {y : Content} (h0 : t.first ≠ 0) (hy : Reads L.mem t y)
    (hs : ∀ s ∈ (outer L.mk' L.xs y).filterMap (named L.mk'), simple s.2 ∧ s.2.uncommented) :
    ∃ n0, ∀ ms, ∃ new, List.Forall₂ (Given L) new ((outer L.mk' L.xs y).filterMap (named L.mk')) ∧ ∀ n, n0 ≤ n →
      addMarker L n ms t = .ok (ms ++ new) () := by
  obtain ⟨n0, hn⟩ := parse_answers marker_answers hy
  have hh : Here L.mem t.second t.first (y.render ++ []) := ⟨hy.1, by simpa using hy.2.1⟩
  refine ⟨n0, fun ms => ?_⟩
  obtain ⟨new, h1, h2⟩ := markers_given h0 (content_outer y hy.2.2 hh) hs ms
  refine ⟨new, h2, fun n hle => ?_⟩
  obtain ⟨s, e1, e2, e3⟩ := hn n hle
  unfold addMarker
  rw [e1]
  simp only
  rw [e3]
  show R.ok (List.foldl (markerCall L) ms (callsContent L.p L.mem t.first y)) () = _
  rw [foldl_filter (markerCall L) (fun k => L.pred k.name) (fun b k h => marker_pre b k h)]
  exact congrArg (fun z => R.ok z ()) h1

/-- A text for a marker, in memory that is not at the null pointer. -/
def MarkerText (L : Lib) (t : Tok) (y : Content) : Prop :=
  t.first ≠ 0 ∧ Reads L.mem t y ∧ ∀ s ∈ (outer L.mk' L.xs y).filterMap (named L.mk'), simple s.2 ∧ s.2.uncommented

theorem addMarkers_spec {ts : List Tok} {ys : List Content} (h : List.Forall₂ (MarkerText L) ts ys) :
    ∃ n0, ∀ ms, ∃ new, List.Forall₂ (Given L) new (ys.flatMap fun y => (outer L.mk' L.xs y).filterMap (named L.mk')) ∧ ∀ n, n0 ≤ n →
      addMarkers L n ms ts = .ok (ms ++ new) () := by
  induction h with
  | nil => exact ⟨0, fun ms => ⟨[], .nil, fun n _ => by simp [addMarkers]⟩⟩
  | @cons t y ts ys hty _ ih =>
    obtain ⟨n1, h1⟩ := ih
    obtain ⟨n0, h0⟩ := addMarker_spec hty.1 hty.2.1 hty.2.2
    refine ⟨max n0 n1, fun ms => ?_⟩
    obtain ⟨new, a1, a2⟩ := h0 ms
    obtain ⟨new', b1, b2⟩ := h1 (ms ++ new)
    refine ⟨new ++ new', ?_, fun n hn => ?_⟩
    · rw [List.flatMap_cons]; exact List.rel_append a1 b1
    · simp only [addMarkers, a2 n (by omega), b2 n (by omega), List.append_assoc]

/-! ### The id of an xstring -/

theorem harvest_last {lo hi : Nat} : ∀ {ks : List Call} {is : List Item}, List.Forall₂ (CallOf L lo hi) ks is → ∀ id : Tok,
    (ks.foldl (harvestCall L) id).text L.mem = match (is.filterMap (named L.xs)).getLast? with
      | some s => (lastAtt s.1.atts (L.id.text L.mem)).getD []
      | none => id.text L.mem := by
  intro ks is h
  induction h with
  | nil => intro id; rfl
  | @cons k i ks is hk hks ih =>
    intro id
    have hn := named_call hk L.xstr
    rw [List.foldl_cons, ih, List.filterMap_cons]
    cases hi : named L.xs i with
    | none =>
      have e : harvestCall L id k = id := by unfold harvestCall; rw [hn, hi]; rfl
      rw [e]
    | some s =>
      have e : harvestCall L id k = idOf L k.attrs := by unfold harvestCall; rw [hn, hi]; rfl
      simp only [e, List.getLast?_cons]
      cases (is.filterMap (named L.xs)).getLast? with
      | some s' => rfl
      | none =>
        simp only [Option.getD_none]
        obtain ⟨a, last, r, h, hh, hd, hok, rfl, hle, -⟩ := hk
        obtain ⟨l, hl⟩ := item_here hd hh
        have : s.1 = h := by
          cases i with
          | ref _ => simp [named] at hi
          | comment _ => simp [named] at hi
          | empty g =>
            simp only [named] at hi
            split at hi
            · cases hi; simpa [Item.head?] using hd
            · cases hi
          | elem g y w1 w2 =>
            simp only [named] at hi
            split at hi
            · cases hi; simpa [Item.head?] using hd
            · cases hi
        rw [this]
        exact idOf_text hl

theorem harvest_spec {t : Tok} {y : Content} (hy : Reads L.mem t y) : ∃ n0 id, (∀ n, n0 ≤ n → harvest L n t = .ok id ()) ∧
    id.text L.mem = match ((outer L.mk' L.xs y).filterMap (named L.xs)).getLast? with
      | some s => (lastAtt s.1.atts (L.id.text L.mem)).getD []
      | none => [] := by
  obtain ⟨n0, hn⟩ := parse_answers harvest_answers hy
  have hh : Here L.mem t.second t.first (y.render ++ []) := ⟨hy.1, by simpa using hy.2.1⟩
  have h1 := harvest_last (content_outer y hy.2.2 hh) .null
  refine ⟨n0, (callsContent L.p L.mem t.first y).foldl (harvestCall L) .null, fun n hle => ?_, ?_⟩
  · obtain ⟨s, e1, e2, e3⟩ := hn n hle
    unfold harvest
    rw [e1]
    simp only
    rw [e3]
    rfl
  · rw [foldl_filter (harvestCall L) (fun k => L.pred k.name) (fun b k h => harvest_pre b k h)]
    exact h1

/-! ### Storing -/

/-- The entry in the glossary is for that element. -/
def EntryOf (L : Lib) (e : Entry) (s : Head × Content) : Prop :=
  keyText L e = (lastAtt s.1.atts (L.id.text L.mem)).getD [] ∧ Reads L.mem e.value s.2

theorem exact_none {g : Glossary} {attrs : List Attr} {v : Tok} (h : ∀ e ∈ g, e.value ≠ v) : exactMatch L g attrs v = none := by
  unfold exactMatch
  rw [List.find?_eq_none]
  intro e he
  have hm : e ∈ g := by
    unfold rangeForKey at he
    exact (List.dropWhile_sublist _).mem ((List.takeWhile_sublist _).mem he)
  have := h e hm
  simp only [Bool.and_eq_true, decide_eq_true_eq, not_and]
  exact fun _ e' => this e'.symm

theorem store_value (g : Glossary) (key : Tok) (attrs : List Attr) (v : Tok) : (store L g key attrs v).2.value = v := by
  unfold store
  cases h : exactMatch L g attrs v with
  | none => rfl
  | some e =>
    have := List.find?_some h
    simp only [Bool.and_eq_true, decide_eq_true_eq] at this
    exact this.2.symm

def isX (L : Lib) (k : Call) : Bool := tokenRangeEqual L.mem k.name L.xstr

/-- The call is for an xstr element, whose content lies between the two addresses. -/
def SCall (L : Lib) (lo hi : Nat) (k : Call) (s : Head × Content) : Prop :=
  (∃ a last l, Here L.mem last a (60 :: (s.1.render ++ l)) ∧ k.attrs = s.1.attrs L.mem a) ∧ Reads L.mem k.value s.2 ∧
    lo < k.value.first ∧ k.value.first < hi

theorem SCall.mono {lo lo' hi hi' : Nat} {k : Call} {s : Head × Content} (h : SCall L lo hi k s) (h1 : lo' ≤ lo) (h2 : hi ≤ hi') : SCall L lo' hi' k s :=
  ⟨h.1, h.2.1, by have := h.2.2.1; omega, by have := h.2.2.2; omega⟩

def Incr (ks : List Call) : Prop := ks.Pairwise fun k1 k2 => k1.value.first < k2.value.first

theorem incr_append {lo mid hi : Nat} {ks ks' : List Call} {ss ss' : List (Head × Content)} (h1 : Incr ks) (h2 : Incr ks')
    (h3 : List.Forall₂ (SCall L lo mid) ks ss) (h4 : List.Forall₂ (SCall L mid hi) ks' ss') : Incr (ks ++ ks') := by
  refine List.pairwise_append.mpr ⟨h1, h2, fun k hk k' hk' => ?_⟩
  have b1 : k.value.first < mid := by
    clear h1 h2 h4 hk'
    induction h3 with
    | nil => cases hk
    | cons h _ ih =>
      rcases List.mem_cons.mp hk with rfl | hk
      · exact h.2.2.2
      · exact ih hk
  have b2 : mid < k'.value.first := by
    clear h1 h2 h3 hk b1
    induction h4 with
    | nil => cases hk'
    | cons h _ ih =>
      rcases List.mem_cons.mp hk' with rfl | hk
      · exact h.2.2.1
      · exact ih hk
  exact Nat.lt_trans b1 b2

/-- The outcome of parsing in a glossary, for the calls. -/
def Stored (L : Lib) (lo hi : Nat) (ks : List Call) (ss : List (Head × Content)) : Prop :=
  List.Forall₂ (SCall L lo hi) (ks.filter (isX L)) ss ∧ Incr (ks.filter (isX L))

def fine (ss : List (Head × Content)) : Prop := ∀ s ∈ ss, s.2.render ≠ [] ∧ s.2.uncommented

theorem isX_call {i : Item} {h : Head} {a last : Nat} {r : List Nat} (hd : i.head? = some h) (hh : Here L.mem last a (i.render ++ r)) :
    isX L (i.call L.mem a h) = decide (h.name = L.xs) := by
  obtain ⟨l, hl⟩ := item_here hd hh
  have : ((i.call L.mem a h).name).text L.mem = h.name := Xml.Head.name_text hl
  unfold isX
  rw [eq_decide, this]

theorem cb_other (g : Glossary) (cs : List Call) {k : Call} (hk : isX L k = false) : (storeCfg L g).callback cs k = some k.entire := by
  unfold isX at hk
  simp [storeCfg, hk]

theorem cb_xstr (g : Glossary) (cs : List Call) {k : Call} (hk : isX L k = true) : (storeCfg L g).callback cs k = some k.value := by
  unfold isX at hk
  simp [storeCfg, hk, store_value]

/-- Parsing content gives as many calls. -/
theorem stored_single {i : Item} {h : Head} {a last : Nat} {r : List Nat} (hd : i.head? = some h) (hh : Here L.mem last a (i.render ++ r))
    (hx : ¬ h.name = L.xs) (hi : Nat) : Stored L a hi [i.call L.mem a h] [] := by
  unfold Stored
  rw [List.filter_cons, isX_call hd hh]
  simp only [hx, decide_false, Bool.false_eq_true, if_false, List.filter_nil]
  exact ⟨.nil, List.Pairwise.nil⟩

mutual
theorem store_item (g : Glossary) (i : Item) {a last : Nat} {r : List Nat} (ha : a ≠ 0) (cs : List Call) (hok : i.Ok)
    (hh : Here L.mem last a (i.render ++ r)) (hf : fine (allItem L.mk' L.xs i)) :
    ∃ o ks, ItemSem (storeCfg L g) a i cs o (cs ++ ks) ∧ Stored L a (a + i.render.length) ks (allItem L.mk' L.xs i) := by
  match i with
  | .ref b => exact ⟨_, [], by rw [List.append_nil]; exact .ref, .nil, List.Pairwise.nil⟩
  | .comment b => exact ⟨_, [], by rw [List.append_nil]; exact .comment, .nil, List.Pairwise.nil⟩
  | .empty h =>
    have hx : ¬ h.name = L.xs := by
      intro e
      have := hf (h, .nil []) (by simp [allItem, e])
      exact this.1 rfl
    have hb := cb_other (L := L) g cs (k := (Item.empty h).call L.mem a h) (by rw [isX_call (h := h) rfl hh]; simp [hx])
    have hall : allItem L.mk' L.xs (.empty h) = [] := by simp [allItem, hx]
    rw [hall]
    by_cases hp : (storeCfg L g).pred (h.nameTok a) = true
    · exact ⟨_, [(Item.empty h).call L.mem a h], .same (c := storeCfg L g) (h := h) rfl hp hb, stored_single rfl hh hx _⟩
    · exact ⟨_, [(Item.empty h).call L.mem a h], .empty (c := storeCfg L g) (by simpa using hp) hb, stored_single rfl hh hx _⟩
  | .elem h x w1 w2 =>
    have hok' := hok
    unfold Item.Ok at hok'
    obtain ⟨l, hl⟩ := item_here (h := h) rfl hh
    have hpn : (storeCfg L g).pred (h.nameTok a) = L.p h.name := by
      show L.pred (h.nameTok a) = _
      rw [pred_p]
      exact congrArg L.p (Xml.Head.name_text hl)
    have hlen : a + 1 + h.render.length + 1 + x.render.length ≤ a + (Item.elem h x w1 w2).render.length := by
      simp [Item.render]; omega
    by_cases hx : h.name = L.xs
    · have hall : allItem L.mk' L.xs (.elem h x w1 w2) = (h, x) :: allContent L.mk' L.xs x := by simp [allItem, hx]
      rw [hall] at hf
      obtain ⟨f1, f2⟩ := hf (h, x) List.mem_cons_self
      have hb := cb_xstr (L := L) g cs (k := (Item.elem h x w1 w2).call L.mem a h) (by rw [isX_call (h := h) rfl hh]; simp [hx])
      obtain ⟨o, ks, s1, s2, s3⟩ := store_content g x (a := a + 1 + h.render.length + 1) (by omega)
        (cs ++ [(Item.elem h x w1 w2).call L.mem a h]) hok'.2.1 (elem_here hh) (fun s hs => hf s (List.mem_cons_of_mem _ hs))
      have hv : (Item.elem h x w1 w2).value a = ⟨a + 1 + h.render.length + 1, a + 1 + h.render.length + 1 + x.render.length⟩ := by
        simp only [Item.value]
        rw [Xml.range_uncommented (by omega) f2, if_neg f1]
      have hr : Reads L.mem ((Item.elem h x w1 w2).value a) x := by
        rw [hv]; exact ⟨Nat.le_add_right _ _, (elem_here hh).text, hok'.2.1⟩
      refine ⟨o, (Item.elem h x w1 w2).call L.mem a h :: ks, ?_, ?_⟩
      · have e : cs ++ (Item.elem h x w1 w2).call L.mem a h :: ks = cs ++ [(Item.elem h x w1 w2).call L.mem a h] ++ ks := by simp
        rw [e]
        refine .replaced (c := storeCfg L g) (new := x) (rest := []) (h := h) rfl (by rw [hpn]; exact (p_iff _).mpr (.inr hx)) hb ?_ hr.1
          (by rw [List.append_nil]; exact hr.2.1) hok'.2.1 (Content.stops_nil x) ?_
        · intro e
          have := congrArg Tok.first e
          simp only [hv, Item.call, Item.entire] at this
          omega
        · have : ((Item.elem h x w1 w2).call L.mem a h).value.first = a + 1 + h.render.length + 1 := by
            show ((Item.elem h x w1 w2).value a).first = _
            rw [hv]
          rw [this]
          exact s1
      · rw [hall]
        unfold Stored
        have hfil : ((Item.elem h x w1 w2).call L.mem a h :: ks).filter (isX L) = (Item.elem h x w1 w2).call L.mem a h :: ks.filter (isX L) := by
          rw [List.filter_cons, isX_call (h := h) rfl hh]; simp [hx]
        rw [hfil]
        have hfirst : ((Item.elem h x w1 w2).call L.mem a h).value.first = a + 1 + h.render.length + 1 := by
          show ((Item.elem h x w1 w2).value a).first = _
          rw [hv]
        have hself : SCall L a (a + 1 + h.render.length + 1 + 1) ((Item.elem h x w1 w2).call L.mem a h) (h, x) :=
          ⟨⟨a, last, l, hl, rfl⟩, hr, by rw [hfirst]; omega, by rw [hfirst]; omega⟩
        have hx0 : 0 < x.render.length := List.length_pos_iff.mpr f1
        refine ⟨.cons (hself.mono (Nat.le_refl _) (by omega)) (s2.imp fun k s hk => hk.mono (by omega) (by omega)), ?_⟩
        refine List.pairwise_cons.mpr ⟨fun k hk => ?_, s3⟩
        rw [hfirst]
        clear s3 hfil
        generalize ks.filter (isX L) = ks' at s2 hk
        generalize allContent L.mk' L.xs x = ss at s2
        induction s2 with
        | nil => cases hk
        | cons h _ ih =>
          rcases List.mem_cons.mp hk with rfl | hk
          · exact h.2.2.1
          · exact ih hk
    · by_cases hm : h.name = L.mk'
      · have hall : allItem L.mk' L.xs (.elem h x w1 w2) = [] := by
          simp only [allItem]; rw [if_neg hx, if_pos hm]
        have hb := cb_other (L := L) g cs (k := (Item.elem h x w1 w2).call L.mem a h) (by rw [isX_call (h := h) rfl hh]; simp [hx])
        refine ⟨_, [(Item.elem h x w1 w2).call L.mem a h],
          .same (c := storeCfg L g) (h := h) rfl (by rw [hpn]; exact (p_iff _).mpr (.inl hm)) hb, ?_⟩
        rw [hall]
        exact stored_single rfl hh hx _
      · have hall : allItem L.mk' L.xs (.elem h x w1 w2) = allContent L.mk' L.xs x := by
          simp only [allItem]; rw [if_neg hx, if_neg hm]
        rw [hall] at hf ⊢
        obtain ⟨o, ks, s1, s2, s3⟩ := store_content g x (a := a + 1 + h.render.length + 1) (by omega) cs hok'.2.1 (elem_here hh) hf
        refine ⟨_, ks, .elem ?_ s1, s2.imp fun k s hk => hk.mono (by omega) hlen, s3⟩
        rw [hpn, ← Bool.not_eq_true, p_iff]
        exact fun e => e.elim hm hx
theorem store_content (g : Glossary) (x : Content) {a last : Nat} {r : List Nat} (ha : a ≠ 0) (cs : List Call) (hok : x.Ok)
    (hh : Here L.mem last a (x.render ++ r)) (hf : fine (allContent L.mk' L.xs x)) :
    ∃ o ks, ContentSem (storeCfg L g) a x cs o (cs ++ ks) ∧ Stored L a (a + x.render.length) ks (allContent L.mk' L.xs x) := by
  match x with
  | .nil t => exact ⟨_, [], by rw [List.append_nil]; exact .nil, .nil, List.Pairwise.nil⟩
  | .openRef t b => exact ⟨_, [], by rw [List.append_nil]; exact .openRef, .nil, List.Pairwise.nil⟩
  | .cons t i rest =>
    unfold Content.Ok at hok
    simp only [Content.render, List.append_assoc] at hh
    have hall : allContent L.mk' L.xs (.cons t i rest) = allItem L.mk' L.xs i ++ allContent L.mk' L.xs rest := rfl
    rw [hall] at hf ⊢
    obtain ⟨o1, k1, a1, a2, a3⟩ := store_item g i (a := a + t.length) (by omega) cs hok.2.1 hh.drop (fun s hs => hf s (List.mem_append_left _ hs))
    obtain ⟨o2, k2, b1, b2, b3⟩ := store_content g rest (a := a + t.length + i.render.length) (by omega) (cs ++ k1) hok.2.2 hh.drop.drop
      (fun s hs => hf s (List.mem_append_right _ hs))
    have hlen : (Content.cons t i rest).render.length = t.length + (i.render.length + rest.render.length) := by simp [Content.render]
    refine ⟨_, k1 ++ k2, by rw [← List.append_assoc]; exact .cons a1 b1, ?_, ?_⟩
    · rw [List.filter_append]
      exact List.rel_append (a2.imp fun k s hk => hk.mono (by omega) (by omega)) (b2.imp fun k s hk => hk.mono (by omega) (by omega))
    · rw [List.filter_append]
      exact incr_append a3 b3 a2 b2
end

theorem store_all {lo hi : Nat} : ∀ {ks : List Call} {ss : List (Head × Content)}, List.Forall₂ (SCall L lo hi) ks ss → Incr ks →
    (∀ k ∈ ks, isX L k = true) → ∀ g : Glossary, Ordered L g → (∀ e ∈ g, ∀ k ∈ ks, e.value ≠ k.value) →
    ∃ new, (∀ k : List Nat, (ks.foldl (storeCall L) g).filter (fun e => keyText L e = k) =
        g.filter (fun e => keyText L e = k) ++ new.filter (fun e => keyText L e = k)) ∧ Ordered L (ks.foldl (storeCall L) g) ∧
      (∀ e, e ∈ ks.foldl (storeCall L) g ↔ e ∈ g ∨ e ∈ new) ∧
      List.Forall₂ (EntryOf L) new ss ∧ ∀ e ∈ new, lo < e.value.first ∧ e.value.first < hi := by
  intro ks ss h
  induction h with
  | nil => intro _ _ g hg _; exact ⟨[], by simp, hg, by simp, .nil, by simp⟩
  | @cons k s ks ss hk hks ih =>
    intro hp hX g hg hd
    obtain ⟨hp1, hp2⟩ := List.pairwise_cons.mp hp
    have hx := hX k List.mem_cons_self
    unfold isX at hx
    have hex : exactMatch L g k.attrs k.value = none := exact_none fun e he => hd e he k List.mem_cons_self
    have e : storeCall L g k = insertEntry L ⟨idOf L k.attrs, k.attrs, k.value⟩ g := by
      unfold storeCall store; rw [hx, hex]; rfl
    obtain ⟨new, h1, h2, h3, h4, h5⟩ := ih hp2 (fun k h => hX k (List.mem_cons_of_mem _ h))
      (insertEntry L ⟨idOf L k.attrs, k.attrs, k.value⟩ g) (insert_ordered hg _) (fun e he k' hk' => by
        rcases (insert_mem L _ e g).mp he with rfl | he
        · have := hp1 k' hk'
          intro e
          simp only at e
          rw [e] at this
          omega
        · exact hd e he k' (List.mem_cons_of_mem _ hk'))
    obtain ⟨⟨a, last, l, hl, hat⟩, hr, hb1, hb2⟩ := hk
    refine ⟨⟨idOf L k.attrs, k.attrs, k.value⟩ :: new, ?_⟩
    rw [List.foldl_cons, e]
    refine ⟨fun q => ?_, h2, fun e => ?_, .cons ⟨?_, hr⟩ h4, ?_⟩
    · rw [h1 q, insert_filter hg, List.filter_cons]
      by_cases hq : keyText L ⟨idOf L k.attrs, k.attrs, k.value⟩ = q <;> simp [hq]
    · rw [h3 e, insert_mem, List.mem_cons]; tauto
    · have := idOf_text (L := L) hl
      rw [← hat] at this
      exact this
    · intro e he
      rcases List.mem_cons.mp he with rfl | he
      · exact ⟨hb1, hb2⟩
      · exact h5 e he

/-! ### Sequences of elements -/

theorem begins_item {i : Item} (hi : i.Ok) (hd : i.head? ≠ none) (r : List Nat) {P : Xml.Kind → Prop} (hP : P .openTag) : Begins (i.render ++ r) P := by
  have : ∃ d t, i.render ++ r = 60 :: d :: t ∧ (White d ∨ NameStart d) := by
    cases i with
    | ref _ => simp [Item.head?] at hd
    | comment _ => simp [Item.head?] at hd
    | empty g =>
      obtain ⟨d, t, h1, h2⟩ := Xml.head_first (h := g) hi (47 :: 62 :: r)
      exact ⟨d, t, by simpa [Item.render] using h1, h2⟩
    | elem g y w1 w2 =>
      unfold Item.Ok at hi
      obtain ⟨d, t, h1, h2⟩ := Xml.head_first hi.1 (62 :: (y.render ++ 60 :: 47 :: (w1 ++ (g.name ++ (w2 ++ 62 :: r)))))
      exact ⟨d, t, by simpa [Item.render] using h1, h2⟩
  obtain ⟨d, t, e, hdt⟩ := this
  rw [e]
  refine .inr ⟨.openTag, 0, 1, 1, .openTag _ ?_ ?_ ?_, hP⟩
  all_goals
    intro hp
    obtain ⟨z, hz⟩ := hp
    simp only [List.cons_append, List.cons.injEq] at hz
    unfold White NameStart at hdt
    omega

theorem seq_chars {ss : List (Item × List Nat)} (h : SeqOk ss) {t : List Nat} (ht : IsChars t) : MaxChars t (seqRender ss) := by
  cases ss with
  | nil => exact ⟨ht, fun _ => .inl rfl, fun _ => .inl ⟨rfl, by simp⟩⟩
  | cons q ss =>
    obtain ⟨i, u⟩ := q
    have hi := (h (i, u) List.mem_cons_self)
    refine ⟨ht, fun _ => .inr (.inl ?_), fun _ => ?_⟩
    · have hb := begins_item hi.1 hi.2.1 (u ++ seqRender ss) (P := fun k => k = Xml.Kind.openTag) rfl
      have e : seqRender ((i, u) :: ss) = i.render ++ (u ++ seqRender ss) := by simp [seqRender]
      rw [e]
      rcases hb with ⟨-, h⟩ | ⟨k, sk, n, ad, hx, rfl⟩
      · cases h
      · generalize i.render ++ (u ++ seqRender ss) = l at hx
        cases hx
        exact ⟨_, rfl⟩
    · have e : seqRender ((i, u) :: ss) = i.render ++ (u ++ seqRender ss) := by simp [seqRender]
      rw [e]
      exact begins_item hi.1 hi.2.1 (u ++ seqRender ss) (P := fun k => k ≠ Xml.Kind.charData) (by simp)

theorem store_seq (g : Glossary) : ∀ (ss : List (Item × List Nat)) {a last : Nat} (_ : a ≠ 0) (cs : List Call) (_ : SeqOk ss)
    (_ : Here L.mem last a (seqRender ss)) (_ : fine (ss.flatMap fun q => allItem L.mk' L.xs q.1)),
    ∃ o ks, SeqSem (storeCfg L g) a (seqRender ss) cs o (cs ++ ks) ∧
      Stored L a (a + (seqRender ss).length) ks (ss.flatMap fun q => allItem L.mk' L.xs q.1) := by
  intro ss
  induction ss with
  | nil =>
    intro a last _ cs _ _ _
    exact ⟨[], [], by rw [List.append_nil]; exact .stop (.inl ⟨rfl, by simp⟩), .nil, List.Pairwise.nil⟩
  | cons q ss ih =>
    obtain ⟨i, u⟩ := q
    intro a last ha cs hok hh hf
    obtain ⟨h1, h2, h3⟩ := hok (i, u) List.mem_cons_self
    have hok' : SeqOk ss := fun q hq => hok q (List.mem_cons_of_mem _ hq)
    have e : seqRender ((i, u) :: ss) = i.render ++ (u ++ seqRender ss) := by simp [seqRender]
    rw [e] at hh
    rw [List.flatMap_cons] at hf ⊢
    obtain ⟨o1, k1, a1, a2, a3⟩ := store_item g i ha cs h1 hh (fun s hs => hf s (List.mem_append_left _ hs))
    obtain ⟨o2, k2, b1, b2, b3⟩ := ih (a := a + i.render.length + u.length) (by omega) (cs ++ k1) hok' hh.drop.drop
      (fun s hs => hf s (List.mem_append_right _ hs))
    have hlen : (seqRender ((i, u) :: ss)).length = i.render.length + (u.length + (seqRender ss).length) := by rw [e]; simp
    refine ⟨_, k1 ++ k2, by rw [← List.append_assoc, e]; exact .step h1 h2 (seq_chars hok' h3) a1 b1, ?_, ?_⟩
    · rw [List.filter_append]
      exact List.rel_append (a2.imp fun k s hk => hk.mono (by omega) (by omega)) (b2.imp fun k s hk => hk.mono (by omega) (by omega))
    · rw [List.filter_append]
      exact incr_append a3 b3 (a2.imp fun k s hk => hk.mono (Nat.le_refl _) (Nat.le_add_right _ u.length)) b2

theorem glossary_spec {g : Glossary} (hg : Ordered L g) {t : Tok} {ss : List (Item × List Nat)} (h0 : t.first ≠ 0) (hle : t.first ≤ t.second)
    (ht : t.text L.mem = seqRender ss) (hok : SeqOk ss) (hf : fine (ss.flatMap fun q => allItem L.mk' L.xs q.1))
    (hd : ∀ e ∈ g, e.value.first ≤ t.first ∨ t.second ≤ e.value.first) :
    ∃ n0 g' new, (∀ n, n0 ≤ n → glossaryParse L n g t = .ok g' ()) ∧
      (∀ k : List Nat, g'.filter (fun e => keyText L e = k) = g.filter (fun e => keyText L e = k) ++ new.filter (fun e => keyText L e = k)) ∧
      Ordered L g' ∧ (∀ e, e ∈ g' ↔ e ∈ g ∨ e ∈ new) ∧ List.Forall₂ (EntryOf L) new (ss.flatMap fun q => allItem L.mk' L.xs q.1) ∧
      ∀ e ∈ new, t.first < e.value.first ∧ e.value.first < t.second := by
  obtain ⟨a, last⟩ := t
  have hh : Here L.mem last a (seqRender ss) := ⟨hle, ht⟩
  have hlast : a + (seqRender ss).length = last := hh.len.symm
  obtain ⟨o, ks, h1, h2, h3⟩ := store_seq g ss h0 [] hok hh hf
  rw [hlast] at h2
  have hmem : ∀ k ∈ ks.filter (isX L), a < k.value.first ∧ k.value.first < last := by
    clear h3
    generalize ks.filter (isX L) = ks' at h2
    generalize (ss.flatMap fun q => allItem L.mk' L.xs q.1) = ss' at h2
    induction h2 with
    | nil => simp
    | cons h _ ih =>
      intro k hk
      rcases List.mem_cons.mp hk with rfl | hk
      · exact h.2.2
      · exact ih k hk
  obtain ⟨new, n1, n2, n3, n4, n5⟩ := store_all h2 h3 (fun k hk => (List.mem_filter.mp hk).2) g hg (fun e he k hk heq => by
    have b := hmem k hk
    have := hd e he
    rw [heq] at this
    simp only at this
    omega)
  obtain ⟨n0, hn⟩ := Xml.C92_sequence (c := storeCfg L g) hle ht h1
  refine ⟨n0, (ks.filter (isX L)).foldl (storeCall L) g, new, fun n hle' => ?_, n1, n2, n3, n4, n5⟩
  obtain ⟨s, e1, e2, e3⟩ := hn n hle'
  unfold glossaryParse
  by_cases hz : (Tok.mk a last).size = 0
  · rw [if_pos hz]
    have : seqRender ss = [] := by
      rw [← List.length_eq_zero_iff, ← ht, XmlAttr.Tok.text_length]; exact hz
    have hks : ks.filter (isX L) = [] := by
      rw [List.filter_eq_nil_iff]
      intro k hk hkx
      have := hmem k (List.mem_filter.mpr ⟨hk, hkx⟩)
      have hz' : last - a = 0 := hz
      omega
    rw [hks]; rfl
  · rw [if_neg hz, e1]
    simp only
    rw [e3, List.nil_append, foldl_filter (storeCall L) (isX L) (fun b k h => by unfold isX at h; simp [storeCall, h])]

end Verif.XString
