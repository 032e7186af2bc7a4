import Verif.Script.Spec
import Verif.Script.Lits
import Verif.Cel.Layout
/-!
What the formatter writes, for any style.
-/
namespace Verif.Script
open Verif.Expr
open Verif.Cel (Tag Elem St named sortKeys Outside sortKeys_map mem_sortKeys forall₂_map normMembers_eq normAll_eq)
open Verif.Cel.Spec (tabs norm normAll normMembers)
open Spec

variable {D O : Type} {c : Cfg D O} {y : Style}

mutual
/-- The text of a value in any style. -/
def text (y : Style) (num : D → Str) (typeO : O → Str) (d : Nat) : Val D O → Str
  | .empty => y.empty
  | .bool b => if b then lit "true" else lit "false"
  | .num x => num x
  | .name n => y.name false n
  | .str s => y.str s
  | .arr [] => lit "[ ]"
  | .arr (v :: vs) => lit "[ " ++ (text y num typeO d v ++ textMore y num typeO d vs) ++ lit " ]"
  | .dict [] => y.openBag ++ (lit " " ++ y.closeBag)
  | .dict ((k, v) :: ms) => y.openBag ++ (lit "\n" ++ tabs (d + 1) ++ (y.name true k ++ (text y num typeO (d + 1) v ++
      (textMembers y num typeO (d + 1) ms ++ (lit "\n" ++ tabs d ++ y.closeBag)))))
  | .other o => y.unknown (typeO o)
def textMore (y : Style) (num : D → Str) (typeO : O → Str) (d : Nat) : List (Val D O) → Str
  | [] => []
  | v :: vs => y.comma ++ text y num typeO d v ++ textMore y num typeO d vs
def textMembers (y : Style) (num : D → Str) (typeO : O → Str) (d : Nat) : List (Str × Val D O) → Str
  | [] => []
  | (k, v) :: ms => y.sep ++ (lit "\n" ++ tabs d ++ (y.name true k ++ (text y num typeO d v ++ textMembers y num typeO d ms)))
end

/-- `p` writes `t` and replaces the stack `x` by `x'`. -/
def Puts (p : M) (t : Str) (d : Nat) (x x' : List Elem) : Prop := ∀ out, p ⟨out, d, x⟩ = .ok ⟨out ++ t, d, x'⟩

theorem Puts.seq {p q : M} {t u : Str} {d : Nat} {x x' z : List Elem} (h : Puts p t d x x') (h' : Puts q u d x' z) :
    Puts (seq p q) (t ++ u) d x z := by
  intro out
  simp [Script.seq, h out, h' (out ++ t)]

theorem Puts.cast {p : M} {t u : Str} {d : Nat} {x x' : List Elem} (h : Puts p t d x x') (e : t = u) : Puts p u d x x' := e ▸ h

theorem puts_write (t : Str) (d : Nat) (x : List Elem) : Puts (write t) t d x x := fun _ => rfl
theorem puts_push (t : Tag) (d : Nat) (x : List Elem) : Puts (push t) [] d x (⟨t, 0⟩ :: x) := fun out => by simp [push]
theorem puts_drop (d : Nat) (e : Elem) (x : List Elem) : Puts drop [] d (e :: x) x := fun out => by simp [drop]

theorem Puts.manip {p : M} {t : Str} {d : Nat} {x x' : List Elem} (h : Puts p t d x x') : Puts (manip p) t d x x' := by
  intro out
  simp [Script.manip, h out]

theorem format_outside {body : Bool → M} {t : Str} {d : Nat} {e : Elem} {r : List Elem} (ho : Outside e r)
    (h : Puts (body false) t d (⟨.atom, 0⟩ :: e :: r) (⟨.atom, 0⟩ :: e :: r)) :
    Puts (format y body) ((if 0 < e.numOut then y.comma else []) ++ t) d (e :: r) ({ e with numOut := e.numOut + 1 } :: r) := by
  intro out
  have hb : ∀ o : Str, St.inBag ⟨o, d, ⟨.atom, 0⟩ :: e :: r⟩ = false := by
    intro o
    unfold St.inBag
    rw [decide_eq_false_iff_not]
    rintro ⟨h1, h2⟩
    exact ho ⟨by simpa [St.tag] using h1, by simpa [St.tag] using h2⟩
  have hp : Puts (atomPush y body) ((if 0 < e.numOut then y.comma else []) ++ t) d (⟨.atom, 0⟩ :: e :: r) (⟨.atom, 0⟩ :: e :: r) := by
    intro o
    simp only [atomPush, St.counter, hb o, named, Bool.false_eq_true, if_false, List.getElem?_cons_succ, List.getElem?_cons_zero,
      Bool.not_false, if_true, Bool.false_and]
    rw [h]
    simp
  have hq : Puts atomPop [] d (⟨.atom, 0⟩ :: e :: r) (⟨.atom, 0⟩ :: { e with numOut := e.numOut + 1 } :: r) := by
    intro o
    simp [atomPop, St.counter, hb o]
  have := ((((puts_push .atom d (e :: r)).seq hp).manip.seq (hq.seq (puts_drop d _ _))).manip) out
  simpa [format] using this

theorem format_member {body : Bool → M} {t : Str} {d n : Nat} {k : Nat} {r : List Elem}
    (h : Puts (body (n % 2 == 0)) t d (⟨.atom, 0⟩ :: ⟨.seq, k⟩ :: ⟨.bag, n⟩ :: r) (⟨.atom, 0⟩ :: ⟨.seq, k⟩ :: ⟨.bag, n⟩ :: r)) :
    Puts (format y body) ((if n = 0 then '\n' :: tabs d else if n % 2 = 0 then y.sep ++ '\n' :: tabs d else []) ++ t) d
      (⟨.seq, k⟩ :: ⟨.bag, n⟩ :: r) (⟨.seq, k⟩ :: ⟨.bag, n + 1⟩ :: r) := by
  intro out
  have hb : ∀ o : Str, ∀ n, St.inBag ⟨o, d, ⟨.atom, 0⟩ :: ⟨.seq, k⟩ :: ⟨.bag, n⟩ :: r⟩ = true := by
    intro o n
    simp [St.inBag, St.tag]
  have hp : Puts (atomPush y body) ((if n = 0 then '\n' :: tabs d else if n % 2 = 0 then y.sep ++ '\n' :: tabs d else []) ++ t) d
      (⟨.atom, 0⟩ :: ⟨.seq, k⟩ :: ⟨.bag, n⟩ :: r) (⟨.atom, 0⟩ :: ⟨.seq, k⟩ :: ⟨.bag, n⟩ :: r) := by
    intro o
    simp only [atomPush, St.counter, hb o, named, if_true, List.getElem?_cons_succ, List.getElem?_cons_zero,
      Bool.not_true, Bool.false_eq_true, if_false, Bool.true_and]
    rw [h]
    have : (n % 2 == 0) = decide (n % 2 = 0) := rfl
    rcases Nat.eq_zero_or_pos n with h0 | h0
    · simp [h0, tabs]
    · simp [h0, this, tabs, show n ≠ 0 by omega]
  have hq : Puts atomPop [] d (⟨.atom, 0⟩ :: ⟨.seq, k⟩ :: ⟨.bag, n⟩ :: r) (⟨.atom, 0⟩ :: ⟨.seq, k⟩ :: ⟨.bag, n + 1⟩ :: r) := by
    intro o
    simp [atomPop, St.counter, hb o]
  have := ((((puts_push .atom d _).seq hp).manip.seq (hq.seq (puts_drop d _ _))).manip) out
  simpa [format] using this

/-- `p` prints a value with the text `t d` (where `d` is the indentation). -/
def Prints (y : Style) (p : M) (t : Nat → Str) : Prop :=
  ∃ body, p = format y body ∧ ∀ d r, Puts (body false) (t d) d (⟨.atom, 0⟩ :: r) (⟨.atom, 0⟩ :: r)

theorem Prints.outside {p : M} {t : Nat → Str} (h : Prints y p t) (d : Nat) {e : Elem} {r : List Elem} (ho : Outside e r) :
    Puts p ((if 0 < e.numOut then y.comma else []) ++ t d) d (e :: r) ({ e with numOut := e.numOut + 1 } :: r) := by
  obtain ⟨body, rfl, hb⟩ := h
  exact format_outside ho (hb d _)

theorem Prints.member {p : M} {t : Nat → Str} (h : Prints y p t) {d n k : Nat} {r : List Elem} (hn : n % 2 = 1) :
    Puts p (t d) d (⟨.seq, k⟩ :: ⟨.bag, n⟩ :: r) (⟨.seq, k⟩ :: ⟨.bag, n + 1⟩ :: r) := by
  obtain ⟨body, rfl, hb⟩ := h
  have hf : (n % 2 == 0) = false := by simp [hn]
  have := format_member (y := y) (body := body) (t := t d) (d := d) (n := n) (k := k) (r := r) (by rw [hf]; exact hb d _)
  exact this.cast (by simp [show n ≠ 0 by omega, hn])

theorem puts_key {d n k : Nat} {r : List Elem} (key : Str) (hn : n % 2 = 0) :
    Puts (putName y key) ((if n = 0 then '\n' :: tabs d else y.sep ++ '\n' :: tabs d) ++ y.name true key) d
      (⟨.seq, k⟩ :: ⟨.bag, n⟩ :: r) (⟨.seq, k⟩ :: ⟨.bag, n + 1⟩ :: r) := by
  have hf : (n % 2 == 0) = true := by simp [hn]
  have := format_member (y := y) (body := fun nm => write (y.name nm key))
    (t := y.name true key) (d := d) (n := n) (k := k) (r := r) (by rw [hf]; exact puts_write _ _ _)
  exact this.cast (by simp [hn])

/-- The text of the elements of an array after the first. -/
def more (y : Style) (d : Nat) : List (Nat → Str) → Str
  | [] => []
  | t :: ts => y.comma ++ t d ++ more y d ts

def elems (y : Style) (d : Nat) : List (Nat → Str) → Str
  | [] => []
  | t :: ts => t d ++ more y d ts

theorem all_outside {ps : List M} {ts : List (Nat → Str)} (h : List.Forall₂ (Prints y) ps ts) (d : Nat) {r : List Elem}
    (hr : (r[0]?).map (·.tag) ≠ some .bag) (n : Nat) :
    Puts (all ps) (if 0 < n then more y d ts else elems y d ts) d (⟨.seq, n⟩ :: r) (⟨.seq, n + ps.length⟩ :: r) := by
  induction h generalizing n with
  | nil => intro out; simp [all, skip, more, elems]
  | @cons p t ps ts hp _ ih =>
    have h1 := hp.outside d (e := ⟨.seq, n⟩) (r := r) (by rintro ⟨_, h⟩; exact hr h)
    have h2 := h1.seq (ih (n + 1))
    have e : n + (p :: ps).length = n + 1 + ps.length := by simp; omega
    rw [e]
    refine h2.cast ?_
    rcases Nat.eq_zero_or_pos n with h0 | h0
    · simp [h0, elems]
    · simp [h0, more]

theorem putArray_puts {ps : List M} {ts : List (Nat → Str)} (h : List.Forall₂ (Prints y) ps ts) (d : Nat) {r : List Elem}
    (hr : (r[0]?).map (·.tag) ≠ some .bag) :
    Puts (putArray y ps) (lit "[ " ++ (elems y d ts ++ if ts = [] then lit "]" else lit " ]")) d r r := by
  have h1 := all_outside h d hr 0
  have h2 : Puts (eventPush y) (lit "[ ") d (⟨.seq, 0⟩ :: r) (⟨.seq, 0⟩ :: r) := by
    intro out
    have : St.tag ⟨out, d, ⟨.seq, 0⟩ :: r⟩ 1 ≠ some .bag := by simpa [St.tag] using hr
    unfold eventPush
    rw [if_neg this]
    rfl
  have h3 : Puts (eventPop y) (if ts = [] then lit "]" else lit " ]") d (⟨.seq, 0 + ps.length⟩ :: r) (⟨.seq, 0 + ps.length⟩ :: r) := by
    intro out
    have : St.tag ⟨out, d, ⟨.seq, 0 + ps.length⟩ :: r⟩ 1 ≠ some .bag := by simpa [St.tag] using hr
    have hl := h.length_eq
    unfold eventPop
    simp only [this, if_false]
    cases ts with
    | nil => simp at hl; simp [hl]
    | cons t ts => simp at hl; simp [hl]
  have := (puts_push .seq d r).seq (h2.seq (h1.seq (h3.seq (puts_drop d _ r))))
  exact this.cast (by simp)

/-- The text of the members of a dictionary after the first. -/
def moreMembers (y : Style) (d : Nat) : List (Str × (Nat → Str)) → Str
  | [] => []
  | (k, t) :: ts => y.sep ++ (lit "\n" ++ tabs d ++ (y.name true k ++ (t d ++ moreMembers y d ts)))

def members (y : Style) (d : Nat) : List (Str × (Nat → Str)) → Str
  | [] => []
  | (k, t) :: ts => lit "\n" ++ tabs d ++ (y.name true k ++ (t d ++ moreMembers y d ts))

def memberM (y : Style) (m : Str × M) : M := seq (push .seq) (seq (eventPush y) (seq (putName y m.1) (seq m.2 (seq (eventPop y) drop))))

theorem puts_member {m : Str × M} {t : Nat → Str} (h : Prints y m.2 t) (d : Nat) {n : Nat} (hn : n % 2 = 0) (r : List Elem) :
    Puts (memberM y m) ((if n = 0 then '\n' :: tabs d else y.sep ++ '\n' :: tabs d) ++ (y.name true m.1 ++ t d)) d (⟨.bag, n⟩ :: r)
      (⟨.bag, n + 2⟩ :: r) := by
  have h1 : Puts (eventPush y) [] d (⟨.seq, 0⟩ :: ⟨.bag, n⟩ :: r) (⟨.seq, 0⟩ :: ⟨.bag, n⟩ :: r) := by
    intro out
    simp [eventPush, St.tag]
  have h2 : Puts (eventPop y) [] d (⟨.seq, 0⟩ :: ⟨.bag, n + 2⟩ :: r) (⟨.seq, 0⟩ :: ⟨.bag, n + 2⟩ :: r) := by
    intro out
    simp [eventPop, St.tag]
  have h3 := h.member (d := d) (n := n + 1) (k := 0) (r := r) (by omega)
  have := (puts_push .seq d (⟨.bag, n⟩ :: r)).seq (h1.seq ((puts_key (y := y) (d := d) (k := 0) (r := r) m.1 hn).seq (h3.seq (h2.seq (puts_drop d _ _)))))
  exact this.cast (by simp)

theorem all_members {ms : List (Str × M)} {ts : List (Str × (Nat → Str))}
    (h : List.Forall₂ (fun m t => m.1 = t.1 ∧ Prints y m.2 t.2) ms ts) (d : Nat) (r : List Elem) (n : Nat) :
    Puts (all (ms.map (memberM y))) (if 0 < n then moreMembers y d ts else members y d ts) d (⟨.bag, 2 * n⟩ :: r)
      (⟨.bag, 2 * (n + ms.length)⟩ :: r) := by
  induction h generalizing n with
  | nil => intro out; simp [all, skip, moreMembers, members]
  | @cons m t ms ts hp _ ih =>
    obtain ⟨k, t⟩ := t
    obtain ⟨h0, h1⟩ := hp
    simp only at h0 h1
    have h2 := (puts_member h1 d (n := 2 * n) (by omega) r).seq (ih (n + 1))
    have e : 2 * (n + (m :: ms).length) = 2 * (n + 1 + ms.length) := by simp; omega
    rw [e]
    refine h2.cast ?_
    rcases Nat.eq_zero_or_pos n with h0' | h0'
    · simp [h0', h0, members]
    · rw [if_neg (show ¬ 2 * n = 0 by omega)]
      simp [h0', h0, moreMembers]

theorem putDictionary_puts {ms : List (Str × M)} {ts : List (Str × (Nat → Str))}
    (h : List.Forall₂ (fun m t => m.1 = t.1 ∧ Prints y m.2 t.2) (sortKeys ms) ts) (d : Nat) (r : List Elem) :
    Puts (putDictionary y ms)
      (y.openBag ++ (members y (d + 1) ts ++ ((if ts = [] then lit " " else lit "\n" ++ tabs d) ++ y.closeBag))) d r r := by
  intro out
  have h1 := all_members h (d + 1) r 0
  have hl := h.length_eq
  have e : (sortKeys ms).map (fun m => seq (push .seq) (seq (eventPush y) (seq (putName y m.1) (seq m.2 (seq (eventPop y) drop))))) =
      (sortKeys ms).map (memberM y) := rfl
  unfold putDictionary
  rw [e]
  have hbegin : manip (seq (push .bag) (eventPush y)) ⟨out, d, r⟩ = .ok ⟨out ++ y.openBag, d + 1, ⟨.bag, 0⟩ :: r⟩ := by
    simp [manip, seq, push, eventPush, St.tag]
  have hall := h1 (out ++ y.openBag)
  simp only [Nat.mul_zero, Nat.lt_irrefl, if_false] at hall
  simp only [seq, hbegin, hall, eventPop, drop]
  cases ts with
  | nil =>
    simp at hl
    simp [hl, members]
  | cons t ts =>
    simp at hl
    simp [hl, tabs]

/-! ### The text of values -/

variable {num : D → Str}

theorem more_eq (d : Nat) (vs : List (Val D O)) : more y d (vs.map fun v d => text y num c.typeO d (norm v)) = textMore y num c.typeO d (normAll vs) := by
  induction vs with
  | nil => rfl
  | cons v vs ih => simp [more, normAll, textMore, ih]

theorem moreMembers_eq (d : Nat) (ms : List (Str × Val D O)) :
    moreMembers y d (ms.map fun m => (m.1, fun d => text y num c.typeO d (norm m.2))) = textMembers y num c.typeO d (ms.map fun m => (m.1, norm m.2)) := by
  induction ms with
  | nil => rfl
  | cons m ms ih => simp [moreMembers, textMembers, ih]

theorem putMembers_eq (ms : List (Str × Val D O)) : putMembers c ms = ms.map fun m => (m.1, put c m.2) := by
  induction ms with
  | nil => rfl
  | cons m ms ih => obtain ⟨k, v⟩ := m; simp [putMembers, ih]

theorem dict_puts (ms : List (Str × Val D O)) (h : ∀ m ∈ ms, Prints c.style (put c m.2) (fun d => text c.style num c.typeO d (norm m.2))) (d : Nat) (r : List Elem) :
    Puts (putDictionary c.style (putMembers c ms)) (text c.style num c.typeO d (norm (.dict ms))) d r r := by
  have h2 := putDictionary_puts (y := c.style) (ms := putMembers c ms) (ts := (sortKeys ms).map fun m => (m.1, fun d => text c.style num c.typeO d (norm m.2)))
    (by
      rw [putMembers_eq, sortKeys_map]
      exact forall₂_map _ _ fun m hm => ⟨rfl, h m (mem_sortKeys.mp hm)⟩) d r
  refine h2.cast ?_
  simp only [norm, normMembers_eq, sortKeys_map]
  cases sortKeys ms with
  | nil => simp [text, members]
  | cons m ms => simp [text, members, moreMembers_eq]

theorem array_puts (vs : List (Val D O)) (h : List.Forall₂ (Prints c.style) (putAll c vs) (vs.map fun v d => text c.style num c.typeO d (norm v))) (d : Nat)
    {r : List Elem} (hr : (r[0]?).map (·.tag) ≠ some .bag) :
    Puts (putArray c.style (putAll c vs)) (text c.style num c.typeO d (norm (.arr vs))) d r r := by
  refine (putArray_puts h d hr).cast ?_
  cases vs with
  | nil => simp [norm, text, normAll, elems]
  | cons v vs => simp [norm, text, normAll, elems, more_eq]

mutual
theorem text_prints (v : Val D O) (hn : Numbers (fun x => numText c x = some (num x)) v) :
    Prints c.style (put c v) (fun d => text c.style num c.typeO d (norm v)) := by
  match v with
  | .empty => exact ⟨_, rfl, fun d r => puts_write _ _ _⟩
  | .bool b => exact ⟨_, rfl, fun d r => puts_write _ _ _⟩
  | .num x =>
    refine ⟨_, rfl, fun d r => ?_⟩
    have : numText c x = some (num x) := hn
    simp only [this]
    exact puts_write _ _ _
  | .name n => exact ⟨_, rfl, fun d r => puts_write _ _ _⟩
  | .other o => exact ⟨_, rfl, fun d r => puts_write _ _ _⟩
  | .str s => exact ⟨_, rfl, fun d r => puts_write _ _ _⟩
  | .arr vs => exact ⟨_, rfl, fun d r => array_puts vs (all_prints vs hn) d (by simp)⟩
  | .dict ms => exact ⟨_, rfl, fun d r => dict_puts ms (members_print ms hn) d _⟩
theorem all_prints (vs : List (Val D O)) (hn : NumbersAll (fun x => numText c x = some (num x)) vs) :
    List.Forall₂ (Prints c.style) (putAll c vs) (vs.map fun v d => text c.style num c.typeO d (norm v)) := by
  match vs with
  | [] => exact .nil
  | v :: vs => exact .cons (text_prints v hn.1) (all_prints vs hn.2)
theorem members_print (ms : List (Str × Val D O)) (hn : NumbersMembers (fun x => numText c x = some (num x)) ms) :
    ∀ m ∈ ms, Prints c.style (put c m.2) (fun d => text c.style num c.typeO d (norm m.2)) := by
  match ms with
  | [] => simp
  | (k, v) :: ms =>
    intro m hm
    rcases List.mem_cons.mp hm with h | hm
    · rw [h]; exact text_prints v hn.1
    · exact members_print ms hn.2 m hm
end

theorem serialize_text (v : Val D O) (hn : Numbers (fun x => numText c x = some (num x)) v) :
    serialize c v = some (c.style.beginF ++ text c.style num c.typeO 0 (norm v) ++ c.style.endF) := by
  have h := (text_prints v hn).outside 0 (e := ⟨.format, 0⟩) (r := []) (by rintro ⟨h, -⟩; cases h) c.style.beginF
  unfold serialize
  have e : beginFormat c.style ⟨[], 0, []⟩ = .ok ⟨c.style.beginF, 0, [⟨.format, 0⟩]⟩ := by simp [beginFormat, seq, push, eventPush, St.tag]
  simp only [seq, e, h]
  simp [endFormat, seq, eventPop, drop]

end Verif.Script
