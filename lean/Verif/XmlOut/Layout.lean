import Verif.XmlOut.Spec
import Verif.Cel.Layout
/-!
What the formatter writes.
-/
namespace Verif.XmlOut
open Verif.Expr
open Verif.XmlOut.Spec
open Verif.Cel (Tag Elem St M seq skip write manip push drop all sortKeys Puts puts_write puts_push puts_drop)
open Verif.Cel.Spec (norm normAll normMembers)

variable {D O : Type} {c : Cfg D O}

/-- The stack `e :: r` with one atom more. -/
def counted : List Elem → List Elem
  | ⟨.seq, n⟩ :: r => ⟨.seq, n + 1⟩ :: r
  | r => r

/-- The next atom is the name of a member. -/
def keyPos : List Elem → Bool
  | ⟨.seq, 0⟩ :: ⟨.bag, _⟩ :: _ => true
  | _ => false

theorem isKey_eq (o : Str) (d : Nat) (e : Elem) (r : List Elem) : St.isKey ⟨o, d, e :: r⟩ = keyPos r := by
  unfold St.isKey
  match r with
  | [] => simp [St.tag, keyPos]
  | [⟨t, n⟩] => simp [St.tag, keyPos]
  | ⟨t, n⟩ :: ⟨u, m⟩ :: r =>
    cases t <;> cases u <;> cases n <;> simp [St.tag, keyPos]

theorem puts_atomPop (d : Nat) (r : List Elem) (k : Nat) :
    Puts atomPop "\n".toList d (⟨.atom, k⟩ :: r) (⟨.atom, k⟩ :: counted r) := by
  intro out
  match r with
  | [] => simp [atomPop, counted]
  | ⟨t, n⟩ :: r => cases t <;> simp [atomPop, counted]

theorem format_puts {body : Bool → M} {t : Str} {d : Nat} {r : List Elem}
    (h : Puts (body (keyPos r)) t d (⟨.atom, 0⟩ :: r) (⟨.atom, 0⟩ :: r)) :
    Puts (format body) (indents d ++ (t ++ "\n".toList)) d r (counted r) := by
  intro out
  have hp : Puts (atomPush body) (indents d ++ t) d (⟨.atom, 0⟩ :: r) (⟨.atom, 0⟩ :: r) := by
    intro o
    simp only [atomPush, isKey_eq]
    rw [h]
    simp
  have := ((((puts_push .atom d r).seq hp).manip.seq ((puts_atomPop d r 0).seq (puts_drop d _ _))).manip) out
  simpa [format] using this

/-- `p` prints a value with the text `t d` (where `d` is the indentation). -/
def Prints (p : M) (t : Nat → Str) : Prop :=
  ∀ d r, keyPos r = false → Puts p (indents d ++ (t d ++ "\n".toList)) d r (counted r)

theorem prints_atom {p : M} {t : Nat → Str} (h : ∀ d r, Puts p (t d) d (⟨.atom, 0⟩ :: r) (⟨.atom, 0⟩ :: r)) : Prints (atom p) t := by
  intro d r hk
  exact format_puts (by rw [hk]; exact h d r)

theorem prints_name (n : Str) : Prints (putName n) (fun _ => wrap "ident".toList n) := by
  intro d r hk
  exact format_puts (by rw [hk]; exact puts_write _ _ _)

theorem puts_key (n : Str) (d k : Nat) (r : List Elem) :
    Puts (putName n) (indents d ++ (wrap "key".toList n ++ "\n".toList)) d (⟨.seq, 0⟩ :: ⟨.bag, k⟩ :: r) (⟨.seq, 1⟩ :: ⟨.bag, k⟩ :: r) :=
  format_puts (body := fun key => write (wrap (if key then "key".toList else "ident".toList) n)) (puts_write _ _ _)

/-- The texts, on lines of their own. -/
def lines (d : Nat) : List (Nat → Str) → Str
  | [] => []
  | t :: ts => indents d ++ (t d ++ ("\n".toList ++ lines d ts))

theorem keyPos_seq (n : Nat) {r : List Elem} (hr : (r[0]?).map (·.tag) ≠ some .bag) : keyPos (⟨.seq, n⟩ :: r) = false := by
  match n, r with
  | 0, [] => rfl
  | 0, ⟨t, m⟩ :: r => cases t <;> simp [keyPos] at hr ⊢
  | n + 1, r => cases r <;> rfl

theorem all_puts {ps : List M} {ts : List (Nat → Str)} (h : List.Forall₂ Prints ps ts) (d : Nat) {r : List Elem}
    (hr : (r[0]?).map (·.tag) ≠ some .bag) (n : Nat) :
    Puts (all ps) (lines d ts) d (⟨.seq, n⟩ :: r) (⟨.seq, n + ps.length⟩ :: r) := by
  induction h generalizing n with
  | nil => intro out; simp [all, skip, lines]
  | @cons p t ps ts hp _ ih =>
    have h2 := (hp d (⟨.seq, n⟩ :: r) (keyPos_seq n hr)).seq (ih (n + 1))
    have e : n + (p :: ps).length = n + 1 + ps.length := by simp; omega
    rw [e]
    exact h2.cast (by simp [lines])

/-- The line break after a container that is not in an atom. -/
def close (r : List Elem) : Str := if (r[0]?).map (·.tag) = some .atom then [] else "\n".toList

theorem putArray_puts {ps : List M} {ts : List (Nat → Str)} (h : List.Forall₂ Prints ps ts) (d : Nat) {r : List Elem}
    (hr : (r[0]?).map (·.tag) ≠ some .bag) :
    Puts (putArray ps) ("<array>\n".toList ++ (lines (d + 1) ts ++ (indents d ++ ("</array>".toList ++ close r)))) d r r := by
  intro out
  have ht : ∀ (o : Str) (d n : Nat), St.tag ⟨o, d, ⟨.seq, n⟩ :: r⟩ 1 = (r[0]?).map (·.tag) := fun o d n => by simp [St.tag]
  have h1 := all_puts h (d + 1) hr 0 (out ++ "<array>\n".toList)
  have h2 : eventPush ⟨out, d, ⟨.seq, 0⟩ :: r⟩ = (⟨out ++ "<array>\n".toList, d + 1, ⟨.seq, 0⟩ :: r⟩, false) := by
    unfold eventPush
    have : St.tag ⟨out, d, ⟨.seq, 0⟩ :: r⟩ 0 = some .seq := rfl
    simp only [this, ht]
    rw [if_pos hr]
  have h3 : ∀ (o : Str) n, eventPop ⟨o, d + 1, ⟨.seq, n⟩ :: r⟩ =
      (⟨o ++ (indents d ++ ("</array>".toList ++ close r)), d, ⟨.seq, n⟩ :: r⟩, false) := by
    intro o n
    unfold eventPop
    have : St.tag ⟨o, d + 1, ⟨.seq, n⟩ :: r⟩ 0 = some .seq := rfl
    simp only [this, ht]
    rw [if_pos hr]
    by_cases ha : (r[0]?).map (·.tag) = some .atom
    · simp only [close, ha]; simp
    · simp only [close, ha, ne_eq, not_false_eq_true]; simp
  unfold putArray
  simp only [seq, push, h2, h1, h3, drop]
  simp

def memberLines (d : Nat) : List (Str × (Nat → Str)) → Str
  | [] => []
  | (k, t) :: ts => indents d ++ (wrap "key".toList k ++ ("\n".toList ++ (indents d ++ (t d ++ ("\n".toList ++ memberLines d ts)))))

def memberM (m : Str × M) : M := seq (push .seq) (seq eventPush (seq (putName m.1) (seq m.2 (seq eventPop drop))))

theorem puts_member {m : Str × M} {t : Nat → Str} (h : Prints m.2 t) (d k : Nat) (r : List Elem) :
    Puts (memberM m) (indents d ++ (wrap "key".toList m.1 ++ ("\n".toList ++ (indents d ++ (t d ++ "\n".toList))))) d (⟨.bag, k⟩ :: r)
      (⟨.bag, k⟩ :: r) := by
  have h1 : Puts eventPush [] d (⟨.seq, 0⟩ :: ⟨.bag, k⟩ :: r) (⟨.seq, 0⟩ :: ⟨.bag, k⟩ :: r) := by
    intro out
    simp [eventPush, St.tag]
  have h2 : Puts eventPop [] d (⟨.seq, 2⟩ :: ⟨.bag, k⟩ :: r) (⟨.seq, 2⟩ :: ⟨.bag, k⟩ :: r) := by
    intro out
    simp [eventPop, St.tag]
  have h3 := h d (⟨.seq, 1⟩ :: ⟨.bag, k⟩ :: r) rfl
  have := (puts_push .seq d (⟨.bag, k⟩ :: r)).seq (h1.seq ((puts_key m.1 d k r).seq (h3.seq (h2.seq (puts_drop d _ _)))))
  exact this.cast (by simp)

theorem all_members {ms : List (Str × M)} {ts : List (Str × (Nat → Str))}
    (h : List.Forall₂ (fun m t => m.1 = t.1 ∧ Prints m.2 t.2) ms ts) (d k : Nat) (r : List Elem) :
    Puts (all (ms.map memberM)) (memberLines d ts) d (⟨.bag, k⟩ :: r) (⟨.bag, k⟩ :: r) := by
  induction h with
  | nil => intro out; simp [all, skip, memberLines]
  | @cons m t ms ts hp _ ih =>
    obtain ⟨key, t⟩ := t
    obtain ⟨h0, h1⟩ := hp
    simp only at h0 h1
    exact ((puts_member h1 d k r).seq ih).cast (by simp [h0, memberLines])

theorem putDictionary_puts {ms : List (Str × M)} {ts : List (Str × (Nat → Str))}
    (h : List.Forall₂ (fun m t => m.1 = t.1 ∧ Prints m.2 t.2) (sortKeys ms) ts) (d : Nat) (r : List Elem) :
    Puts (putDictionary ms) ("<dict>\n".toList ++ (memberLines (d + 1) ts ++ (indents d ++ ("</dict>".toList ++ close r)))) d r r := by
  intro out
  have ht : ∀ (o : Str) (d n : Nat), St.tag ⟨o, d, ⟨.bag, n⟩ :: r⟩ 1 = (r[0]?).map (·.tag) := fun o d n => by simp [St.tag]
  have hall := all_members h (d + 1) 0 r (out ++ "<dict>\n".toList)
  have e : (sortKeys ms).map (fun m => seq (push .seq) (seq eventPush (seq (putName m.1) (seq m.2 (seq eventPop drop))))) =
      (sortKeys ms).map memberM := rfl
  unfold putDictionary
  rw [e]
  have hbegin : manip (seq (push .bag) eventPush) ⟨out, d, r⟩ = (⟨out ++ "<dict>\n".toList, d + 1, ⟨.bag, 0⟩ :: r⟩, false) := by
    simp [manip, seq, push, eventPush, St.tag]
  have h3 : ∀ (o : Str) n, eventPop ⟨o, d + 1, ⟨.bag, n⟩ :: r⟩ =
      (⟨o ++ (indents d ++ ("</dict>".toList ++ close r)), d, ⟨.bag, n⟩ :: r⟩, false) := by
    intro o n
    unfold eventPop
    have : St.tag ⟨o, d + 1, ⟨.bag, n⟩ :: r⟩ 0 = some .bag := rfl
    simp only [this, ht]
    by_cases ha : (r[0]?).map (·.tag) = some .atom
    · simp only [close, ha]; simp
    · simp only [close, ha, ne_eq, not_false_eq_true]; simp
  simp only [seq, hbegin, hall, h3, drop]
  simp

/-! ### The text of values -/

theorem lines_eq (d : Nat) (vs : List (Val D O)) : lines d (vs.map fun v d => text c d (norm v)) = textAll c d (normAll vs) := by
  induction vs with
  | nil => rfl
  | cons v vs ih => simp [lines, normAll, textAll, ih, indents, tabs]

theorem memberLines_eq (d : Nat) (ms : List (Str × Val D O)) :
    memberLines d (ms.map fun m => (m.1, fun d => text c d (norm m.2))) = textMembers c d (ms.map fun m => (m.1, norm m.2)) := by
  induction ms with
  | nil => rfl
  | cons m ms ih => simp [memberLines, textMembers, ih, wrap, indents, tabs, tagged]

theorem putMembers_eq (ms : List (Str × Val D O)) : putMembers c ms = ms.map fun m => (m.1, put c m.2) := by
  induction ms with
  | nil => rfl
  | cons m ms ih => obtain ⟨k, v⟩ := m; simp [putMembers, ih]

theorem dict_puts (ms : List (Str × Val D O)) (h : ∀ m ∈ ms, Prints (put c m.2) (fun d => text c d (norm m.2))) (d : Nat) (r : List Elem) :
    Puts (putDictionary (putMembers c ms)) (text c d (norm (.dict ms)) ++ close r) d r r := by
  have h2 := putDictionary_puts (ms := putMembers c ms) (ts := (sortKeys ms).map fun m => (m.1, fun d => text c d (norm m.2)))
    (by
      rw [putMembers_eq, Cel.sortKeys_map]
      exact Cel.forall₂_map _ _ fun m hm => ⟨rfl, h m (Cel.mem_sortKeys.mp hm)⟩) d r
  refine h2.cast ?_
  simp only [norm, Cel.normMembers_eq, Cel.sortKeys_map, memberLines_eq]
  simp [text, indents, tabs, tagged]

theorem array_puts (vs : List (Val D O)) (h : List.Forall₂ Prints (putAll c vs) (vs.map fun v d => text c d (norm v))) (d : Nat)
    {r : List Elem} (hr : (r[0]?).map (·.tag) ≠ some .bag) :
    Puts (putArray (putAll c vs)) (text c d (norm (.arr vs)) ++ close r) d r r := by
  refine (putArray_puts h d hr).cast ?_
  simp only [norm, lines_eq]
  simp [text, indents, tabs, tagged]

theorem intText_eq (n : Int) : intText n = digits n := by
  unfold intText digits
  rcases n with n | n
  · simp [toString, Int.repr, Nat.repr]
  · simp [toString, Int.repr, Nat.repr]

theorem close_atom (k : Nat) (r : List Elem) : close (⟨.atom, k⟩ :: r) = [] := by simp [close]

mutual
theorem text_prints (v : Val D O) : Prints (put c v) (fun d => text c d (norm v)) := by
  match v with
  | .empty =>
    have e : emptyElement = emptyTag := rfl
    have := prints_atom fun d r => puts_write emptyElement d (⟨.atom, 0⟩ :: r)
    unfold put
    simp only [norm, text]
    rw [← e]
    exact this
  | .bool b =>
    have := prints_atom fun d r => puts_write (wrap "bool".toList (if b then "true".toList else "false".toList)) d (⟨.atom, 0⟩ :: r)
    unfold put
    cases b <;> simpa [norm, text, wrap, tagged] using this
  | .num x => exact prints_atom fun d r => (puts_write _ _ _).cast (by
      simp only [norm, text, numText, number]
      cases c.int x <;> simp [wrap, intText_eq, tagged])
  | .name n =>
    have := prints_name n
    unfold put
    simpa [norm, text, wrap, tagged] using this
  | .other o => exact prints_atom fun d r => (puts_write _ _ _).cast (by simp [norm, text, wrap, tagged])
  | .str s => exact prints_atom fun d r => (puts_write _ _ _).cast (by
      simp only [norm, text, stringText, escaped]
      cases Entity.entityEscape c.byCode (s.map Char.toNat) <;> simp [wrap, tagged])
  | .arr vs => exact prints_atom fun d r => (array_puts vs (all_prints vs) d (by simp)).cast (by simp [close_atom])
  | .dict ms => exact prints_atom fun d r => (dict_puts ms (members_print ms) d _).cast (by simp [close_atom])
theorem all_prints (vs : List (Val D O)) : List.Forall₂ Prints (putAll c vs) (vs.map fun v d => text c d (norm v)) := by
  match vs with
  | [] => exact .nil
  | v :: vs => exact .cons (text_prints v) (all_prints vs)
theorem members_print (ms : List (Str × Val D O)) : ∀ m ∈ ms, Prints (put c m.2) (fun d => text c d (norm m.2)) := by
  match ms with
  | [] => simp
  | (k, v) :: ms =>
    intro m hm
    rcases List.mem_cons.mp hm with h | hm
    · rw [h]; exact text_prints v
    · exact members_print ms m hm
end

end Verif.XmlOut
