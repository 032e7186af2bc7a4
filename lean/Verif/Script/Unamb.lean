import Verif.Script.Layout
/-!
When the text determines the value, for any style.
-/
namespace Verif.Script
open Verif.Expr
open Verif.Cel.Spec (tabs)
open Spec

variable {D O : Type}

/-- Not an array or a dictionary. -/
def Leaf : Val D O → Prop
  | .arr _ => False
  | .dict _ => False
  | _ => True

/-- What makes a style unambiguous. -/
structure Unamb (y : Style) (num : D → Str) (typeO : O → Str) (P : D → Prop) (name str key : Str → Prop) (stop : Str → Prop) : Prop where
  leaf : ∀ v w : Val D O, Leaf v → Leaf w → Every P name str key v → Every P name str key w → ∀ d r r', stop r → stop r' →
    text y num typeO d v ++ r = text y num typeO d w ++ r' → v = w ∧ r = r'
  leafHead : ∀ v : Val D O, Leaf v → Every P name str key v → ∀ d, ∃ c t, text y num typeO d v = c :: t ∧ c ≠ '[' ∧ c ≠ ']' ∧ y.openBag.head? ≠ some c
  openHead : ∃ c t, y.openBag = c :: t ∧ c ≠ '[' ∧ c ≠ ']'
  key : ∀ k k' x x', key k → key k' → y.name true k ++ x = y.name true k' ++ x' → k = k' ∧ x = x'
  comma : ∀ c x z, c ≠ ']' → y.comma ++ c :: x ≠ lit " ]" ++ z
  sep : ∀ k d x z, y.sep ++ (lit "\n" ++ tabs (d + 1) ++ (y.name true k ++ x)) ≠ lit "\n" ++ tabs d ++ y.closeBag ++ z
  stopComma : ∀ x, stop (y.comma ++ x)
  stopArr : ∀ x, stop (lit " ]" ++ x)
  stopSep : ∀ x, stop (y.sep ++ (lit "\n" ++ x))
  stopDict : ∀ x, stop (lit "\n" ++ x)

variable {y : Style} {num : D → Str} {typeO : O → Str} {P : D → Prop} {name str key : Str → Prop} {stop : Str → Prop}

theorem arr_head (d : Nat) (vs : List (Val D O)) : ∃ t, text y num typeO d (.arr vs) = '[' :: t := by
  cases vs with
  | nil => simp [text]
  | cons v vs => simp [text]

theorem dict_head (d : Nat) (ms : List (Str × Val D O)) : ∃ t, text y num typeO d (.dict ms) = y.openBag ++ t := by
  cases ms with
  | nil => exact ⟨_, rfl⟩
  | cons m ms => obtain ⟨k, v⟩ := m; exact ⟨_, rfl⟩

theorem Unamb.head (h : Unamb (O := O) y num typeO P name str key stop) (v : Val D O) (hv : Every P name str key v) (d : Nat) :
    ∃ c t, text y num typeO d v = c :: t ∧ c ≠ ']' := by
  have leaf : Leaf v → ∃ c t, text y num typeO d v = c :: t ∧ c ≠ ']' := fun hl => by
    obtain ⟨c, t, h1, -, h2, -⟩ := h.leafHead v hl hv d
    exact ⟨c, t, h1, h2⟩
  cases v with
  | arr vs => obtain ⟨t, e⟩ := arr_head (y := y) (num := num) (typeO := typeO) d vs; exact ⟨_, t, e, by decide⟩
  | dict ms =>
    obtain ⟨t, e⟩ := dict_head (y := y) (num := num) (typeO := typeO) d ms
    obtain ⟨c, u, h1, -, h2⟩ := h.openHead
    exact ⟨c, u ++ t, by rw [e, h1]; rfl, h2⟩
  | _ => exact leaf trivial

theorem Unamb.leaf_arr (h : Unamb (O := O) y num typeO P name str key stop) {v : Val D O} (hl : Leaf v) (hv : Every P name str key v) {d : Nat}
    {vs : List (Val D O)} {r r' : Str} (e : text y num typeO d v ++ r = text y num typeO d (.arr vs) ++ r') : False := by
  obtain ⟨c, t, h1, h2, -⟩ := h.leafHead v hl hv d
  obtain ⟨u, h3⟩ := arr_head (y := y) (num := num) (typeO := typeO) d vs
  rw [h1, h3, List.cons_append, List.cons_append, List.cons.injEq] at e
  exact h2 e.1

theorem Unamb.leaf_dict (h : Unamb (O := O) y num typeO P name str key stop) {v : Val D O} (hl : Leaf v) (hv : Every P name str key v) {d : Nat}
    {ms : List (Str × Val D O)} {r r' : Str} (e : text y num typeO d v ++ r = text y num typeO d (.dict ms) ++ r') : False := by
  obtain ⟨c, t, h1, -, -, h2⟩ := h.leafHead v hl hv d
  obtain ⟨u, h3⟩ := dict_head (y := y) (num := num) (typeO := typeO) d ms
  obtain ⟨c', u', h4, -⟩ := h.openHead
  rw [h1, h3, h4, List.cons_append, List.cons_append, List.cons_append, List.cons.injEq] at e
  rw [h4, e.1] at h2
  exact h2 rfl

theorem Unamb.arr_dict (h : Unamb (O := O) y num typeO P name str key stop) {d : Nat} {vs : List (Val D O)}
    {ms : List (Str × Val D O)} {r r' : Str} (e : text y num typeO d (.arr vs) ++ r = text y num typeO d (.dict ms) ++ r') : False := by
  obtain ⟨u, h3⟩ := dict_head (y := y) (num := num) (typeO := typeO) d ms
  obtain ⟨u'', h1⟩ := arr_head (y := y) (num := num) (typeO := typeO) d vs
  obtain ⟨c', u', h4, h2, -⟩ := h.openHead
  rw [h1, h3, h4, List.cons_append, List.cons_append, List.cons_append, List.cons.injEq] at e
  exact h2 e.1.symm

mutual
theorem Unamb.inj (h : Unamb (O := O) y num typeO P name str key stop) (v w : Val D O) (hv : Every P name str key v) (hw : Every P name str key w)
    {d : Nat} {r r' : Str} (hr : stop r) (hr' : stop r') (e : text y num typeO d v ++ r = text y num typeO d w ++ r') : v = w ∧ r = r' := by
  match v, w with
  | .arr vs, .arr ws =>
    match vs, ws with
    | [], [] => exact ⟨rfl, by simpa [text] using e⟩
    | [], w :: ws =>
      obtain ⟨c, t, h1, h2⟩ := h.head w hw.1 d
      simp only [text, h1] at e
      simp at e
      exact absurd e.1.symm h2
    | v :: vs, [] =>
      obtain ⟨c, t, h1, h2⟩ := h.head v hv.1 d
      simp only [text, h1] at e
      simp at e
      exact absurd e.1 h2
    | v :: vs, w :: ws =>
      simp only [text, List.append_assoc] at e
      have e := List.append_cancel_left e
      obtain ⟨e1, e2⟩ := Unamb.inj h v w hv.1 hw.1
        (by cases vs with
          | nil => simp only [textMore, List.nil_append]; exact h.stopArr _
          | cons a vs => simp only [textMore, List.append_assoc]; exact h.stopComma _)
        (by cases ws with
          | nil => simp only [textMore, List.nil_append]; exact h.stopArr _
          | cons a ws => simp only [textMore, List.append_assoc]; exact h.stopComma _) e
      obtain ⟨e3, e4⟩ := Unamb.injMore h vs ws hv.2 hw.2 e2
      exact ⟨by rw [e1, e3], e4⟩
  | .dict ms, .dict ns =>
    match ms, ns with
    | [], [] => exact ⟨rfl, by simpa [text] using e⟩
    | [], (k, w) :: ns => simp [text] at e
    | (k, v) :: ms, [] => simp [text] at e
    | (k, v) :: ms, (l, w) :: ns =>
      simp only [text, List.append_assoc] at e
      have e := List.append_cancel_left (List.append_cancel_left (List.append_cancel_left e))
      obtain ⟨hk, e⟩ := h.key _ _ _ _ hv.1 hw.1 e
      obtain ⟨e1, e2⟩ := Unamb.inj h v w hv.2.1 hw.2.1
        (by cases ms with
          | nil => simp only [textMembers, List.nil_append]; exact h.stopDict _
          | cons a ms => obtain ⟨a, b⟩ := a; simp only [textMembers, List.append_assoc]; exact h.stopSep _)
        (by cases ns with
          | nil => simp only [textMembers, List.nil_append]; exact h.stopDict _
          | cons a ms => obtain ⟨a, b⟩ := a; simp only [textMembers, List.append_assoc]; exact h.stopSep _) e
      obtain ⟨e3, e4⟩ := Unamb.injMembers h ms ns hv.2.2 hw.2.2 (by simpa only [List.append_assoc] using e2)
      exact ⟨by rw [hk, e1, e3], e4⟩
  | .arr vs, .dict ms => exact (h.arr_dict e).elim
  | .dict ms, .arr vs => exact (h.arr_dict e.symm).elim
  | .empty, .arr _ | .bool _, .arr _ | .num _, .arr _ | .name _, .arr _ | .str _, .arr _ | .other _, .arr _ => exact (h.leaf_arr (by exact trivial) hv e).elim
  | .empty, .dict _ | .bool _, .dict _ | .num _, .dict _ | .name _, .dict _ | .str _, .dict _ | .other _, .dict _ => exact (h.leaf_dict (by exact trivial) hv e).elim
  | .arr _, .empty | .arr _, .bool _ | .arr _, .num _ | .arr _, .name _ | .arr _, .str _ | .arr _, .other _ => exact (h.leaf_arr (by exact trivial) hw e.symm).elim
  | .dict _, .empty | .dict _, .bool _ | .dict _, .num _ | .dict _, .name _ | .dict _, .str _ | .dict _, .other _ => exact (h.leaf_dict (by exact trivial) hw e.symm).elim
  | .empty, .empty | .bool _, .empty | .num _, .empty | .name _, .empty | .str _, .empty | .other _, .empty
  | .empty, .bool _ | .bool _, .bool _ | .num _, .bool _ | .name _, .bool _ | .str _, .bool _ | .other _, .bool _
  | .empty, .num _ | .bool _, .num _ | .num _, .num _ | .name _, .num _ | .str _, .num _ | .other _, .num _
  | .empty, .name _ | .bool _, .name _ | .num _, .name _ | .name _, .name _ | .str _, .name _ | .other _, .name _
  | .empty, .str _ | .bool _, .str _ | .num _, .str _ | .name _, .str _ | .str _, .str _ | .other _, .str _
  | .empty, .other _ | .bool _, .other _ | .num _, .other _ | .name _, .other _ | .str _, .other _ | .other _, .other _ =>
    exact h.leaf _ _ (by exact trivial) (by exact trivial) hv hw d r r' hr hr' e
theorem Unamb.injMore (h : Unamb (O := O) y num typeO P name str key stop) (vs ws : List (Val D O)) (hv : EveryAll P name str key vs)
    (hw : EveryAll P name str key ws) {d : Nat} {r r' : Str}
    (e : textMore y num typeO d vs ++ (lit " ]" ++ r) = textMore y num typeO d ws ++ (lit " ]" ++ r')) : vs = ws ∧ r = r' := by
  match vs, ws with
  | [], [] => exact ⟨rfl, by simpa [textMore] using e⟩
  | [], w :: ws =>
    obtain ⟨c, t, h1, h2⟩ := h.head w hw.1 d
    simp only [textMore, h1, List.append_assoc, List.nil_append, List.cons_append] at e
    exact absurd e.symm (h.comma c _ _ h2)
  | v :: vs, [] =>
    obtain ⟨c, t, h1, h2⟩ := h.head v hv.1 d
    simp only [textMore, h1, List.append_assoc, List.nil_append, List.cons_append] at e
    exact absurd e (h.comma c _ _ h2)
  | v :: vs, w :: ws =>
    simp only [textMore, List.append_assoc] at e
    have e := List.append_cancel_left e
    obtain ⟨e1, e2⟩ := Unamb.inj h v w hv.1 hw.1
      (by cases vs with
        | nil => simp only [textMore, List.nil_append]; exact h.stopArr _
        | cons a vs => simp only [textMore, List.append_assoc]; exact h.stopComma _)
      (by cases ws with
        | nil => simp only [textMore, List.nil_append]; exact h.stopArr _
        | cons a ws => simp only [textMore, List.append_assoc]; exact h.stopComma _) e
    obtain ⟨e3, e4⟩ := Unamb.injMore h vs ws hv.2 hw.2 e2
    exact ⟨by rw [e1, e3], e4⟩
theorem Unamb.injMembers (h : Unamb (O := O) y num typeO P name str key stop) (ms ns : List (Str × Val D O)) (hv : EveryMember P name str key ms)
    (hw : EveryMember P name str key ns) {d : Nat} {r r' : Str}
    (e : textMembers y num typeO (d + 1) ms ++ (lit "\n" ++ (tabs d ++ (y.closeBag ++ r))) =
      textMembers y num typeO (d + 1) ns ++ (lit "\n" ++ (tabs d ++ (y.closeBag ++ r')))) : ms = ns ∧ r = r' := by
  match ms, ns with
  | [], [] => exact ⟨rfl, by simpa [textMembers] using e⟩
  | [], (k, w) :: ns =>
    simp only [textMembers, List.nil_append] at e
    exact absurd (by simpa only [List.append_assoc] using e.symm) (h.sep k d (text y num typeO (d + 1) w ++ textMembers y num typeO (d + 1) ns ++ (lit "\n" ++ (tabs d ++ (y.closeBag ++ r')))) r)
  | (k, v) :: ms, [] =>
    simp only [textMembers, List.nil_append] at e
    exact absurd (by simpa only [List.append_assoc] using e) (h.sep k d (text y num typeO (d + 1) v ++ textMembers y num typeO (d + 1) ms ++ (lit "\n" ++ (tabs d ++ (y.closeBag ++ r)))) r')
  | (k, v) :: ms, (l, w) :: ns =>
    simp only [textMembers, List.append_assoc] at e
    have e := List.append_cancel_left (List.append_cancel_left (List.append_cancel_left e))
    obtain ⟨hk, e⟩ := h.key _ _ _ _ hv.1 hw.1 e
    obtain ⟨e1, e2⟩ := Unamb.inj h v w hv.2.1 hw.2.1
      (by cases ms with
        | nil => simp only [textMembers, List.nil_append]; exact h.stopDict _
        | cons a ms => obtain ⟨a, b⟩ := a; simp only [textMembers, List.append_assoc]; exact h.stopSep _)
      (by cases ns with
        | nil => simp only [textMembers, List.nil_append]; exact h.stopDict _
        | cons a ms => obtain ⟨a, b⟩ := a; simp only [textMembers, List.append_assoc]; exact h.stopSep _) e
    obtain ⟨e3, e4⟩ := Unamb.injMembers h ms ns hv.2.2 hw.2.2 e2
    exact ⟨by rw [hk, e1, e3], e4⟩
end

end Verif.Script
