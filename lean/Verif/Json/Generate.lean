import Verif.Json.Safety
/-
The generator writes JSON texts.
-/
namespace Verif.Json
open Spec

variable {N : Type} {strtod : List Nat → Option N} {toText : N → List Nat}

theorem hexVal_hexChar {n : Nat} (h : n < 16) : hexVal (hexChar n) = some n := by
  have : n = 0 ∨ n = 1 ∨ n = 2 ∨ n = 3 ∨ n = 4 ∨ n = 5 ∨ n = 6 ∨ n = 7 ∨ n = 8 ∨ n = 9 ∨ n = 10 ∨ n = 11 ∨ n = 12 ∨ n = 13 ∨ n = 14 ∨ n = 15 := by omega
  rcases this with rfl | rfl | rfl | rfl | rfl | rfl | rfl | rfl | rfl | rfl | rfl | rfl | rfl | rfl | rfl | rfl <;> rfl

theorem genChar_chars {E : List Nat → List Nat → Prop} (hE : ∀ e b, RfcBmp e b → E e b) (e : Nat) {t s : List Nat} (h : Chars E t s) : Chars E (genChar e ++ t) (e :: s) := by
  have esc : ∀ x, RfcBmp x [e] → Chars E (0x5C :: x ++ t) (e :: s) := fun x hx => Chars.esc x [e] t s (hE _ _ hx) h
  unfold genChar
  by_cases h0 : e ≤ 0x1F ∨ e = 0x22 ∨ e = 0x5C
  · rw [if_pos h0]
    split_ifs with h1 h2 h3 h4 h5 h6 h7
    · subst h1; exact esc _ (RfcBmp.simple _ _ (by decide))
    · subst h2; exact esc _ (RfcBmp.simple _ _ (by decide))
    · subst h3; exact esc _ (RfcBmp.simple _ _ (by decide))
    · subst h4; exact esc _ (RfcBmp.simple _ _ (by decide))
    · subst h5; exact esc _ (RfcBmp.simple _ _ (by decide))
    · subst h6; exact esc _ (RfcBmp.simple _ _ (by decide))
    · subst h7; exact esc _ (RfcBmp.simple _ _ (by decide))
    · apply esc
      have he : e < 32 := by omega
      have e1 : (e >>> 4) &&& 0x0F = e / 16 := by
        rw [Nat.shiftRight_eq_div_pow, show (0x0F : Nat) = 2 ^ 4 - 1 from rfl, Nat.and_two_pow_sub_one_eq_mod]; omega
      have e2 : e &&& 0x0F = e % 16 := by rw [show (0x0F : Nat) = 2 ^ 4 - 1 from rfl, Nat.and_two_pow_sub_one_eq_mod]
      rw [e1, e2]
      have hx := Hex4.mk 0x30 0x30 (hexChar (e / 16)) (hexChar (e % 16)) 0 0 (e / 16) (e % 16) rfl rfl (hexVal_hexChar (by omega)) (hexVal_hexChar (by omega))
      rw [show 0 * 4096 + 0 * 256 + e / 16 * 16 + e % 16 = e by omega] at hx
      have := RfcBmp.bmp _ e hx (by omega)
      rw [show Verif.Unicode.utf8Spec e = [e] by unfold Verif.Unicode.utf8Spec; simp [show e ≤ 127 by omega]] at this
      exact this
  · rw [if_neg h0]
    exact Chars.raw e t s (by omega) (by omega) (by omega) h

theorem genString_chars {E : List Nat → List Nat → Prop} (hE : ∀ e b, RfcBmp e b → E e b) (s : List Nat) : Chars E (s.flatMap genChar) s := by
  induction s with
  | nil => exact Chars.nil
  | cons c s ih => rw [List.flatMap_cons]; exact genChar_chars hE c ih

theorem ws_indent (n : Nat) : IsWs (indent n) := by
  intro c hc
  have := (List.mem_replicate.1 hc).2
  omega

theorem ws_cons {c : Nat} (hc : ws c = true) {w : List Nat} (hw : IsWs w) : IsWs (c :: w) := by
  intro x hx
  rw [List.mem_cons] at hx
  rcases hx with rfl | hx
  · exact ws_iff.1 hc
  · exact hw x hx

theorem genElems_text {E : List Nat → List Nat → Prop} (n : Nat) : ∀ (vs : List (Value N)) (v : Value N), (∀ x ∈ v :: vs, ∀ n, Text E strtod (gen toText x n) x) →
    Elems E strtod ((0x0A :: indent (n + 1)) ++ gen toText v (n + 1) ++
      ((genElems toText vs).flatMap (fun f => 0x2C :: 0x0A :: (indent (n + 1) ++ f (n + 1))) ++ 0x0A :: indent n)) (v :: vs) := by
  intro vs
  induction vs with
  | nil =>
    intro v h
    exact Elems.one _ _ _ v (ws_cons rfl (ws_indent _)) (h v (by simp) _) (ws_cons rfl (ws_indent _))
  | cons v' vs ih =>
    intro v h
    have h' := ih v' (fun x hx => h x (by simp only [List.mem_cons] at hx ⊢; exact Or.inr hx))
    have := Elems.cons _ _ [] _ v _ (ws_cons (c := 0x0A) rfl (ws_indent (n + 1))) (h v (by simp) (n + 1)) wsNil h'
    simp only [genElems, List.flatMap_cons]
    simpa using this

theorem genMembers_text {E : List Nat → List Nat → Prop} (hE : ∀ e b, RfcBmp e b → E e b) (n : Nat) :
    ∀ (ms : List (List Nat × Value N)) (m : List Nat × Value N), (∀ x ∈ m :: ms, ∀ n, Text E strtod (gen toText x.2 n) x.2) →
    Members E strtod ((0x0A :: indent (n + 1)) ++ (genString m.1 ++ 0x3A :: 0x20 :: gen toText m.2 (n + 1)) ++
      ((genMembers toText ms).flatMap (fun f => 0x2C :: 0x0A :: (indent (n + 1) ++ f (n + 1))) ++ 0x0A :: indent n)) (m :: ms) := by
  intro ms
  induction ms with
  | nil =>
    intro m h
    have := Members.one _ _ [] [0x20] _ _ m.1 m.2 (ws_cons (c := 0x0A) rfl (ws_indent (n + 1))) (genString_chars hE m.1) wsNil (ws_cons (c := 0x20) rfl wsNil) (h m (by simp) (n + 1)) (ws_cons (c := 0x0A) rfl (ws_indent n))
    simpa [genString, genMembers] using this
  | cons m' ms ih =>
    intro m h
    have h' := ih m' (fun x hx => h x (by simp only [List.mem_cons] at hx ⊢; exact Or.inr hx))
    have := Members.cons _ _ [] [0x20] _ [] _ m.1 m.2 _ (ws_cons (c := 0x0A) rfl (ws_indent (n + 1))) (genString_chars hE m.1) wsNil (ws_cons (c := 0x20) rfl wsNil) (h m (by simp) (n + 1)) wsNil h'
    obtain ⟨k', v'⟩ := m'
    simp only [genMembers, List.flatMap_cons]
    simpa [genString] using this

theorem cut_id {k : List Nat} (h : 0 ∉ k) : cut k = k := by
  unfold cut
  induction k with
  | nil => rfl
  | cons c k ih =>
    simp only [List.mem_cons, not_or] at h
    rw [List.takeWhile_cons, if_pos (by simp only [bne_iff_ne, ne_eq]; exact fun e => h.1 e.symm), ih h.2]

theorem assign_new {o : List (List Nat × Value N)} {k : List Nat} (h : k ∉ o.map Prod.fst) (v : Value N) : assign o k v = o ++ [(k, v)] := by
  induction o with
  | nil => rfl
  | cons m o ih =>
    obtain ⟨k', v'⟩ := m
    simp only [List.map_cons, List.mem_cons, not_or] at h
    rw [assign, if_neg (fun e => h.1 e.symm), ih h.2]; rfl

theorem build_id {ms : List (List Nat × Value N)} (h1 : ∀ m ∈ ms, 0 ∉ m.1) (h2 : (ms.map Prod.fst).Nodup) : build ms = ms := by
  have key : ∀ (ms o : List (List Nat × Value N)), (∀ m ∈ ms, 0 ∉ m.1) → ((o ++ ms).map Prod.fst).Nodup → ms.foldl (fun o m => assign o (cut m.1) m.2) o = o ++ ms := by
    intro ms
    induction ms with
    | nil => intro o _ _; simp
    | cons m ms ih =>
      intro o h1 h2
      rw [List.foldl_cons, cut_id (h1 m (by simp)), assign_new, ih]
      · simp
      · exact fun m hm => h1 m (by simp [hm])
      · simpa using h2
      · rw [List.map_append, List.map_cons, List.nodup_append] at h2
        intro hm
        exact h2.2.2 _ hm _ (by simp) rfl
  exact key ms [] h1 (by simpa using h2)

theorem gen_text {E : List Nat → List Nat → Prop} (hE : ∀ e b, RfcBmp e b → E e b) {v : Value N} (h : Storable strtod toText v) : ∀ n, Text E strtod (gen toText v n) v := by
  induction h with
  | null => intro n; exact Text.null
  | bool b => intro n; cases b <;> [exact Text.false; exact Text.true]
  | num x h1 h2 => intro n; exact Text.num _ x h1 h2
  | str s => intro n; exact Text.str _ s (genString_chars hE s)
  | arr vs _ ih =>
    intro n
    cases vs with
    | nil => exact Text.arr0 [0x20] (ws_cons (c := 0x20) rfl wsNil)
    | cons v vs =>
      cases vs with
      | nil =>
        have := Text.arr _ _ (Elems.one [0x20] _ [0x20] v (ws_cons (c := 0x20) rfl wsNil) (ih v (by simp) n) (ws_cons (c := 0x20) rfl wsNil))
        simpa [gen, genElems, list] using this
      | cons v' vs =>
        have := Text.arr _ _ (genElems_text n (v' :: vs) v ih)
        rw [gen]
        simp only [genElems, list] at this ⊢
        simpa using this
  | obj ms _ h1 h2 ih =>
    intro n
    have hb := build_id h1 h2
    cases ms with
    | nil => exact Text.obj0 [0x20] (ws_cons (c := 0x20) rfl wsNil)
    | cons m ms =>
      cases ms with
      | nil =>
        have := Text.obj _ _ (Members.one [0x20] _ [] [0x20] _ [0x20] m.1 m.2 (ws_cons (c := 0x20) rfl wsNil) (genString_chars hE m.1) wsNil (ws_cons (c := 0x20) rfl wsNil) (ih m (by simp) n) (ws_cons (c := 0x20) rfl wsNil))
        rw [hb] at this
        obtain ⟨k, v⟩ := m
        simpa [gen, genMembers, list, genString] using this
      | cons m' ms =>
        have := Text.obj _ _ (genMembers_text hE n (m' :: ms) m ih)
        rw [hb] at this
        obtain ⟨k, v⟩ := m
        obtain ⟨k', v'⟩ := m'
        rw [gen]
        simp only [genMembers, list] at this ⊢
        simpa using this

/-! ### more escapes -/

mutual

theorem Text.mono {E E' : List Nat → List Nat → Prop} (hE : ∀ e b, E e b → E' e b) {num : List Nat → Option N} : ∀ {t : List Nat} {v : Value N}, Text E num t v → Text E' num t v
  | _, _, .null => .null
  | _, _, .true => .true
  | _, _, .false => .false
  | _, _, .str t s h => .str t s (Chars.mono hE h)
  | _, _, .num t x h1 h2 => .num t x h1 h2
  | _, _, .arr0 w h => .arr0 w h
  | _, _, .arr t vs h => .arr t vs (Elems.mono hE h)
  | _, _, .obj0 w h => .obj0 w h
  | _, _, .obj t ms h => .obj t ms (Members.mono hE h)

theorem Elems.mono {E E' : List Nat → List Nat → Prop} (hE : ∀ e b, E e b → E' e b) {num : List Nat → Option N} : ∀ {t : List Nat} {vs : List (Value N)}, Elems E num t vs → Elems E' num t vs
  | _, _, .one w t w' v h1 h2 h3 => .one w t w' v h1 (Text.mono hE h2) h3
  | _, _, .cons w t w' t' v vs h1 h2 h3 h4 => .cons w t w' t' v vs h1 (Text.mono hE h2) h3 (Elems.mono hE h4)

theorem Members.mono {E E' : List Nat → List Nat → Prop} (hE : ∀ e b, E e b → E' e b) {num : List Nat → Option N} : ∀ {t : List Nat} {ms : List (List Nat × Value N)}, Members E num t ms → Members E' num t ms
  | _, _, .one w k w1 w2 t w3 key v h0 h1 h2 h3 h4 h5 => .one w k w1 w2 t w3 key v h0 (Chars.mono hE h1) h2 h3 (Text.mono hE h4) h5
  | _, _, .cons w k w1 w2 t w3 t' key v ms h0 h1 h2 h3 h4 h5 h6 => .cons w k w1 w2 t w3 t' key v ms h0 (Chars.mono hE h1) h2 h3 (Text.mono hE h4) h5 (Members.mono hE h6)

theorem Chars.mono {E E' : List Nat → List Nat → Prop} (hE : ∀ e b, E e b → E' e b) : ∀ {t s : List Nat}, Chars E t s → Chars E' t s
  | _, _, .nil => .nil
  | _, _, .raw c t s h1 h2 h3 h4 => .raw c t s h1 h2 h3 (Chars.mono hE h4)
  | _, _, .esc e b t s h1 h2 => .esc e b t s (hE e b h1) (Chars.mono hE h2)

end

theorem bmp_taken {e b : List Nat} (h : RfcBmp e b) : Taken e b := by
  cases h with
  | simple c b h => exact Taken.simple c b h
  | bmp h v h1 h2 => exact Taken.bmp h v h1 (by omega)

theorem bmp_rfc {e b : List Nat} (h : RfcBmp e b) : Rfc e b := by
  cases h with
  | simple c b h => exact Rfc.simple c b h
  | bmp h v h1 h2 => exact Rfc.bmp h v h1 h2

end Verif.Json
