import Verif.Cel.Round
/-!
C96: what `begin_asl_cel << value << end_asl_cel` writes.  C97: reading it back.
-/
namespace Verif.Cel
open Verif.Expr
open Verif.Cel.Spec
open Verif.Lex (Opts)
open Verif.Lex.Spec (Lexes)
open Verif.Expr.Spec (Derives eval Overridable)

variable {D O S : Type} {c : Cfg D O} {o : Opts D} {E : Env D O S} {byName : List Entity.Entry}

/-! ### C96 -/

/-- C96: whatever was written before, `os << value` inside of a format writes the text of the value, after ", " if it is not the first,
throws nothing, and leaves depth and nesting as they were: only the counter of the enclosing element goes up. -/
theorem C96_put (hs : Entity.Sorted c.byCode byName) (v : Val D O) (out : Str) (d n : Nat) (t : Tag) (r : List Elem)
    (ho : ¬ (t = .seq ∧ (r[0]?).map (·.tag) = some .bag)) :
    put c v ⟨out, d, ⟨t, n⟩ :: r⟩ =
      (⟨out ++ ((if n = 0 then [] else ", ".toList) ++ text c d (norm v)), d, ⟨t, n + 1⟩ :: r⟩, false) := by
  rw [(text_prints hs v).outside d (e := ⟨t, n⟩) (r := r) ho out]
  rcases Nat.eq_zero_or_pos n with h | h
  · simp [h]
  · simp [h, show n ≠ 0 by omega]

/-- C96: `os << begin_asl_cel << value << end_asl_cel` is the text of the value. -/
theorem C96_serialize (hs : Entity.Sorted c.byCode byName) (v : Val D O) : serialize c v = text c 0 (norm v) := by
  unfold serialize
  have h := C96_put hs v [] 0 0 .format [] (by simp)
  have e : beginCel [] = ⟨[], 0, [⟨.format, 0⟩]⟩ := by simp [beginCel, beginFormat, seq, push, eventPush, St.tag]
  rw [e]
  simp only [seq, h]
  simp [endFormat, seq, eventPop, drop]

/-- C96: the same for a dictionary. -/
theorem C96_dictionary (hs : Entity.Sorted c.byCode byName) (ms : List (Str × Val D O)) :
    serializeDictionary c ms = text c 0 (norm (.dict ms)) := by
  unfold serializeDictionary
  have h := dict_puts (c := c) ms (members_print hs ms) 0 [⟨.format, 0⟩] []
  have e : beginCel [] = ⟨[], 0, [⟨.format, 0⟩]⟩ := by simp [beginCel, beginFormat, seq, push, eventPush, St.tag]
  rw [e]
  simp only [seq, h]
  simp [endFormat, seq, eventPop, drop]

/-- C96: the same for an array. -/
theorem C96_array (hs : Entity.Sorted c.byCode byName) (vs : List (Val D O)) :
    serializeArray c vs = text c 0 (norm (.arr vs)) := by
  unfold serializeArray
  have h := array_puts (c := c) vs (all_prints hs vs) 0 (r := [⟨.format, 0⟩]) (by simp) []
  have e : beginCel [] = ⟨[], 0, [⟨.format, 0⟩]⟩ := by simp [beginCel, beginFormat, seq, push, eventPush, St.tag]
  rw [e]
  simp only [seq, h]
  simp [endFormat, seq, eventPop, drop]

theorem keyLe_total (a b : Str) : keyLe a b || keyLe b a := by
  induction a generalizing b with
  | nil => simp [keyLe]
  | cons x a ih =>
    cases b with
    | nil => simp [keyLe]
    | cons y b =>
      by_cases h : x = y
      · subst h; simpa [keyLe] using ih b
      · have : x.toNat ≠ y.toNat := fun e => h (Char.toNat_inj.mp e)
        simp only [keyLe]
        rw [if_neg h, if_neg fun e => h (Eq.symm e), Bool.or_eq_true, decide_eq_true_eq, decide_eq_true_eq]
        omega

theorem keyLe_trans (a b d : Str) (h : keyLe a b) (h' : keyLe b d) : keyLe a d := by
  induction a generalizing b d with
  | nil => simp [keyLe]
  | cons x a ih =>
    cases b with
    | nil => simp [keyLe] at h
    | cons y b =>
      cases d with
      | nil => simp [keyLe] at h'
      | cons z d =>
        simp only [keyLe] at h h' ⊢
        by_cases h1 : x = y
        · subst h1
          rw [if_pos rfl] at h
          by_cases h2 : x = z
          · subst h2; rw [if_pos rfl] at h' ⊢; exact ih _ _ h h'
          · rw [if_neg h2] at h' ⊢; exact h'
        · rw [if_neg h1] at h
          by_cases h2 : y = z
          · subst h2; rw [if_neg h1]; exact h
          · rw [if_neg h2] at h'
            simp at h h'
            rw [if_neg (by rintro rfl; omega)]
            simp; omega

theorem keyLe_antisymm (a b : Str) (h : keyLe a b) (h' : keyLe b a) : a = b := by
  induction a generalizing b with
  | nil => cases b with
    | nil => rfl
    | cons _ _ => simp [keyLe] at h'
  | cons x a ih =>
    cases b with
    | nil => simp [keyLe] at h
    | cons y b =>
      simp only [keyLe] at h h'
      by_cases h1 : x = y
      · subst h1; rw [if_pos rfl] at h h'; rw [ih _ h h']
      · rw [if_neg h1] at h; rw [if_neg fun e => h1 e.symm] at h'
        simp at h h'; omega

theorem sortKeys_sorted {α : Type} (ms : List (Str × α)) : (sortKeys ms).Pairwise fun a b => keyLe a.1 b.1 := by
  unfold sortKeys
  apply List.pairwise_mergeSort
  · intro a b d h h'; exact keyLe_trans _ _ _ h h'
  · intro a b; exact keyLe_total _ _

theorem keyLe_iff (a b : Str) : keyLe a b = true ↔ a ≤ b := by
  induction a generalizing b with
  | nil => simp [keyLe]
  | cons x a ih =>
    cases b with
    | nil => simp [keyLe]
    | cons y b =>
      rw [List.cons_le_cons_iff]
      simp only [keyLe]
      by_cases h : x = y
      · subst h; simp [ih]
      · rw [if_neg h]
        simp only [h, false_and, or_false, decide_eq_true_eq]
        rfl

/-- C96: in the text the members of a dictionary are those of the dictionary, in lexicographic order of their names. -/
theorem C96_sorted (ms : List (Str × Val D O)) :
    ∃ ms', norm (.dict ms) = .dict ms' ∧ ms'.Perm (ms.map fun m => (m.1, norm m.2)) ∧ ms'.Pairwise fun a b => a.1 ≤ b.1 := by
  refine ⟨_, rfl, ?_, ?_⟩
  · rw [normMembers_eq]; exact List.mergeSort_perm _ _
  · exact (sortKeys_sorted _).imp fun h => (keyLe_iff _ _).mp h

/-- C96: the text does not depend on the order of the members in the hash table. -/
theorem C96_order_independent (hs : Entity.Sorted c.byCode byName) (ms ms' : List (Str × Val D O)) (hp : ms.Perm ms')
    (hn : (ms.map (·.1)).Nodup) : serializeDictionary c ms = serializeDictionary c ms' := by
  rw [C96_dictionary hs, C96_dictionary hs]
  simp only [norm]
  suffices h : sortKeys (normMembers ms) = sortKeys (normMembers ms') by rw [h]
  have hp' : (normMembers ms).Perm (normMembers ms') := by
    rw [normMembers_eq, normMembers_eq]; exact hp.map _
  have hn' : ((normMembers ms).map (·.1)).Nodup := by
    rw [normMembers_eq, List.map_map]; exact hn
  have hpp : (sortKeys (normMembers ms)).Perm (sortKeys (normMembers ms')) :=
    (List.mergeSort_perm _ _).trans (hp'.trans (List.mergeSort_perm _ _).symm)
  refine hpp.eq_of_pairwise ?_ (sortKeys_sorted _) (sortKeys_sorted _)
  intro a b ha hb h1 h2
  have hk := keyLe_antisymm _ _ h1 h2
  have ha' := mem_sortKeys.mp ha
  have hb' := hp'.mem_iff.mpr (mem_sortKeys.mp hb)
  exact List.inj_on_of_nodup_map hn' ha' hb' hk

/-! ### C97 -/

theorem okAll_iff {vs : List (Val D O)} : OkAll c E.num o vs ↔ ∀ v ∈ vs, Ok c E.num o v := by
  induction vs with
  | nil => simp [OkAll]
  | cons v vs ih => simp [OkAll, ih]

theorem okMembers_iff {ms : List (Str × Val D O)} :
    OkMembers c E.num o ms ↔ ∀ m ∈ ms, (IsIdent m.1 ∧ ¬ IsKeyword o m.1) ∧ Ok c E.num o m.2 := by
  induction ms with
  | nil => simp [OkMembers]
  | cons m ms ih => obtain ⟨k, v⟩ := m; simp [OkMembers, ih, and_assoc]

theorem sortKeys_nodup {α : Type} {ms : List (Str × α)} (h : (ms.map (·.1)).Nodup) : ((sortKeys ms).map (·.1)).Nodup :=
  (((List.mergeSort_perm ms _).map _).nodup_iff).mpr h

mutual
theorem ok_norm (v : Val D O) (h : Ok c E.num o v) : Ok c E.num o (norm v) := by
  match v with
  | .empty => trivial
  | .bool _ => trivial
  | .num _ => exact h
  | .name _ => exact h
  | .str _ => exact h
  | .other _ => exact h
  | .arr vs =>
    simp only [norm, Ok] at h ⊢
    exact okAll_norm vs h
  | .dict ms =>
    simp only [norm, Ok] at h ⊢
    have h2 := okMembers_norm ms h.2
    refine ⟨sortKeys_nodup ?_, ?_⟩
    · rw [normMembers_eq, List.map_map]; exact h.1
    · rw [okMembers_iff] at h2 ⊢
      exact fun m hm => h2 m (mem_sortKeys.mp hm)
theorem okAll_norm (vs : List (Val D O)) (h : OkAll c E.num o vs) : OkAll c E.num o (normAll vs) := by
  match vs with
  | [] => trivial
  | v :: vs => simp only [normAll, OkAll] at h ⊢; exact ⟨ok_norm v h.1, okAll_norm vs h.2⟩
theorem okMembers_norm (ms : List (Str × Val D O)) (h : OkMembers c E.num o ms) : OkMembers c E.num o (normMembers ms) := by
  match ms with
  | [] => trivial
  | (k, v) :: ms => simp only [normMembers, OkMembers] at h ⊢; exact ⟨h.1, ok_norm v h.2.1, okMembers_norm ms h.2.2⟩
end

theorem lookup_of_mem {α : Type} {k : Str} {a : α} {ms : List (Str × α)} (hn : (ms.map (·.1)).Nodup) (h : (k, a) ∈ ms) :
    ms.lookup k = some a := by
  induction ms with
  | nil => cases h
  | cons m ms ih =>
    obtain ⟨k', a'⟩ := m
    simp at hn
    by_cases hk : k = k'
    · subst hk
      rcases List.mem_cons.mp h with e | h
      · cases e; simp
      · exact absurd h (hn.1 a)
    · have hb : (k == k') = false := by simpa using hk
      rw [List.lookup_cons, hb]
      refine ih hn.2 ?_
      rcases List.mem_cons.mp h with e | h
      · cases e; exact absurd rfl hk
      · exact h

mutual
theorem beq_norm (hr : ∀ x, E.num.eq x x = true) (v : Val D O) (h : Ok c E.num o v) : Val.beq E.num E.eqO v (norm v) = true := by
  match v with
  | .empty => rfl
  | .bool b => simp [norm, Val.beq]
  | .num x => simp [norm, Val.beq, hr]
  | .name n => simp [norm, Val.beq]
  | .str s => simp [norm, Val.beq]
  | .other _ => simp [Ok] at h
  | .arr vs =>
    simp only [Ok] at h
    simp only [norm, Val.beq]
    exact beq_normAll hr vs h
  | .dict ms =>
    simp only [Ok] at h
    simp only [norm, Val.beq]
    have hl : (ms.length == (sortKeys (normMembers ms)).length) = true := by
      simp [sortKeys, normMembers_eq]
    rw [hl, Bool.true_and]
    have hn : ((sortKeys (normMembers ms)).map (·.1)).Nodup := by
      apply sortKeys_nodup
      rw [normMembers_eq, List.map_map]; exact h.1
    refine beq_normMembers hr ms h.2 _ fun m hm => lookup_of_mem hn (mem_sortKeys.mpr ?_)
    rw [normMembers_eq]
    exact List.mem_map.mpr ⟨m, hm, rfl⟩
theorem beq_normAll (hr : ∀ x, E.num.eq x x = true) (vs : List (Val D O)) (h : OkAll c E.num o vs) :
    Val.beqList E.num E.eqO vs (normAll vs) = true := by
  match vs with
  | [] => rfl
  | v :: vs =>
    simp only [OkAll] at h
    simp only [normAll, Val.beqList, Bool.and_eq_true]
    exact ⟨beq_norm hr v h.1, beq_normAll hr vs h.2⟩
theorem beq_normMembers (hr : ∀ x, E.num.eq x x = true) (ms : List (Str × Val D O)) (h : OkMembers c E.num o ms)
    (bs : List (Str × Val D O)) (hb : ∀ m ∈ ms, bs.lookup m.1 = some (norm m.2)) : Val.beqMembers E.num E.eqO ms bs = true := by
  match ms with
  | [] => simp [Val.beqMembers]
  | (k, v) :: ms =>
    simp only [OkMembers] at h
    simp only [Val.beqMembers, Bool.and_eq_true]
    have := hb (k, v) (by simp)
    simp only at this
    rw [this]
    exact ⟨beq_norm hr v h.2.1, beq_normMembers hr ms h.2.2 bs fun m hm => hb m (by simp [hm])⟩
end

/-- The text of `w` is accepted to its end and evaluates to `w'`. -/
theorem reads_accepted (hs : Setting c o E byName) (hN : E.num.Ok) (hO : ∀ n, E.override n ≠ none → Overridable n)
    {v w' : Val D O} (h : ReadsAs c o E (norm v) w') (hl : (serialize c v).length < 2 ^ 31) :
    ∃ items seen k code, Lexes o [] (serialize c v) items (.eof seen) ∧
      Parser.parse E.num.ofU32 k .expression [] (items.map (·.tok)) = .ok true code [] ∧
      ∃ n0, ∀ n, n0 ≤ n → ∀ st s, Vm.evaluate E n code st s = .ok () (w' :: st) s := by
  obtain ⟨ts, x, h1, h2, h3⟩ := h
  have ht := h1 0 [] [] Follow.nil T.nil
  rw [List.append_nil, List.append_nil, ← C96_serialize hs.sorted] at ht
  obtain ⟨items, seen, h4, rfl⟩ := ht
  obtain ⟨k, code, h5, n0, h6⟩ := Lex.C50_text_accepted E hN hO o _ seen hl items h4 x h2
  refine ⟨items, seen, k, code, h4, h5, n0, fun n hn st s => ?_⟩
  have := h6 n hn st s
  rw [h3] at this
  exact this

/-- C97: what is written for a value (of names that are identifiers, numbers that are printed without exponent, ASCII strings, arrays and
dictionaries of such) is a text of the expression language: it is accepted to its end, and evaluating it, whatever the state and
the stack, gives the value with the members of its dictionaries in the order of their names. -/
theorem C97_round_trip_partial (hs : Setting c o E byName) (hN : E.num.Ok) (hO : ∀ n, E.override n ≠ none → Overridable n)
    (v : Val D O) (h : Ok c E.num o v) (hl : (serialize c v).length < 2 ^ 31) :
    ∃ items seen k code, Lexes o [] (serialize c v) items (.eof seen) ∧
      Parser.parse E.num.ofU32 k .expression [] (items.map (·.tok)) = .ok true code [] ∧
      ∃ n0, ∀ n, n0 ≤ n → ∀ st s, Vm.evaluate E n code st s = .ok () (norm v :: st) s :=
  reads_accepted hs hN hO (reads_ok hs (norm v) (ok_norm v h)) hl

/-- C97: and this is a value that `operator==` considers equal. -/
theorem C97_equal (hr : ∀ x, E.num.eq x x = true) (v : Val D O) (h : Ok c E.num o v) : Val.beq E.num E.eqO v (norm v) = true :=
  beq_norm (c := c) (o := o) hr v h

/-! ### What is not read back -/

/-- C97 does not hold for all strings (`begin_asl_cel`): what is read has lost every NUL, and has two bytes for every byte from 128 on
(the two bytes of UTF-8 for U+0080 to U+00FF). -/
theorem C97_bytes_violated (hs : Setting c o E byName) (hsafe : c.safe = true) (hN : E.num.Ok)
    (hO : ∀ n, E.override n ≠ none → Overridable n) (s : Str) (hb : ∀ x ∈ s, x.toNat < 256) (hx : ∃ x ∈ s, x.toNat = 0 ∨ 128 ≤ x.toNat)
    (hl : (serialize c (.str s : Val D O)).length < 2 ^ 31) :
    ∃ u items seen k code, u = (((s.map Char.toNat).filter (· ≠ 0)).flatMap fun x => (Unicode.encode8 x).1).map Char.ofNat ∧
      u ≠ s ∧ Lexes o [] (serialize c (.str s : Val D O)) items (.eof seen) ∧
      Parser.parse E.num.ofU32 k .expression [] (items.map (·.tok)) = .ok true code [] ∧
      ∃ n0, ∀ n, n0 ≤ n → ∀ st s, Vm.evaluate E n code st s = .ok () (.str u :: st) s := by
  have hb' : ∀ x ∈ s.map Char.toNat, x < 256 := by simpa using hb
  obtain ⟨t, h1, h2⟩ := Entity.C86_round_trip_bytes hs.sorted _ hb'
  obtain ⟨t', h1', h3⟩ := Entity.C87_escaped_is_plain hs.sorted _ hb'
  rw [h1] at h1'
  cases h1'
  have he : t ≠ s.map Char.toNat := by
    rintro rfl
    obtain ⟨x, hm, hx⟩ := hx
    have := h3 x.toNat (List.mem_map.mpr ⟨x, hm, rfl⟩)
    omega
  obtain ⟨items, seen, k, code, h⟩ := reads_accepted (v := .str s) hs hN hO (reads_escaped hs hsafe h1 he h3 h2) hl
  refine ⟨_, items, seen, k, code, rfl, ?_, h⟩
  generalize hu : ((s.map Char.toNat).filter (· ≠ 0)).flatMap (fun x => (Unicode.encode8 x).1) = u at h2
  have h5 : ∀ y ∈ u, 0 < y ∧ y < 256 := by
    have key : ∀ x < 256, x ≠ 0 → ∀ y ∈ (Unicode.encode8 x).1, 0 < y ∧ y < 256 := by decide +kernel
    intro y hy
    rw [← hu] at hy
    obtain ⟨x, hx, hy⟩ := List.mem_flatMap.mp hy
    have := List.mem_filter.mp hx
    exact key x (hb' x this.1) (by simpa using this.2) y hy
  have h6 : (u.map Char.ofNat).map Char.toNat = u := by
    rw [List.map_map]
    conv => rhs; rw [← List.map_id u]
    apply List.map_congr_left
    intro a ha
    have : a.isValidChar := .inl (by have := h5 a ha; omega)
    simp [Char.ofNat, this, Char.toNat, Char.ofNatAux]
  intro heq
  have h7 : u = s.map Char.toNat := by rw [← h6, heq]
  by_cases h0 : 0 ∈ s.map Char.toNat
  · have := h5 0 (h7 ▸ h0); omega
  · obtain ⟨t', u', g1, g2, g3⟩ := Entity.C86_round_trip_violated hs.sorted (s.map Char.toNat)
      (fun x hx => ⟨Nat.pos_of_ne_zero fun e => h0 (e ▸ hx), hb' x hx⟩) (by
        obtain ⟨x, hm, hx⟩ := hx
        refine ⟨x.toNat, List.mem_map.mpr ⟨x, hm, rfl⟩, ?_⟩
        rcases hx with hx | hx
        · exact absurd (List.mem_map.mpr ⟨x, hm, hx⟩) h0
        · exact hx)
    rw [h1] at g1
    cases g1
    rw [h2] at g2
    cases g2
    exact g3 h7

/-- C97 does not hold for strings with quotes (`begin_asl_cel_unsafe`): a last quote is dropped silently. -/
theorem C97_quote_violated (hs : Setting c o E byName) (hsafe : c.safe = false) (hN : E.num.Ok)
    (hO : ∀ n, E.override n ≠ none → Overridable n) (s : Str) (hq : '"' ∉ s) (h0 : '\x00' ∉ s) (hl : s.length + 3 < 2 ^ 31) :
    ∃ items seen k code, Lexes o [] (serialize c (.str (s ++ "\"".toList) : Val D O)) items (.eof seen) ∧
      Parser.parse E.num.ofU32 k .expression [] (items.map (·.tok)) = .ok true code [] ∧
      ∃ n0, ∀ n, n0 ≤ n → ∀ st s', Vm.evaluate E n code st s' = .ok () (.str s :: st) s' := by
  have e : serialize c (.str (s ++ "\"".toList) : Val D O) = '"' :: (s ++ ['"', '"']) := by
    rw [C96_serialize hs.sorted]
    simp only [norm, text, quoted, hsafe]
    split <;> simp
  have hb : Lex.Spec.beforeNul (s ++ []) = s := by
    rw [List.append_nil]
    unfold Lex.Spec.beforeNul
    clear * - h0
    induction s with
    | nil => rfl
    | cons d s ih =>
      have : d ≠ '\x00' := fun e => h0 (by simp [e])
      rw [List.takeWhile_cons, if_pos (by simpa using this), ih fun h => h0 (by simp [h])]
  have hx : Lex.Spec.Lexeme o _ _ (.str (Lex.Spec.beforeNul (s ++ []))) [] :=
    .string (.more (q := '"') (ws := []) (.inr rfl) hq (by simp) (.lone (q := '"') (.inr rfl)))
  rw [hb] at hx
  have ht : T o (serialize c (.str (s ++ "\"".toList) : Val D O)) [.str s] := by
    have := T.nil.token hx rfl
    rw [e]
    simpa using this
  obtain ⟨items, seen, h4, h5⟩ := ht
  have hd : Derives .expression (items.map (·.tok)) (.e (.const (.str s)) : Expr.Spec.Out D O) := by
    rw [h5]; exact Derives.prim (.str s)
  obtain ⟨k, code, h6, n0, h7⟩ := Lex.C50_text_accepted E hN hO o _ seen (by rw [e]; simp; omega) items h4 _ hd
  refine ⟨items, seen, k, code, h4, h6, n0, fun n hn st s => ?_⟩
  have := h7 n hn st s
  simpa [eval] using this

/-- C97 does not hold for numbers that are printed with an exponent (such as 100000, which `std::to_chars` prints as "1e+05"): what is
read is the number in front of the exponent, and the text does not end there. -/
theorem C97_exponent_violated (hs : Setting c o E byName) (hN : E.num.Ok) (hO : ∀ n, E.override n ≠ none → Overridable n)
    (x : D) (m e : Str) (g : Char) (hg : g = '+' ∨ g = '-') (hm : IsDecimal m) (he : IsDecimal e)
    (hx : c.show_ x = m ++ 'e' :: g :: e) :
    ∃ items seen k code rest, Lexes o [] (serialize c (.num x : Val D O)) items (.eof seen) ∧
      Parser.parse E.num.ofU32 k .expression [] (items.map (·.tok)) = .ok true code rest ∧ rest.length = 3 ∧
      ∃ n0, ∀ n, n0 ≤ n → ∀ st s, Vm.evaluate E n code st s = .ok () (.num (o.decimal m) :: st) s := by
  have h1 : T o e [.num (o.decimal e)] := by simpa using T.nil.dec Follow.nil he
  have h2 : ∃ y, T o (g :: e) [.sym y, .num (o.decimal e)] := by
    rcases hg with rfl | rfl
    · exact ⟨.add, h1.sym (ch := '+') (by decide) (by decide) (by decide)⟩
    · obtain ⟨ch, e', rfl, h5, h6⟩ := he
      exact ⟨.subtract, T.minus h1 (by rintro rfl; revert h5; decide)⟩
  obtain ⟨y, h2⟩ := h2
  have hw : Lex.Spec.Stops Lex.Spec.isWord (g :: e) := by
    intro d hd
    simp at hd
    subst hd
    rcases hg with rfl | rfl <;> simp [Lex.Spec.isWord]
  have hi : IsIdent "e".toList := ⟨'e', [], rfl, by decide, by simp⟩
  have h3 : ∃ t, T o ('e' :: g :: e) [t, .sym y, .num (o.decimal e)] ∧ Expr.Spec.CanFollow [t, .sym y, .num (o.decimal e)] := by
    by_cases hk : IsKeyword o "e".toList
    · exact ⟨_, (h2.word hw hi).2 hk, trivial⟩
    · exact ⟨_, (h2.word hw hi).1 hk, trivial⟩
  obtain ⟨t, h3, hcf⟩ := h3
  have h4 : T o (serialize c (.num x : Val D O)) [.num (o.decimal m), t, .sym y, .num (o.decimal e)] := by
    rw [C96_serialize hs.sorted]
    simp only [norm, text, hx]
    obtain ⟨ch, m', rfl, h5, h6⟩ := hm
    refine h3.token (.dec h5 h6 (by intro d hd; simp at hd; subst hd; decide) ?_) rfl
    rintro ⟨z, d, s, -, h7, h8, -⟩
    cases h7
    revert h8; decide
  obtain ⟨items, seen, h5, h6⟩ := h4
  have hd : Derives .expression [.num (o.decimal m)] (.e (.const (.num (o.decimal m))) : Expr.Spec.Out D O) := Derives.prim (.num _)
  obtain ⟨n0, h7⟩ := C45_complete E.num.ofU32 _ _ _ hd hcf ([] : List (Val D O))
  have h8 := h7 n0 (Nat.le_refl _)
  refine ⟨items, seen, n0, _, [t, .sym y, .num (o.decimal e)], h5, by rw [h6]; exact h8, rfl, ?_⟩
  · obtain ⟨n1, h9⟩ := C46_meaning E hN hO _ _ hd (by simp [Expr.Spec.NamesOk]) (by simp)
    refine ⟨n1, fun n hn st s => ?_⟩
    have := h9 n hn st s
    simpa [eval] using this

/-- C97 does not hold for NaN and the infinities, which are printed as "NaN", "Infinity" and "-Infinity": what is read is the value of
a variable of this name (negated). -/
theorem C97_not_finite_violated (hs : Setting c o E byName) (x : D) (n : Str) (hn : IsIdent n) (hk : ¬ IsKeyword o n)
    (hx : c.show_ x = n ∨ c.show_ x = '-' :: n) :
    ∃ items seen e, Lexes o [] (serialize c (.num x : Val D O)) items (.eof seen) ∧
      Derives .expression (items.map (·.tok)) (.e e : Expr.Spec.Out D O) ∧ (e = .var n ∨ e = .un .neg (.var n)) := by
  have h1 : T o n [.ident n] := by
    have := (T.nil.word (o := o) (n := n) (by intro d hd; simp at hd) hn).1 hk
    simpa using this
  have e : serialize c (.num x : Val D O) = c.show_ x := by rw [C96_serialize hs.sorted]; simp [norm, text]
  rw [e]
  rcases hx with hx | hx
  · rw [hx]
    obtain ⟨items, seen, h2, h3⟩ := h1
    exact ⟨items, seen, _, h2, by rw [h3]; exact Derives.prim (.var n), .inl rfl⟩
  · rw [hx]
    have h2 : T o ('-' :: n) [.sym .subtract, .ident n] := by
      obtain ⟨ch, n', rfl, h5, h6⟩ := hn
      exact T.minus h1 (by rintro rfl; revert h5; decide)
    obtain ⟨items, seen, h2, h3⟩ := h2
    exact ⟨items, seen, _, h2, by rw [h3]; exact Derives.up (.neg (.postfix (.primary (.var n)))), .inr rfl⟩

/-- C97 does not hold for dictionaries with a member whose name is a keyword: the text is not accepted. -/
theorem C97_keyword_violated (hs : Setting c o E byName) (v : Val D O) (h : Ok c E.num o v) (n : Str) (hn : IsIdent n) (hk : IsKeyword o n) :
    ∃ items seen, Lexes o [] (serialize c (.dict [(n, v)] : Val D O)) items (.eof seen) ∧
      ∃ n0, ∀ k, n0 ≤ k → Parser.parse E.num.ofU32 k .expression ([] : List (Val D O)) (items.map (·.tok)) = .throw := by
  obtain ⟨ts, x, h1, h2, h3⟩ := reads_ok hs (norm v) (ok_norm v h)
  have ht : T o (serialize c (.dict [(n, v)] : Val D O)) (.sym .openBrace :: .kw n :: .sym .colon :: (ts ++ [.sym .closeBrace])) := by
    rw [C96_serialize hs.sorted]
    have e : sortKeys [(n, norm v)] = [(n, norm v)] := by simp [sortKeys]
    have g1 := (T.nil.sym (o := o) (ch := '}') (y := .closeBrace) (by decide) (by decide) (by decide)).space (ch := '\n') (by decide)
    have hf : Follow (['\n', '}']) := ⟨['\n'], _, rfl, by simp [Lex.Spec.isSpace], .inr ⟨'}', [], rfl, by simp⟩⟩
    have g2 := (h1 1 _ _ hf g1).space (ch := ' ') (by decide)
    have g3 := g2.sym (ch := ':') (y := .colon) (by decide) (by decide) (by decide)
    have g4 := (g3.word (n := n) (by intro d hd; simp at hd; subst hd; simp [Lex.Spec.isWord]) hn).2 hk
    have g5 := ((g4.space (ch := '\t') (by decide)).space (ch := '\n') (by decide)).sym (ch := '{') (y := .openBrace) (by decide) (by decide) (by decide)
    simpa [norm, normMembers, e, text, textMembers, tabs] using g5
  obtain ⟨items, seen, h4, h5⟩ := ht
  refine ⟨items, seen, h4, ?_⟩
  rw [h5]
  have h7 : ∀ k, Parser.parse E.num.ofU32 (k + 40) .expression ([] : List (Val D O))
      (.sym .openBrace :: .kw n :: .sym .colon :: (ts ++ [.sym .closeBrace])) = .throw := fun k => rfl
  exact ⟨40, fun k hk => by have := h7 (k - 40); rwa [Nat.sub_add_cancel hk] at this⟩

/-- C96 does not hold after `end_asl_cel`, which leaves the format installed: the next value is not written at all, nothing is thrown and
the stream stays good; the one after it is written, and the third has ", " in front. -/
theorem C96_after_end_violated (hs : Entity.Sorted c.byCode byName) (v1 v2 v3 : Val D O) (d : Nat) (out : Str) :
    (seq (put c v1) (seq (put c v2) (put c v3))) (endFormat ⟨out, d, [⟨.format, 0⟩]⟩).1 =
      (⟨out ++ text c d (norm v2) ++ (", ".toList ++ text c d (norm v3)), d, [⟨.atom, 2⟩]⟩, false) := by
  have e0 : (endFormat ⟨out, d, [⟨.format, 0⟩]⟩).1 = ⟨out, d, []⟩ := by simp [endFormat, seq, eventPop, drop]
  rw [e0]
  have e1 : put c v1 ⟨out, d, []⟩ = (⟨out, d, [⟨.atom, 0⟩]⟩, false) := by
    obtain ⟨body, hb, -⟩ := text_prints hs v1
    rw [hb]
    simp [format, manip, seq, push, atomPush, atomPop, St.counter, St.inBag, St.tag]
  have e2 := C96_put hs v2 out d 0 .atom [] (by simp)
  have e3 := C96_put hs v3 (out ++ text c d (norm v2)) d 1 .atom [] (by simp)
  simp only [if_true, List.nil_append] at e2
  simp only [seq, e1, e2, e3]
  simp

end Verif.Cel
