import Verif.Selection.Lemmas
/-
Lemmas about applying selections to ranges and about index sets.
-/
namespace Verif.Selection

variable {α : Type}

theorem pick_append (p : Nat → Bool) (base : Nat) (a b : List α) :
    pick p base (a ++ b) = pick p base a ++ pick p (base + a.length) b := by
  induction a generalizing base with
  | nil => simp [pick]
  | cons x xs ih =>
    simp only [List.cons_append, pick, List.length_cons]
    rw [ih, show base + 1 + xs.length = base + (xs.length + 1) by omega]
    split <;> simp

theorem pick_congr (p q : Nat → Bool) (base : Nat) (l : List α)
    (h : ∀ k, base ≤ k → k < base + l.length → p k = q k) : pick p base l = pick q base l := by
  induction l generalizing base with
  | nil => rfl
  | cons x xs ih =>
    simp only [pick]
    rw [h base (Nat.le_refl _) (by simp),
      ih (base + 1) (fun k h1 h2 => h k (by omega) (by simp at *; omega))]

theorem pick_true (base : Nat) (l : List α) : pick (fun _ => true) base l = l := by
  induction l generalizing base with
  | nil => rfl
  | cons x xs ih => simp [pick, ih]

theorem pick_false (base : Nat) (l : List α) : pick (fun _ => false) base l = [] := by
  induction l generalizing base with
  | nil => rfl
  | cons x xs ih => simp [pick, ih]

theorem pick_const (b : Bool) (p : Nat → Bool) (base : Nat) (l : List α)
    (h : ∀ k, base ≤ k → k < base + l.length → p k = b) : pick p base l = if b then l else [] := by
  rw [pick_congr p (fun _ => b) base l h]
  cases b
  · simp [pick_false]
  · simp [pick_true]

theorem pick_length (p : Nat → Bool) (base : Nat) (l : List α) :
    (pick p base l).length = ((List.range' base l.length).filter p).length := by
  induction l generalizing base with
  | nil => rfl
  | cons x xs ih =>
    simp only [pick, List.length_cons, List.range'_succ, List.filter_cons]
    split <;> simp [ih]

theorem pick_split_len (p : Nat → Bool) (base : Nat) (l : List α) :
    (pick (fun k => !p k) base l).length + (pick p base l).length = l.length := by
  induction l generalizing base with
  | nil => rfl
  | cons x xs ih =>
    have := ih (base + 1)
    simp only [pick, List.length_cons]
    by_cases h : p base = true
    · simp [h]; omega
    · simp [h]; omega

theorem toggled_cons_ge (b : Bool) (x : Nat) (xs : List Nat) (i : Nat) (h : x ≤ i) :
    toggled b (x :: xs) i = toggled (!b) xs i := by rw [toggled_cons, if_pos h]

/-! ### selection_copy / foreach -/

theorem copyLoop_spec (len : Nat) (vs : List α) (pos : Nat) (bs : List Nat) (inside : Bool)
    (hs : Sorted bs) (hge : ∀ b ∈ bs, pos ≤ b) (hle : ∀ b ∈ bs, b ≤ len) :
    copyLoop len vs pos bs inside = some (pick (toggled inside bs) pos vs) := by
  induction vs generalizing pos bs inside with
  | nil => simp [copyLoop, pick]
  | cons v vs ih =>
    cases bs with
    | nil =>
      simp only [copyLoop]
      rw [ih (pos + 1) [] inside List.Pairwise.nil (by simp) (by simp)]
      simp [pick, toggled_nil]
    | cons b bs =>
      have hb := List.pairwise_cons.1 hs
      simp only [copyLoop]
      rw [if_neg (by have := hle b (by simp); omega)]
      by_cases hp : pos = b
      · rw [if_pos hp, ih (pos + 1) bs (!inside) hb.2 (fun z hz => by have := hb.1 z hz; omega)
          (fun z hz => hle z (by simp [hz]))]
        simp only [Option.map_some, Option.some.injEq, pick]
        have e1 : toggled inside (b :: bs) pos = !inside := by
          rw [toggled_cons_ge _ _ _ _ (by omega), toggled_gt]
          intro z hz; have := hb.1 z hz; omega
        rw [e1, pick_congr (toggled inside (b :: bs)) (toggled (!inside) bs) (pos + 1) vs
          (fun k h1 _ => toggled_cons_ge _ _ _ _ (by omega))]
      · rw [if_neg hp, ih (pos + 1) (b :: bs) inside hs
          (fun z hz => by
            rcases List.mem_cons.1 hz with h | h
            · have := hge b (by simp); omega
            · have := hb.1 z h; have := hge b (by simp); omega) hle]
        simp only [Option.map_some, Option.some.injEq, pick]
        have e1 : toggled inside (b :: bs) pos = inside := by
          apply toggled_gt
          intro z hz
          have := hge b (by simp)
          rcases List.mem_cons.1 hz with h | h
          · omega
          · have := hb.1 z h; omega
        rw [e1]

/-! ### size(selection, range) -/

theorem filter_const (p : Nat → Bool) (b : Bool) (l : List Nat) (h : ∀ k ∈ l, p k = b) :
    l.filter p = if b then l else [] := by
  cases b
  · simp only [Bool.false_eq_true, if_false]; exact List.filter_eq_nil_iff.2 (fun k hk => by simp [h k hk])
  · simp only [if_true]; exact List.filter_eq_self.2 (fun k hk => h k hk)

theorem range'_split (a m e : Nat) (h1 : a ≤ m) (h2 : m ≤ e) :
    List.range' a (e - a) = List.range' a (m - a) ++ List.range' m (e - m) := by
  have := @List.range'_append_1 a (m - a) (e - m)
  rw [show a + (m - a) = m by omega, show m - a + (e - m) = e - a by omega] at this
  exact this.symm

theorem sizeLoop_spec (len : Nat) (bs : List Nat) (prev iter : Nat) (inside : Bool) (result : Nat)
    (hs : Sorted bs) (hle : ∀ b ∈ bs, b ≤ len) (hge : ∀ b ∈ bs, prev ≤ b) (hpl : prev ≤ len)
    (hit : iter = match bs with | [] => len | b :: _ => b) :
    sizeLoop len bs prev iter inside result =
      some (result + ((List.range' prev (len - prev)).filter (toggled inside bs)).length) := by
  induction bs generalizing prev iter inside result with
  | nil =>
    unfold sizeLoop
    simp only at hit
    subst hit
    rw [if_neg (by omega), filter_const _ inside _ (fun k _ => toggled_nil inside k)]
    cases inside <;> simp
  | cons b bs ih =>
    have hb := List.pairwise_cons.1 hs
    have hbl := hle b (by simp)
    have hbp := hge b (by simp)
    simp only at hit
    subst hit
    unfold sizeLoop
    rw [if_neg (by omega)]
    have hsplit := range'_split prev iter len hbp hbl
    have hpre : (List.range' prev (iter - prev)).filter (toggled inside (iter :: bs)) =
        if inside then List.range' prev (iter - prev) else [] := by
      apply filter_const
      intro k hk
      apply toggled_gt
      intro z hz
      have := List.mem_range'_1.1 hk
      rcases List.mem_cons.1 hz with h | h
      · omega
      · have := hb.1 z h; omega
    have hpost : (List.range' iter (len - iter)).filter (toggled inside (iter :: bs)) =
        (List.range' iter (len - iter)).filter (toggled (!inside) bs) := by
      apply List.filter_congr
      intro k hk
      have := List.mem_range'_1.1 hk
      exact toggled_cons_ge _ _ _ _ (by omega)
    rw [hsplit, List.filter_append, hpre, hpost, List.length_append]
    by_cases he : iter = len
    · simp only [he, if_true, Nat.sub_self, List.range'_zero, List.filter_nil, List.length_nil]
      cases inside <;> simp
    · simp only [if_neg he]
      cases bs with
      | nil =>
        simp only
        rw [ih iter len (!inside) _ List.Pairwise.nil (by simp) (by simp) hbl rfl]
        cases inside <;> simp; omega
      | cons c cs =>
        simp only
        rw [ih iter c (!inside) _ hb.2 (fun z hz => hle z (by simp at hz ⊢; right; exact hz))
          (fun z hz => by have := hb.1 z hz; omega) hbl rfl]
        cases inside <;> simp; omega

/-! ### partition_copy -/

theorem partLoop_spec (range : List α) (bs : List Nat) (first : Nat) (inside : Bool) (outF outT : List α)
    (hs : Sorted bs) (hle : ∀ b ∈ bs, b ≤ range.length) (hge : ∀ b ∈ bs, first ≤ b) (hfl : first ≤ range.length) :
    partLoop .append range bs first inside outF outT =
      some (outF ++ pick (fun k => !toggled inside bs k) first (range.drop first),
            outT ++ pick (toggled inside bs) first (range.drop first)) := by
  induction bs generalizing first inside outF outT with
  | nil =>
    unfold partLoop
    simp only [Nat.lt_irrefl, if_false, if_true]
    have e : (range.drop first).take (range.length - first) = range.drop first := by
      rw [List.take_of_length_le]; simp
    rw [e, pick_const inside _ _ _ (fun k _ _ => toggled_nil inside k),
      pick_const (!inside) _ _ _ (fun k _ _ => by rw [toggled_nil])]
    cases inside <;> simp [writeSeg]
  | cons b bs ih =>
    have hb := List.pairwise_cons.1 hs
    have hbl := hle b (by simp)
    have hbp := hge b (by simp)
    have hsplit : range.drop first = (range.drop first).take (b - first) ++ range.drop b := by
      have := (List.take_append_drop (b - first) (range.drop first)).symm
      rwa [List.drop_drop, show first + (b - first) = b by omega] at this
    have hlen : ((range.drop first).take (b - first)).length = b - first := by simp; omega
    have hin : ∀ k, first ≤ k → k < first + (b - first) → toggled inside (b :: bs) k = inside := by
      intro k h1 h2
      apply toggled_gt
      intro z hz
      rcases List.mem_cons.1 hz with h | h
      · omega
      · have := hb.1 z h; omega
    unfold partLoop
    simp only
    rw [if_neg (by omega)]
    have hT : pick (toggled inside (b :: bs)) first (range.drop first) =
        (if inside then (range.drop first).take (b - first) else []) ++
          pick (toggled (!inside) bs) b (range.drop b) := by
      conv => lhs; rw [hsplit]
      rw [pick_append, hlen, pick_const inside _ _ _ (fun k h1 h2 => hin k h1 (by omega)),
        show first + (b - first) = b by omega]
      congr 1
      exact pick_congr _ _ _ _ (fun k h1 _ => toggled_cons_ge _ _ _ _ h1)
    have hF : pick (fun k => !toggled inside (b :: bs) k) first (range.drop first) =
        (if inside then [] else (range.drop first).take (b - first)) ++
          pick (fun k => !toggled (!inside) bs k) b (range.drop b) := by
      conv => lhs; rw [hsplit]
      rw [pick_append, hlen, pick_const (!inside) _ _ _ (fun k h1 h2 => by rw [hin k h1 (by omega)]),
        show first + (b - first) = b by omega]
      congr 1
      · cases inside <;> rfl
      · exact pick_congr _ _ _ _ (fun k h1 _ => by rw [toggled_cons_ge _ _ _ _ h1])
    rw [hT, hF]
    by_cases he : b = range.length
    · rw [if_pos he]
      have : range.drop b = [] := by rw [he]; simp
      rw [this]
      cases inside <;> simp [pick, writeSeg]
    · rw [if_neg he, ih b (!inside) _ _ hb.2 (fun z hz => hle z (by simp [hz]))
        (fun z hz => by have := hb.1 z hz; omega) hbl]
      cases inside <;> simp [writeSeg]

/-! ### stable partition -/

theorem odd_add (bc k : Nat) : decide ((bc + k) % 2 = 1) = (decide (bc % 2 = 1) != decide (k % 2 = 1)) := by
  by_cases h1 : bc % 2 = 1 <;> by_cases h2 : k % 2 = 1 <;> by_cases h3 : (bc + k) % 2 = 1 <;>
    simp_all <;> omega

theorem stablePartitionI_spec (pre A post : List α) (sel : List Nat) (bc : Nat)
    (hs : Sorted sel) (hge : ∀ b ∈ sel, pre.length ≤ b) (hle : ∀ b ∈ sel, b ≤ pre.length + A.length) :
    stablePartitionI (pre ++ A ++ post) sel pre.length (pre.length + A.length) bc =
      some (pre ++ pick (fun k => !toggled (decide (bc % 2 = 1)) sel k) pre.length A ++
              pick (toggled (decide (bc % 2 = 1)) sel) pre.length A ++ post,
            pre.length + (pick (fun k => !toggled (decide (bc % 2 = 1)) sel k) pre.length A).length) := by
  generalize hn : sel.length = n
  induction n using Nat.strongRecOn generalizing pre A post sel bc with
  | _ n ih =>
    match sel, hn with
    | [], _ =>
      unfold stablePartitionI
      rw [pick_const (decide (bc % 2 = 1)) _ _ A (fun k _ _ => toggled_nil _ k),
        pick_const (!decide (bc % 2 = 1)) _ _ A (fun k _ _ => by rw [toggled_nil])]
      by_cases h : bc % 2 = 1 <;> simp [h]
    | s :: ss, hn =>
      unfold stablePartitionI
      simp only
      generalize hsel : s :: ss = sel at *
      have hpos : 0 < sel.length := by rw [← hsel]; simp
      have hh : sel.length / 2 < sel.length := by omega
      generalize hhalf : sel.length / 2 = half at *
      have hrm : sel[half]? = some sel[half] := List.getElem?_eq_getElem hh
      rw [hrm]
      simp only
      generalize hrmv : sel[half] = rm at *
      have hmem : rm ∈ sel := by rw [← hrmv]; exact List.getElem_mem hh
      have hsplit : sel = sel.take half ++ rm :: sel.drop (half + 1) := by
        rw [← hrmv]; simp
      have hr1 := hge rm hmem
      have hr2 := hle rm hmem
      rw [if_neg (by simp; omega)]
      have hpw := hs
      rw [hsplit] at hpw
      have hpa := List.pairwise_append.1 hpw
      have hpc := List.pairwise_cons.1 hpa.2.1
      have hsub1 : ∀ z ∈ sel.take half, z ∈ sel := fun z hz => List.mem_of_mem_take hz
      have hsub2 : ∀ z ∈ sel.drop (half+1), z ∈ sel := fun z hz => List.mem_of_mem_drop hz
      have hlt1 : ∀ z ∈ sel.take half, z < rm := fun z hz => hpa.2.2 z hz rm (by simp)
      have hgt2 : ∀ z ∈ sel.drop (half+1), rm < z := hpc.1
      -- split A
      obtain ⟨A1, A2, hA, hA1⟩ : ∃ A1 A2, A = A1 ++ A2 ∧ A1.length = rm - pre.length :=
        ⟨A.take (rm - pre.length), A.drop (rm - pre.length), by simp, by simp; omega⟩
      subst hA
      simp only [List.length_append] at hr2 hle ⊢
      -- left half
      have ih1 := ih (sel.take half).length (by rw [← hn, List.length_take]; omega) pre A1 (A2 ++ post)
        (sel.take half) bc hpa.1 (fun b hb => hge b (hsub1 b hb)) (fun b hb => by have := hlt1 b hb; omega) rfl
      rw [show pre.length + A1.length = rm by omega] at ih1
      generalize hU1 : pick (fun k => !toggled (decide (bc % 2 = 1)) (sel.take half) k) pre.length A1 = U1 at *
      generalize hS1 : pick (toggled (decide (bc % 2 = 1)) (sel.take half)) pre.length A1 = S1 at *
      have hl1 : U1.length + S1.length = A1.length := by
        rw [← hU1, ← hS1]; exact pick_split_len _ _ _
      rw [show pre ++ (A1 ++ A2) ++ post = pre ++ A1 ++ (A2 ++ post) by simp, ih1]
      simp only
      -- right half
      have hpre2 : (pre ++ U1 ++ S1).length = rm := by simp; omega
      have ih2 := ih (sel.drop (half+1)).length (by rw [← hn, List.length_drop]; omega) (pre ++ U1 ++ S1) A2 post
        (sel.drop (half+1)) (bc + half + 1) hpc.2 (fun b hb => by have := hgt2 b hb; omega)
        (fun b hb => by have := hle b (hsub2 b hb); omega) rfl
      rw [hpre2, show rm + A2.length = pre.length + (A1.length + A2.length) by omega] at ih2
      generalize hU2 : pick (fun k => !toggled (decide ((bc + half + 1) % 2 = 1)) (sel.drop (half+1)) k) rm A2 = U2 at *
      generalize hS2 : pick (toggled (decide ((bc + half + 1) % 2 = 1)) (sel.drop (half+1))) rm A2 = S2 at *
      rw [show pre ++ U1 ++ S1 ++ (A2 ++ post) = pre ++ U1 ++ S1 ++ A2 ++ post by simp, ih2]
      simp only
      -- rotate
      obtain ⟨p, hrot, hoth, _⟩ := Permute.C05_rotate (pre ++ U1) S1 U2 (S2 ++ post)
      rw [show (pre ++ U1).length = pre.length + U1.length by simp,
        show pre.length + U1.length + S1.length = rm by omega] at hrot hoth
      rw [show pre ++ U1 ++ S1 ++ U2 ++ S2 ++ post = pre ++ U1 ++ S1 ++ U2 ++ (S2 ++ post) by simp, hrot]
      simp only
      rw [hoth]
      -- relate the pieces to the whole selection
      have hleft : ∀ k, k < rm → toggled (decide (bc % 2 = 1)) sel k = toggled (decide (bc % 2 = 1)) (sel.take half) k := by
        intro k hk
        conv => lhs; rw [hsplit]
        rw [toggled_append]
        apply toggled_gt
        intro z hz
        rcases List.mem_cons.1 hz with h | h
        · omega
        · have := hgt2 z h; omega
      have hright : ∀ k, rm ≤ k → toggled (decide (bc % 2 = 1)) sel k =
          toggled (decide ((bc + half + 1) % 2 = 1)) (sel.drop (half+1)) k := by
        intro k hk
        conv => lhs; rw [hsplit]
        rw [toggled_append, toggled_cons_ge _ _ _ _ hk, toggled_all_le _ (sel.take half) _
          (fun z hz => by have := hlt1 z hz; omega)]
        congr 1
        rw [List.length_take, show min half sel.length = half by omega, Nat.add_assoc, odd_add, odd_add]
        cases decide (bc % 2 = 1) <;> cases decide (half % 2 = 1) <;> rfl
      have eU : pick (fun k => !toggled (decide (bc % 2 = 1)) sel k) pre.length (A1 ++ A2) = U1 ++ U2 := by
        rw [pick_append, show pre.length + A1.length = rm by omega, ← hU1, ← hU2]
        congr 1
        · exact pick_congr _ _ _ _ (fun k _ h2 => by rw [hleft k (by omega)])
        · exact pick_congr _ _ _ _ (fun k h1 _ => by rw [hright k h1])
      have eS : pick (toggled (decide (bc % 2 = 1)) sel) pre.length (A1 ++ A2) = S1 ++ S2 := by
        rw [pick_append, show pre.length + A1.length = rm by omega, ← hS1, ← hS2]
        congr 1
        · exact pick_congr _ _ _ _ (fun k _ h2 => by rw [hleft k (by omega)])
        · exact pick_congr _ _ _ _ (fun k h1 _ => by rw [hright k h1])
      rw [eU, eS]
      simp [Nat.add_assoc]

/-! ### index sets -/

theorem findSequenceEnd_spec (l : List Nat) (n : Nat) (hs : Sorted l) (hge : ∀ z ∈ l, n ≤ z) :
    n ≤ (findSequenceEnd l n).2 ∧
    l = List.range' n ((findSequenceEnd l n).2 - n) ++ (findSequenceEnd l n).1 ∧
    ∀ z ∈ (findSequenceEnd l n).1, (findSequenceEnd l n).2 < z := by
  induction l generalizing n with
  | nil => simp [findSequenceEnd]
  | cons x xs ih =>
    have hx := List.pairwise_cons.1 hs
    unfold findSequenceEnd
    by_cases h : n = x
    · rw [if_pos h]
      subst h
      obtain ⟨h1, h2, h3⟩ := ih (n+1) hx.2 (fun z hz => hx.1 z hz)
      refine ⟨by omega, ?_, h3⟩
      conv => lhs; rw [h2]
      rw [show (findSequenceEnd xs (n+1)).2 - n = ((findSequenceEnd xs (n+1)).2 - (n+1)) + 1 by omega,
        List.range'_succ]
      rfl
    · rw [if_neg h]
      refine ⟨Nat.le_refl _, by simp, ?_⟩
      intro z hz
      have h0 := hge x (by simp)
      rcases List.mem_cons.1 hz with h' | h'
      · omega
      · have := hx.1 z h'; omega

theorem indexSetBounds_spec (l : List Nat) (hs : Sorted l) :
    Sorted (indexSetBounds l) ∧ (∀ lo, (∀ z ∈ l, lo ≤ z) → ∀ b ∈ indexSetBounds l, lo ≤ b) ∧
    (∀ i, toggled false (indexSetBounds l) i = decide (i ∈ l)) ∧ (indexSetBounds l).length % 2 = 0 := by
  generalize hn : l.length = n
  induction n using Nat.strongRecOn generalizing l with
  | _ n ih =>
    match l, hn with
    | [], _ => simp [indexSetBounds, toggled_nil]
    | x :: xs, hn =>
      have hx := List.pairwise_cons.1 hs
      obtain ⟨h1, h2, h3⟩ := findSequenceEnd_spec xs (x+1) hx.2 (fun z hz => hx.1 z hz)
      have hlen := findSequenceEnd_length xs (x+1)
      unfold indexSetBounds
      generalize (findSequenceEnd xs (x+1)).2 = e at *
      generalize (findSequenceEnd xs (x+1)).1 = rest at *
      have hsr : Sorted rest := by
        have := hx.2; rw [h2] at this; exact (List.pairwise_append.1 this).2.1
      obtain ⟨i1, i2, i3, i4⟩ := ih rest.length (by simp only [List.length_cons] at hn; omega) rest hsr rfl
      have hb : ∀ b ∈ indexSetBounds rest, e < b := fun b hb => i2 (e+1) (fun z hz => h3 z hz) b hb
      refine ⟨?_, ?_, ?_, ?_⟩
      · refine List.pairwise_cons.2 ⟨?_, List.pairwise_cons.2 ⟨hb, i1⟩⟩
        intro z hz
        rcases List.mem_cons.1 hz with h | h
        · omega
        · have := hb z h; omega
      · intro lo hlo b hbm
        have := hlo x (by simp)
        rcases List.mem_cons.1 hbm with h | h
        · omega
        · rcases List.mem_cons.1 h with h | h
          · omega
          · have := hb b h; omega
      · intro i
        rw [toggled_cons, toggled_cons, toggled_cons]
        have hmem : (i ∈ x :: xs) ↔ (x ≤ i ∧ i < e) ∨ i ∈ rest := by
          rw [h2, List.mem_cons, List.mem_append, List.mem_range'_1]
          constructor
          · rintro (h | h | h)
            · left; omega
            · left; omega
            · right; exact h
          · rintro (h | h)
            · by_cases hix : i = x
              · left; exact hix
              · right; left; omega
            · right; right; exact h
        by_cases c1 : x ≤ i
        · rw [if_pos c1]
          by_cases c2 : e ≤ i
          · rw [if_pos c2]
            simp only [Bool.not_false, Bool.not_true]
            rw [i3]
            by_cases hr : i ∈ rest
            · have : i ∈ x :: xs := hmem.2 (Or.inr hr)
              simp [hr, this]
            · have : ¬ (i ∈ x :: xs) := fun h => by
                rcases hmem.1 h with h | h
                · omega
                · exact hr h
              simp only [hr, this, decide_false]
          · rw [if_neg c2, toggled_gt _ _ _ (fun b hbm => by have := hb b hbm; omega)]
            have : i ∈ x :: xs := hmem.2 (Or.inl ⟨c1, by omega⟩)
            simp [this]
        · rw [if_neg c1, if_neg (by omega), toggled_gt _ _ _ (fun b hbm => by have := hb b hbm; omega)]
          have : ¬ (i ∈ x :: xs) := fun h => by
            rcases hmem.1 h with h | h
            · omega
            · have := h3 i h; omega
          simp only [this, decide_false]
      · simp only [List.length_cons]; omega

theorem emitUntil_spec (stop mx : Nat) (sel : Bool) (idx : Nat) (h1 : idx ≤ stop) (h2 : idx ≤ mx) :
    emitUntil stop mx sel idx =
      (if sel then List.range' idx (min stop mx - idx) else [], min stop mx) := by
  generalize hd : mx - idx = d
  induction d generalizing idx with
  | zero =>
    unfold emitUntil
    rw [dif_neg (by omega)]
    have : min stop mx = idx := by omega
    rw [this]; cases sel <;> simp
  | succ d ih =>
    unfold emitUntil
    by_cases hst : idx = stop
    · rw [dif_neg (by omega)]
      have : min stop mx = idx := by omega
      rw [this]; cases sel <;> simp
    · rw [dif_pos (by omega), ih (idx+1) (by omega) (by omega) (by omega)]
      have e : List.range' idx (min stop mx - idx) = idx :: List.range' (idx+1) (min stop mx - (idx+1)) := by
        rw [show min stop mx - idx = (min stop mx - (idx+1)) + 1 by omega, List.range'_succ]
      rw [e]
      cases sel <;> simp

theorem toIndexLoop_spec (mx : Nat) (bs : List Nat) (sel : Bool) (idx : Nat) (hs : Sorted bs)
    (hge : ∀ b ∈ bs, idx ≤ b) (h : idx ≤ mx) :
    toIndexLoop mx bs sel idx = (List.range' idx (mx - idx)).filter (toggled sel bs) := by
  induction bs generalizing sel idx with
  | nil =>
    unfold toIndexLoop
    rw [emitUntil_spec _ _ _ _ h h, filter_const _ sel _ (fun k _ => toggled_nil sel k)]
    simp
  | cons b bs ih =>
    have hb := List.pairwise_cons.1 hs
    have h0 := hge b (by simp)
    unfold toIndexLoop
    simp only
    rw [emitUntil_spec _ _ _ _ h0 h]
    simp only
    rw [ih (!sel) (min b mx) hb.2 (fun z hz => by have := hb.1 z hz; omega) (by omega),
      range'_split idx (min b mx) mx (by omega) (by omega), List.filter_append]
    congr 1
    · rw [filter_const (toggled sel (b :: bs)) sel]
      intro k hk
      have := List.mem_range'_1.1 hk
      apply toggled_gt
      intro z hz
      rcases List.mem_cons.1 hz with h' | h'
      · omega
      · have := hb.1 z h'; omega
    · apply List.filter_congr
      intro k hk
      have := List.mem_range'_1.1 hk
      exact (toggled_cons_ge _ _ _ _ (by omega)).symm

end Verif.Selection
