import Verif.Forest.Ops

namespace Verif.Forest
open Verif.Ring Forest

variable {α : Type}

theorem word_not_end_true (k : Forest Nat) (A : List Pos) (m : Nat) : k.word ≠ A ++ [(m, true)] := by
  intro h
  by_cases hk : k = .nil
  · subst hk; simp at h
  · obtain ⟨_, m', _, ⟨A', e⟩, _⟩ := word_ends hk
    rw [e] at h
    have := (List.append_inj' h rfl).2
    simp at this

/-- adjacent leading and trailing edges are those of a leaf -/
theorem leaf_split {G : Forest Nat} {A B : List Pos} {m n : Nat} (h : G.word = A ++ (m, true) :: (n, false) :: B) :
    m = n ∧ ∃ c R, G = plug c (.cons n .nil R) ∧ c.lw = A ∧ R.word ++ c.rw = B := by
  induction G generalizing A B with
  | nil => simp at h
  | cons x k r ihk ihr =>
    rw [word_cons] at h
    cases A with
    | nil =>
      simp only [List.nil_append, List.cons.injEq, Prod.mk.injEq, and_true] at h
      obtain ⟨rfl, h⟩ := h
      cases k with
      | nil =>
        simp only [word_nil, List.nil_append, List.cons.injEq, Prod.mk.injEq, and_true] at h
        obtain ⟨rfl, rfl⟩ := h
        exact ⟨rfl, .top, r, rfl, rfl, by simp [Ctx.rw]⟩
      | cons y k' r' => simp at h
    | cons a A =>
      simp only [List.cons_append, List.cons.injEq] at h
      obtain ⟨rfl, h⟩ := h
      rcases List.append_eq_append_iff.1 h with ⟨A2, e1, e2⟩ | ⟨A2, e1, e2⟩
      · cases A2 with
        | nil => simp at e2
        | cons a2 A2 =>
          simp only [List.cons_append, List.cons.injEq] at e2
          obtain ⟨rfl, e2⟩ := e2
          obtain ⟨h1, c, R, h2, h3, h4⟩ := ihr e2
          refine ⟨h1, .after x k c, R, by rw [h2]; rfl, ?_, by simpa [Ctx.rw] using h4⟩
          rw [e1]; simp [Ctx.lw, h3]
      · cases A2 with
        | nil => simp at e2
        | cons a2 A2 =>
          simp only [List.cons_append, List.cons.injEq] at e2
          obtain ⟨rfl, e2⟩ := e2
          cases A2 with
          | nil => exact absurd e1 (word_not_end_true _ _ _)
          | cons a3 A3 =>
            simp only [List.cons_append, List.cons.injEq] at e2
            obtain ⟨rfl, e2⟩ := e2
            obtain ⟨h1, c, R, h2, h3, h4⟩ := ihk e1
            refine ⟨h1, .inside x c r, R, by rw [h2]; rfl, by simp [Ctx.lw, h3], ?_⟩
            rw [e2]; simp [Ctx.rw, ← h4]

/-- a node's leading edge comes first -/
theorem lead_first {F : Forest Nat} (nd : F.pre.Nodup) {A B : List Pos} {n : Nat} (h : F.word = A ++ (n, true) :: B) : (n, false) ∉ A := by
  induction F generalizing A B with
  | nil => simp at h
  | cons x k r ihk ihr =>
    have nw := word_nodup nd
    have hnd := nd
    rw [pre_cons, List.nodup_cons, List.nodup_append] at nd
    obtain ⟨n1, n2, n3, n4⟩ := nd
    rw [word_cons] at h
    cases A with
    | nil => simp
    | cons a A =>
      simp only [List.cons_append, List.cons.injEq] at h
      obtain ⟨rfl, h⟩ := h
      simp only [List.mem_cons, Prod.mk.injEq, Bool.false_eq_true, and_false, false_or]
      rcases List.append_eq_append_iff.1 h with ⟨A2, e1, e2⟩ | ⟨A2, e1, e2⟩
      · cases A2 with
        | nil => simp at e2
        | cons a2 A2 =>
          simp only [List.cons_append, List.cons.injEq] at e2
          obtain ⟨rfl, e2⟩ := e2
          have hnr : n ∈ r.pre := mem_word.1 (by rw [e2]; simp : (n, true) ∈ r.word)
          rw [e1]
          simp only [List.mem_append, List.mem_cons, mem_word, Prod.mk.injEq, not_or]
          refine ⟨fun hk => n4 n hk n hnr rfl, ?_, ihr n3 e2⟩
          rintro ⟨rfl, _⟩; exact n1 (by simp [hnr])
      · cases A2 with
        | nil => simp at e2
        | cons a2 A2 =>
          simp only [List.cons_append, List.cons.injEq] at e2
          obtain ⟨rfl, e2⟩ := e2
          exact ihk n2 e1

/-! ### the surviving part of a run -/

/-- the elements of the run whose node has its other edge outside -/
def keep (M : List Pos) : List Pos := M.filter (fun p => !both M p.1)

theorem both_eq {M : List Pos} {n : Nat} : both M n = true ↔ (n, true) ∈ M ∧ (n, false) ∈ M := by
  simp [both]

theorem keep_lone {M : List Pos} {n : Nat} {e : Bool} (h : (n, !e) ∉ M) : keep (M ++ [(n, e)]) = keep M ++ [(n, e)] := by
  have hb : ∀ x, both (M ++ [(n, e)]) x = both M x := by
    intro x
    rw [Bool.eq_iff_iff, both_eq, both_eq]
    simp only [List.mem_append, List.mem_singleton, Prod.mk.injEq]
    constructor
    · rintro ⟨h1, h2⟩
      cases e
      · refine ⟨by simpa using h1, ?_⟩
        rcases h2 with h2 | ⟨rfl, _⟩
        · exact h2
        · exact absurd (by simpa using h1) h
      · refine ⟨?_, by simpa using h2⟩
        rcases h1 with h1 | ⟨rfl, _⟩
        · exact h1
        · exact absurd (by simpa using h2) h
    · rintro ⟨h1, h2⟩; exact ⟨Or.inl h1, Or.inl h2⟩
  unfold keep
  rw [List.filter_append]
  simp only [hb]
  congr 1
  have : both M n = false := by
    rw [Bool.eq_false_iff, ne_eq, both_eq]
    cases e <;> simp_all
  simp [this]

theorem keep_pair {M L : List Pos} {n : Nat} (nd : M.Nodup) (h : (n, false) ∉ M) (hk : keep M = L ++ [(n, true)]) :
    keep (M ++ [(n, false)]) = L := by
  have hmem : ∀ p ∈ L ++ [(n, true)], p ∈ M := by
    intro p hp; rw [← hk] at hp; exact List.mem_of_mem_filter hp
  have hb : ∀ x, both (M ++ [(n, false)]) x = (both M x || decide (x = n)) := by
    intro x
    rw [Bool.eq_iff_iff, both_eq]
    simp only [List.mem_append, List.mem_singleton, Prod.mk.injEq, Bool.or_eq_true, both_eq, decide_eq_true_eq]
    constructor
    · rintro ⟨h1, h2⟩
      rcases h2 with h2 | ⟨rfl, _⟩
      · left; exact ⟨by simpa using h1, h2⟩
      · right; rfl
    · rintro (⟨h1, h2⟩ | rfl)
      · exact ⟨Or.inl h1, Or.inl h2⟩
      · exact ⟨Or.inl (hmem _ (by simp)), by simp⟩
  have ndL : (L ++ [(n, true)]).Nodup := by rw [← hk]; exact nd.filter _
  have hLn : ∀ p ∈ L, p.1 ≠ n := by
    rintro ⟨m, e⟩ hp rfl
    cases e
    · exact h (hmem _ (by simp [hp]))
    · rw [List.nodup_append] at ndL
      exact ndL.2.2 _ hp _ (by simp) rfl
  unfold keep
  rw [List.filter_append]
  simp only [hb]
  have e1 : M.filter (fun p => !(both M p.1 || decide (p.1 = n))) = (keep M).filter (fun p => !decide (p.1 = n)) := by
    unfold keep
    rw [List.filter_filter]
    congr 1
    funext p
    simp [Bool.and_comm]
  rw [e1, hk, List.filter_append]
  have e2 : L.filter (fun p => !decide (p.1 = n)) = L := by
    rw [List.filter_eq_self]; intro p hp; simpa using hLn p hp
  rw [e2]; simp

/-! ### the loop -/

theorem firstOf_cons (a : Pos) (M : List Pos) (z : Pos) : firstOf (a :: M) z = a := rfl

theorem firstOf_split (M : List Pos) (z : Pos) (Y : List Pos) : ∃ Q, M ++ z :: Y = firstOf M z :: Q := by
  obtain ⟨Q, e⟩ := split_first M z
  refine ⟨Q ++ Y, ?_⟩
  rw [show M ++ z :: Y = (M ++ [z]) ++ Y by simp, e]; rfl

theorem firstOf_eq {M M' Y Y' : List Pos} {z z' : Pos} (h : M ++ z :: Y = M' ++ z' :: Y') : firstOf M z = firstOf M' z' := by
  obtain ⟨Q, e⟩ := firstOf_split M z Y
  obtain ⟨Q', e'⟩ := firstOf_split M' z' Y'
  rw [e, e'] at h
  exact (List.cons.inj h).1

theorem eraseLoop_spec (junk : Pos → Nat) {t : Nat} {F0 : Forest Nat} {V0 : Nat → Option α} {X Y : List Pos} {last : Pos}
    (nd0 : (t :: F0.pre).Nodup) (M2 : List Pos) : ∀ (M1 cl op : List Pos) (s : St α) (A : AS α) (fuel : Nat),
    Rep s A → t ∈ A.tails →
    F0.word ++ [(t, false)] = X ++ (M1 ++ (M2 ++ last :: Y)) →
    (A.F t).word ++ [(t, false)] = X ++ (cl ++ (op ++ (M2 ++ last :: Y))) →
    (∀ p ∈ cl, p.2 = false) → (∀ p ∈ op, p.2 = true) → cl ++ op = keep M1 →
    A.V = (fun n => if both M1 n then none else V0 n) →
    M2.length ≤ fuel →
    ∃ s' G, St.eraseLoop junk t last fuel s (firstOf M2 last) op.length = some s' ∧
      Rep s' { A with F := upd A.F t G, V := fun n => if both (M1 ++ M2) n then none else V0 n } ∧
      G.word ++ [(t, false)] = X ++ (keep (M1 ++ M2) ++ last :: Y) := by
  induction M2 with
  | nil =>
    intro M1 cl op s A fuel r ht hW hG hcl hop hk hV hfuel
    refine ⟨s, A.F t, ?_, ?_, ?_⟩
    · cases fuel <;> simp [St.eraseLoop, firstOf]
    · simp only [List.append_nil]
      rw [← hV, AS.ext_F rfl]; exact r
    · rw [List.append_nil, ← hk, hG]; simp
  | cons p M2 ih =>
    intro M1 cl op s A fuel r ht hW hG hcl hop hk hV hfuel
    obtain ⟨fuel, rfl⟩ : ∃ f, fuel = f + 1 := ⟨fuel - 1, by simp at hfuel; omega⟩
    have hfuel' : M2.length ≤ fuel := by simpa using hfuel
    have v := r.valid t ht
    have nd := (full_nodup nd0)
    have hfull : full t F0 = (t, true) :: (X ++ (M1 ++ (p :: M2 ++ last :: Y))) := by rw [full, hW]
    have nd1 : (X ++ (M1 ++ (p :: M2 ++ last :: Y))).Nodup := by
      rw [hfull, List.nodup_cons] at nd; exact nd.2
    have ndM : (M1 ++ (p :: M2 ++ last :: Y)).Nodup := (List.nodup_append.1 nd1).2.1
    have hpl : p ≠ last := by
      rintro rfl
      have := (List.nodup_append.1 ndM).2.1
      simp at this
    have hpM1 : p ∉ M1 := fun h => (List.nodup_append.1 ndM).2.2 p h p (by simp) rfl
    obtain ⟨Q, hQ⟩ := firstOf_split M2 last Y
    have hinc : s.heap.inc p = firstOf M2 last := by
      refine (v.step (A := (t, true) :: (X ++ (cl ++ op))) (B := Q) (p := p) (q := firstOf M2 last) ?_).1
      rw [full, hG, ← hQ]; simp
    have hassoc : M1 ++ p :: M2 = (M1 ++ [p]) ++ M2 := by simp
    -- the rest of the traversal ends with the root's trailing edge
    obtain ⟨Q', hQ'⟩ : ∃ Q', M2 ++ last :: Y = Q' ++ [(t, false)] := by
      rcases List.eq_nil_or_concat (M2 ++ last :: Y) with h | ⟨Q', z, h⟩
      · simp at h
      · refine ⟨Q', ?_⟩
        rw [List.concat_eq_append] at h
        have e : (A.F t).word ++ [(t, false)] = (X ++ (cl ++ (op ++ p :: Q'))) ++ [z] := by
          rw [hG, List.cons_append, h]; simp
        have := (List.append_inj' e rfl).2
        rw [h, this]
    have hGw : (A.F t).word = X ++ (cl ++ (op ++ p :: Q')) := by
      have e : (A.F t).word ++ [(t, false)] = (X ++ (cl ++ (op ++ p :: Q'))) ++ [(t, false)] := by
        rw [hG, List.cons_append, hQ']; simp
      exact (List.append_inj' e rfl).1
    have hF0w : F0.word = (X ++ M1) ++ p :: Q' := by
      have e : F0.word ++ [(t, false)] = ((X ++ M1) ++ p :: Q') ++ [(t, false)] := by
        rw [hW, List.cons_append, hQ']; simp
      exact (List.append_inj' e rfl).1
    obtain ⟨n, e⟩ := p
    rw [hassoc]
    cases e with
    | true =>
      have hn : (n, false) ∉ M1 := by
        have := lead_first (List.nodup_cons.1 nd0).2 hF0w
        simp only [List.mem_append, not_or] at this
        exact this.2
      have hkk : keep (M1 ++ [(n, true)]) = keep M1 ++ [(n, true)] := keep_lone (e := true) (by simpa using hn)
      obtain ⟨s', G, h1, h2, h3⟩ := ih (M1 ++ [(n, true)]) cl (op ++ [(n, true)]) s A fuel r ht
        (by rw [hW]; simp) (by rw [hG]; simp) hcl
        (by intro q hq; rw [List.mem_append] at hq; rcases hq with hq | hq
            · exact hop q hq
            · simp at hq; rw [hq]) (by rw [hkk, ← hk]; simp)
        (by
          rw [hV]; funext x
          have : both (M1 ++ [(n, true)]) x = both M1 x := by
            rw [Bool.eq_iff_iff, both_eq, both_eq]
            simp only [List.mem_append, List.mem_singleton, Prod.mk.injEq]
            constructor
            · rintro ⟨a1, a2⟩
              rcases a2 with a2 | a2
              · refine ⟨?_, a2⟩
                rcases a1 with a1 | ⟨rfl, _⟩
                · exact a1
                · exact absurd a2 hn
              · simp at a2
            · rintro ⟨a1, a2⟩; exact ⟨Or.inl a1, Or.inl a2⟩
          rw [this]) hfuel'
      refine ⟨s', G, ?_, h2, h3⟩
      simp only [firstOf_cons, St.eraseLoop, if_neg hpl, if_true, hinc]
      rw [List.length_append] at h1
      exact h1
    | false =>
      by_cases hd : 0 < op.length
      · obtain ⟨op', q, rfl⟩ : ∃ op' q, op = op' ++ [q] := by
          rcases List.eq_nil_or_concat op with rfl | ⟨op', q, h⟩
          · simp at hd
          · exact ⟨op', q, by rw [h, List.concat_eq_append]⟩
        obtain ⟨m, e⟩ := q
        have : e = true := hop (m, e) (by simp)
        subst this
        have hGw' : (A.F t).word = (X ++ (cl ++ op')) ++ (m, true) :: (n, false) :: Q' := by rw [hGw]; simp
        obtain ⟨hmn, c, R, hF, hlw, hrw⟩ := leaf_split hGw'
        subst hmn
        obtain ⟨s1, he, r1⟩ := r.erase junk ht hF false
        simp only [Bool.false_eq_true, if_false, append] at he r1
        have hkp : keep (M1 ++ [(m, false)]) = cl ++ op' := by
          apply keep_pair (List.nodup_append.1 ndM).1 hpM1
          rw [← hk]; simp
        have hm1 : (m, true) ∈ M1 := by
          have : (m, true) ∈ keep M1 := by rw [← hk]; simp
          exact List.mem_of_mem_filter this
        obtain ⟨s', G, h1, h2, h3⟩ := ih (M1 ++ [(m, false)]) cl op' s1 _ fuel r1 ht
          (by rw [hW]; simp)
          (by
            show (upd A.F t (plug c R) t).word ++ _ = _
            rw [upd_same, word_plug, hlw, hrw, hQ']; simp)
          hcl (fun q hq => hop q (by simp [hq])) hkp.symm
          (by
            show upd A.V m none = _
            rw [hV]; funext x
            by_cases hx : x = m
            · subst hx
              rw [upd_same, if_pos]
              rw [both_eq]; simp [hm1]
            · rw [upd_ne _ _ _ _ hx]
              have : both (M1 ++ [(m, false)]) x = both M1 x := by
                rw [Bool.eq_iff_iff, both_eq, both_eq]; simp [hx]
              rw [this]) hfuel'
        refine ⟨s', G, ?_, ?_, h3⟩
        · have hpos : at_ t c R = firstOf M2 last := by
            rw [at_, hrw]
            exact (firstOf_eq (Y := []) (Y' := Y) hQ'.symm)
          simp only [firstOf_cons, St.eraseLoop, if_neg hpl, if_pos hd, he, hpos]
          simp only [Bool.false_eq_true, if_false, List.length_append, List.length_singleton, Nat.add_sub_cancel]
          exact h1
        · have : upd (upd A.F t (plug c R)) t G = upd A.F t G := by
            funext w; by_cases hw : w = t
            · rw [hw, upd_same, upd_same]
            · rw [upd_ne _ _ _ _ hw, upd_ne _ _ _ _ hw, upd_ne _ _ _ _ hw]
          rw [← this]; exact h2
      · have hop0 : op = [] := by
          cases op with
          | nil => rfl
          | cons a l => simp at hd
        subst hop0
        have hnt : (n, true) ∉ M1 := by
          intro hm
          have : (n, true) ∈ keep M1 := by
            unfold keep
            rw [List.mem_filter]
            refine ⟨hm, ?_⟩
            have : both M1 n = false := by
              rw [Bool.eq_false_iff, ne_eq, both_eq]; rintro ⟨_, h⟩; exact hpM1 h
            simp [this]
          rw [← hk, List.append_nil] at this
          have := hcl _ this
          simp at this
        have hkk : keep (M1 ++ [(n, false)]) = keep M1 ++ [(n, false)] := keep_lone (e := false) (by simpa using hnt)
        obtain ⟨s', G, h1, h2, h3⟩ := ih (M1 ++ [(n, false)]) (cl ++ [(n, false)]) [] s A fuel r ht
          (by rw [hW]; simp) (by rw [hG]; simp)
          (by intro q hq; rw [List.mem_append] at hq; rcases hq with hq | hq
              · exact hcl q hq
              · simp at hq; rw [hq]) (by simp) (by rw [hkk, ← hk]; simp)
          (by
            rw [hV]; funext x
            have : both (M1 ++ [(n, false)]) x = both M1 x := by
              rw [Bool.eq_iff_iff, both_eq, both_eq]
              simp only [List.mem_append, List.mem_singleton, Prod.mk.injEq]
              constructor
              · rintro ⟨a1, a2⟩
                have a3 : (x, true) ∈ M1 := by simpa using a1
                refine ⟨a3, ?_⟩
                rcases a2 with a2 | ⟨rfl, _⟩
                · exact a2
                · exact absurd a3 hnt
              · rintro ⟨a1, a2⟩; exact ⟨Or.inl a1, Or.inl a2⟩
            rw [this]) hfuel'
        refine ⟨s', G, ?_, h2, h3⟩
        simp only [firstOf_cons, St.eraseLoop, if_neg hpl, hinc, List.length_nil, Nat.lt_irrefl, if_false, Bool.false_eq_true]
        exact h1

/-- `erase(first, last)`: the nodes both of whose edges lie in the range go, the others stay. -/
theorem Rep.eraseRange (junk : Pos → Nat) {s : St α} {A : AS α} (r : Rep s A) {t : Nat} (ht : t ∈ A.tails) {X M Y : List Pos} {last : Pos}
    (hF : (A.F t).word ++ [(t, false)] = X ++ (M ++ last :: Y)) {fuel : Nat} (hfuel : M.length ≤ fuel) :
    ∃ s' G, s.eraseRange junk fuel t (firstOf M last) last = some (s', last) ∧
      Rep s' { A with F := upd A.F t G, V := fun n => if both M n then none else A.V n } ∧
      G.word = (A.F t).word.filter (fun p => !both M p.1) := by
  have nd := (r.valid t ht).nd
  obtain ⟨s', G, h1, h2, h3⟩ := eraseLoop_spec (V0 := A.V) junk nd M [] [] [] s A fuel r ht (by simpa using hF) (by simpa using hF)
    (by simp) (by simp) rfl (by funext n; simp [both]) hfuel
  refine ⟨s', G, ?_, by simpa using h2, ?_⟩
  · simp only [St.eraseRange]
    rw [show (0 : Nat) = ([] : List Pos).length from rfl, h1]; rfl
  · rw [List.nil_append] at h3
    have hdis : ∀ p ∈ X ++ last :: Y, both M p.1 = false := by
      intro p hp
      rw [Bool.eq_false_iff, ne_eq, both_eq]
      rintro ⟨a, b⟩
      have nf := full_nodup nd
      rw [full, hF, List.nodup_cons] at nf
      have nf := nf.2
      have hpm : p ∈ M := by obtain ⟨m, e⟩ := p; cases e <;> assumption
      rw [List.nodup_append] at nf
      obtain ⟨_, nf2, nf3⟩ := nf
      rw [List.mem_append] at hp
      rcases hp with hp | hp
      · exact nf3 p hp p (by simp [hpm]) rfl
      · exact (List.nodup_append.1 nf2).2.2 p hpm p hp rfl
    have hfil : ((A.F t).word ++ [(t, false)]).filter (fun p => !both M p.1) = G.word ++ [(t, false)] := by
      rw [h3, hF, List.filter_append, List.filter_append]
      congr 1
      · rw [List.filter_eq_self]; intro p hp; simp [hdis p (by simp [hp])]
      · congr 1
        rw [List.filter_eq_self]; intro p hp; simp [hdis p (List.mem_append_right _ hp)]
    rw [List.filter_append] at hfil
    have htl : List.filter (fun p => !both M p.1) [(t, false)] = [((t, false) : Pos)] := by
      have : both M t = false := by
        rw [Bool.eq_false_iff, ne_eq, both_eq]
        rintro ⟨a, _⟩
        have : (t, true) ∈ (A.F t).word ++ [(t, false)] := by rw [hF]; simp [a]
        simp only [List.mem_append, mem_word, List.mem_singleton, Prod.mk.injEq] at this
        rcases this with h | h
        · exact (List.nodup_cons.1 nd).1 h
        · simp at h
      simp [this]
    rw [htl] at hfil
    exact ((List.append_inj' hfil rfl).1).symm

theorem word_eq_nil {G : Forest Nat} (h : G.word = []) : G = .nil := by cases G with
  | nil => rfl
  | cons n k r => simp at h

theorem Rep.clear (junk : Pos → Nat) {s : St α} {A : AS α} (r : Rep s A) {t : Nat} (ht : t ∈ A.tails) {fuel : Nat}
    (hfuel : 2 * (A.F t).card ≤ fuel) :
    ∃ s', s.clear junk fuel t = some s' ∧
      Rep s' { A with F := upd A.F t .nil, V := fun n => if n ∈ (A.F t).pre then none else A.V n } := by
  obtain ⟨s', G, h1, h2, h3⟩ := r.eraseRange junk ht (X := []) (M := (A.F t).word) (Y := []) (last := (t, false)) (by simp) (by rw [word_length]; exact hfuel)
  refine ⟨s', ?_, ?_⟩
  · unfold St.clear
    rw [begin_eq (r.valid t ht)]
    have : at_ t .top (A.F t) = firstOf (A.F t).word (t, false) := by simp [at_, Ctx.rw]
    rw [this, end_, h1]; rfl
  · have hG : G = .nil := by
      apply word_eq_nil
      rw [h3, List.filter_eq_nil_iff]
      intro p hp
      have : both (A.F t).word p.1 = true := by
        have hp' := mem_word.1 hp
        rw [both_eq, mem_word, mem_word]
        exact ⟨hp', hp'⟩
      simp [this]
    subst hG
    have hV : (fun n => if both (A.F t).word n = true then none else A.V n) = fun n => if n ∈ (A.F t).pre then none else A.V n := by
      funext n
      have : (both (A.F t).word n = true) = (n ∈ (A.F t).pre) := by
        apply propext; rw [both_eq, mem_word, mem_word]; simp
      simp only [this]
    rw [hV] at h2
    exact h2

end Verif.Forest
