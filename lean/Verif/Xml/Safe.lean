import Verif.Xml.Doc
/-! The three ways to parse come to an end. -/
namespace Verif.Xml
open Verif.Xml.Spec
open Verif.XmlAttr (Mem Tok Attr)

variable {c : Cfg}

theorem good_parseContent (hc : NoRewrite c) {a last n : Nat} {l : List Nat} (hh : Here c.mem last a l) (hn : 2 * l.length + 7 ≤ n) :
    Good (parseContent c n (St.new ⟨a, last⟩)) l := by
  obtain ⟨m, rfl⟩ : ∃ m, n = m + 2 := ⟨n - 2, by omega⟩
  have hA : At c.mem { St.new ⟨a, last⟩ with lx := { (Lx.new ⟨a, last⟩) with skipWhite := false } } (pos a last) false [] [] := by
    refine ⟨?_, rfl, rfl, rfl⟩
    unfold Same pos lxAt
    rw [← getToken_cur _ _ ⟨.eof, .null⟩]
    rfl
  have e : parseContent c (m + 2) (St.new ⟨a, last⟩) =
      parseContentLoop c (m + 1) { St.new ⟨a, last⟩ with lx := { (Lx.new ⟨a, last⟩) with skipWhite := false } } := by
    conv => lhs; unfold parseContent
    rfl
  rw [e]
  unfold parseContentLoop
  refine ((total hc m).content hA hh (by omega)).bind fun v s1 h1 => ?_
  obtain ⟨_, _, _, _, _, _, hq⟩ := (sound c m).content hA hh h1
  obtain ⟨rfl, _⟩ := hq rfl
  rw [if_neg (by simp [null_size])]
  exact good_pure _ _ _

theorem good_sequenceLoop (hc : NoRewrite c) {last : Nat} (n : Nat) : ∀ {s : St} {a : Nat} {l out : List Nat} {cs : List Call},
    At c.mem s (pos a last) false out cs → Here c.mem last a l → 2 * l.length + 4 ≤ n → Good (elementSequenceLoop c n s) l := by
  induction n with
  | zero => intro s a l out cs _ _ h; omega
  | succ n ih =>
    intro s a l out cs hA hh hn
    unfold elementSequenceLoop
    refine ((total hc n).element hA hh (by omega)).bind fun v s1 h1 => ?_
    cases v with
    | none => exact good_pure _ _ _
    | some e =>
      obtain ⟨ws, i, r, hd, rfl, hs, hi, hhd, _, hq⟩ := (sound c n).element hA hh h1
      obtain rfl := hs.1 rfl
      obtain ⟨_, o, cs1, _, hA1⟩ := hq rfl
      simp only [List.length_nil, Nat.add_zero, List.nil_append] at hA1 hh ⊢
      refine Good.append ?_ _
      refine (good_isToken _ hA1.lx hh.drop).bind fun v2 s2 h2 => ?_
      obtain ⟨t, r', rfl, ht, _, hA2⟩ := maxChars_inv hA1 hh.drop h2
      have := Item.render_pos i
      exact (ih hA2 hh.drop.drop (by simp at hn; omega)).append _

theorem good_sequence (hc : NoRewrite c) {a last n : Nat} {l : List Nat} (hh : Here c.mem last a l) (hn : 2 * l.length + 4 ≤ n) :
    Good (parseElementSequence c n (St.new ⟨a, last⟩)) l := by
  have hA : At c.mem { St.new ⟨a, last⟩ with lx := { (Lx.new ⟨a, last⟩) with skipWhite := false } } (pos a last) false [] [] := by
    refine ⟨?_, rfl, rfl, rfl⟩
    unfold Same pos lxAt
    rw [← getToken_cur _ _ ⟨.eof, .null⟩]
    rfl
  exact good_sequenceLoop hc n hA hh hn

theorem good_document (hc : NoRewrite c) {a last n : Nat} {l : List Nat} (hh : Here c.mem last a l) (hn : 2 * l.length + 3 ≤ n) :
    Good (parseDocument c n (St.new ⟨a, last⟩)) l := by
  rw [parseDocument_eq]
  have e1 : (lex fun l => R.ok () { l with skipWhite := true }) (St.new ⟨a, last⟩) = .ok () (St.new ⟨a, last⟩) := rfl
  rw [bind_eq, e1]
  simp only
  have hb : Good (isBom c (St.new ⟨a, last⟩)) l := by
    rw [isBom_eq]
    have hA : At c.mem { St.new ⟨a, last⟩ with lx := { (Lx.new ⟨a, last⟩) with skipWhite := false } } (pos a last) false [] [] := by
      refine ⟨?_, rfl, rfl, rfl⟩
      unfold Same pos lxAt
      rw [← getToken_cur _ _ ⟨.eof, .null⟩]
      rfl
    have e2 : (lex fun l => R.ok () { l with skipWhite := false }) (St.new ⟨a, last⟩) =
      .ok () { St.new ⟨a, last⟩ with lx := { (Lx.new ⟨a, last⟩) with skipWhite := false } } := rfl
    rw [bind_eq, e2]
    refine (good_isToken _ hA.lx hh).bind fun v s1 h1 => ?_
    obtain ⟨t, r, rfl, ht, rfl, hA1⟩ := maxChars_inv hA hh h1
    refine Good.bind ?_ fun _ _ _ => trivial
    generalize (if t = [] then none else some (Tok.mk a (a + t.length))) = o
    cases o with
    | none => trivial
    | some bom =>
      simp only [bomTail]
      split
      · trivial
      · split
        · exact (good_nextPosition hA1.lx (.inl ⟨_, _, _, _, r, rfl, hh.drop, t, rfl⟩) (get_ne_stuck _ _)).bind
            fun _ _ _ => good_throw _ _
        · trivial
  refine hb.bind fun v s2 h2 => ?_
  obtain ⟨t, r, rfl, ht, hbm⟩ := isBom_inv (c := c) (s := St.new ⟨a, last⟩) rfl hh h2
  obtain ⟨v', s2', h2', hR, g1, g2, g3⟩ := isBom_run (c := c) (s := St.new ⟨a, last⟩) rfl hh ht hbm
  rw [h2] at h2'; cases h2'
  have hA : At c.mem s2 s2.lx false [] [] := ⟨Same.refl _, g1, g2, g3⟩
  have hlen : 2 * r.length + 3 ≤ n := by simp at hn; omega
  obtain ⟨m, rfl⟩ : ∃ m, n = m + 1 := ⟨n - 1, by omega⟩
  refine Good.append ?_ t
  unfold docRest
  rcases lex_cases r with h' | h' | ⟨body, r', hbd, rfl⟩ | h'
  · obtain ⟨tk, L, hg, hk1, hk2⟩ := hR.other h'
    obtain ⟨s3, e3, hA3⟩ := run_isToken_no (k := .pi) hA hg hk1
    obtain ⟨s4, e4, _⟩ := isElement_none (n := m) hA3 ⟨tk, L, hg, hk2⟩
    rw [bind_eq, e3]
    simp only [bind_eq, e4]
    trivial
  · obtain ⟨hS, hsk⟩ := hR.tag h'
    have hA' : At c.mem s2 (lxAt (a + t.length) last false true) false [] [] := ⟨hS, g1, g2, g3⟩
    obtain ⟨tk, L, hg, hk⟩ := lxAt_next hh.drop hsk h'
    obtain ⟨s3, e3, hA3⟩ := run_isToken_no (k := .pi) hA' hg (by rw [hk]; simp)
    rw [bind_eq, e3]
    exact ((total hc (m + 1)).element hA3 hh.drop hlen).bind fun _ _ _ => good_pure _ _ _
  · obtain ⟨tk, L, hg, hk, hS⟩ := hR.pi body r' hbd rfl
    obtain ⟨s3, e3, hA3⟩ := run_isToken_yes (k := .pi) hA hg hk
    have hh3 : Here c.mem last (a + t.length + (body.length + 4)) r' := by
      have : Here c.mem last a ((t ++ 60 :: 63 :: (body ++ [63, 62])) ++ r') := by simpa using hh
      have := this.drop
      convert this using 1
      simp; omega
    rw [bind_eq, e3]
    have e : (60 :: 63 :: (body ++ 63 :: 62 :: r')) = (60 :: 63 :: (body ++ [63, 62])) ++ r' := by simp
    rw [e]
    exact (((total hc (m + 1)).element (hA3.same hS) hh3 (by simp at hlen; omega)).append _).bind fun _ _ _ => good_pure _ _ _
  · simp [isToken, bind_eq, lex, hR.err h', Good]

end Verif.Xml
