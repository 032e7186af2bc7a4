import Verif.Xml.Total
/-! Element sequences and documents. -/
namespace Verif.Xml
open Verif.Xml.Spec
open Verif.XmlAttr (Mem Tok Attr)

variable {c : Cfg}

theorem begins_next {mem : Mem} {a last : Nat} {l : List Nat} {p : Kind → Prop} (hh : Here mem last a l) (h : Begins l p) :
    Next mem (pos a last) p := by
  rcases h with ⟨rfl, hp⟩ | ⟨k, sk, n, ad, hx, hp⟩
  · exact pos_eof hh hp
  · exact pos_lexeme hh hx hp

theorem next_begins {mem : Mem} {a last : Nat} {l : List Nat} {p : Kind → Prop} (hh : Here mem last a l)
    (h : Next mem (pos a last) p) : Begins l p := by
  obtain ⟨t, L, hg, hp⟩ := h
  obtain ⟨ws, l', rfl, hs, ⟨rfl, rfl, _⟩ | ⟨sk, n, ad, hx, _, _⟩⟩ := get_inv hh hg
  · obtain rfl := hs.1 rfl
    exact .inl ⟨rfl, hp⟩
  · obtain rfl := hs.1 rfl
    exact .inr ⟨_, sk, n, ad, hx, hp⟩

theorem maxChars_run {s : St} {a last : Nat} {pre : Bool} {out : List Nat} {cs : List Call} {t r : List Nat}
    (hA : At c.mem s (pos a last) pre out cs) (hh : Here c.mem last a (t ++ r)) (ht : MaxChars t r) :
    Run c.mem (isToken c .charData s) (if t = [] then none else some ⟨a, a + t.length⟩) (pos (a + t.length) last) pre out cs := by
  obtain ⟨h1, h2, h3⟩ := ht
  by_cases h0 : t = []
  · subst h0
    simpa using tokNext_no hA (begins_next hh (h3 rfl)) fun _ h => h
  · have := pos_tok hA hh (.chars t r h0 h1 (h2 h0) (by simp))
    simpa [h0, nextLx] using this

theorem maxChars_inv {s s' : St} {a last : Nat} {pre : Bool} {out : List Nat} {cs : List Call} {l : List Nat} {v : Option Tok}
    (hA : At c.mem s (pos a last) pre out cs) (hh : Here c.mem last a l) (hr : isToken c .charData s = .ok v s') :
    ∃ t r, l = t ++ r ∧ MaxChars t r ∧ v = (if t = [] then none else some ⟨a, a + t.length⟩) ∧
      At c.mem s' (pos (a + t.length) last) pre out cs := by
  obtain ⟨t, r, rfl, h1, h2, h3, hv, hA1⟩ := chars_inv hA hh hr
  refine ⟨t, r, rfl, ⟨h1, h2, fun h => ?_⟩, hv, hA1⟩
  exact next_begins hh.drop (h3 h)

/-- Where a sequence begins there is a token. -/
theorem seq_begins {a : Nat} {l : List Nat} {cs : List Call} {o : List Nat} {cs' : List Call} (h : SeqSem c a l cs o cs') :
    Begins l (fun _ => True) := by
  cases h with
  | stop h =>
    rcases h with ⟨h, _⟩ | ⟨k, sk, n, ad, hx, _⟩
    · exact .inl ⟨h, trivial⟩
    · exact .inr ⟨k, sk, n, ad, hx, trivial⟩
  | step hi hd ht _ _ =>
    obtain ⟨k, sk, n, ad, hx, _⟩ := item_lexeme hi _
    exact .inr ⟨k, sk, n, ad, hx, trivial⟩

theorem chars_begins {t r : List Nat} (ht : MaxChars t r) (hr : Begins r (fun _ => True)) : Begins (t ++ r) (fun _ => True) := by
  by_cases h0 : t = []
  · subst h0; exact hr
  · exact .inr ⟨_, _, _, _, .chars t r h0 ht.1 (ht.2.1 h0) (by simp), trivial⟩

theorem seq_run {a : Nat} {l : List Nat} {cs : List Call} {o : List Nat} {cs' : List Call} (h : SeqSem c a l cs o cs') :
    ∃ n0, ∀ n, n0 ≤ n → ∀ {s : St} {last : Nat} {out : List Nat}, Here c.mem last a l → At c.mem s (pos a last) false out cs →
      ∃ s', elementSequenceLoop c n s = .ok () s' ∧ s'.out = out ++ o ∧ s'.calls = cs' := by
  induction h with
  | @stop a l cs h =>
    refine ⟨2, fun n hn => ?_⟩
    intro s last out hh hA
    obtain ⟨m, rfl⟩ : ∃ m, n = m + 2 := ⟨n - 2, by omega⟩
    obtain ⟨s1, h1, hA1⟩ := isElement_none (n := m) hA (begins_next hh h)
    exact ⟨s1, by simp [elementSequenceLoop, bind_eq, h1, pure_eq], by simp [hA1.out], hA1.calls⟩
  | @step a i t r cs o cs1 o' cs2 hi hd ht hsem hrest ih =>
    obtain ⟨n1, hn1⟩ := (itemSem_run hsem hi).2.2 hd
    obtain ⟨n2, hn2⟩ := ih
    refine ⟨n1 + n2 + 1, fun n hn => ?_⟩
    intro s last out hh hA
    obtain ⟨m, rfl⟩ : ∃ m, n = m + 1 := ⟨n - 1, by omega⟩
    have hnext : Next c.mem (pos (a + i.render.length) last) (fun _ => True) :=
      begins_next hh.drop (chars_begins ht (seq_begins hrest))
    obtain ⟨s1, h1, hA1⟩ := hn1 m (by omega) (ws := []) (by simp) hA hh (skips_none _) hnext
    obtain ⟨s2, h2, hA2⟩ := maxChars_run hA1 hh.drop ht
    obtain ⟨s3, h3, ho, hc⟩ := hn2 m (by omega) hh.drop.drop hA2
    refine ⟨s3, ?_, by simp [ho], hc⟩
    simp only [elementSequenceLoop, bind_eq, h1, h2, h3]

theorem seq_sound (n : Nat) : ∀ {s s' : St} {a last : Nat} {l out : List Nat} {cs : List Call}, Here c.mem last a l →
    At c.mem s (pos a last) false out cs → elementSequenceLoop c n s = .ok () s' →
    ∃ o, SeqSem c a l cs o s'.calls ∧ s'.out = out ++ o := by
  induction n with
  | zero => intro s s' a last l out cs _ _ h; simp [elementSequenceLoop, stuck] at h
  | succ n ih =>
    intro s s' a last l out cs hh hA h
    unfold elementSequenceLoop at h
    obtain ⟨v, s1, h1, hr⟩ := bind_ok h
    cases v with
    | none =>
      obtain ⟨_, rfl⟩ := pure_ok hr
      obtain ⟨hA1, hn⟩ := isElement_none_inv hA h1
      exact ⟨[], by rw [hA1.calls]; exact .stop (next_begins hh hn), by simp [hA1.out]⟩
    | some e =>
      obtain ⟨ws, i, r, hd, rfl, hs, hi, hhd, _, hq⟩ := (sound c n).element hA hh h1
      obtain rfl := hs.1 rfl
      obtain ⟨_, o, cs1, hsem, hA1⟩ := hq rfl
      simp only [List.length_nil, Nat.add_zero, List.nil_append] at hA1 hsem hh ⊢
      obtain ⟨v2, s2, h2, hr⟩ := bind_ok hr
      obtain ⟨t, r', rfl, ht, _, hA2⟩ := maxChars_inv hA1 hh.drop h2
      obtain ⟨o', hsem', ho⟩ := ih hh.drop.drop hA2 hr
      exact ⟨o ++ o', .step hi (by simp [hhd]) ht hsem hsem', by simp [ho]⟩

/-- The state of the lexer after the byte order mark: white space is skipped from the next token on. -/
structure Ready (mem : Mem) (L : Lx) (a last : Nat) (l : List Nat) : Prop where
  other : Begins l (fun k => k ≠ .pi ∧ k ≠ .openTag) → ∃ tk L', getToken mem L = .ok tk L' ∧ tk.kind ≠ .pi ∧ tk.kind ≠ .openTag
  tag : Begins l (· = .openTag) → Same mem L (lxAt a last false true) ∧ Skips true [] l
  pi : ∀ body r, IsPI body → l = 60 :: 63 :: (body ++ 63 :: 62 :: r) →
    ∃ tk L', getToken mem L = .ok tk L' ∧ tk.kind = .pi ∧ Same mem L' (lxAt (a + (body.length + 4)) last false true)
  err : LexError false l → getToken mem L = .throw

theorem lex_cases (l : List Nat) : Begins l (fun k => k ≠ .pi ∧ k ≠ .openTag) ∨ Begins l (· = .openTag) ∨
    (∃ body r, IsPI body ∧ l = 60 :: 63 :: (body ++ 63 :: 62 :: r)) ∨ LexError false l := by
  by_cases hl : l = []
  · exact .inl (.inl ⟨hl, by simp⟩)
  · rcases parseToken_total false hl with ⟨k, s, n, ad, _, hx⟩ | ⟨_, hx⟩
    · by_cases h1 : k = .openTag
      · exact .inr (.inl (.inr ⟨k, s, n, ad, hx, h1⟩))
      · by_cases h2 : k = .pi
        · subst h2
          cases hx with
          | pi body r hb => exact .inr (.inr (.inl ⟨body, r, hb, rfl⟩))
        · exact .inl (.inr ⟨k, s, n, ad, hx, h2, h1⟩)
    · exact .inr (.inr (.inr hx))

theorem lexeme_unique {l : List Nat} {b k s n ad k' s' n' ad'} (h : Lexeme b l k s n ad) (h' : Lexeme b l k' s' n' ad') :
    k = k' ∧ s = s' ∧ n = n' ∧ ad = ad' := by
  have := (parseToken_tok h).symm.trans (parseToken_tok h')
  simpa using this

theorem lexeme_no_error {l : List Nat} {b k s n ad} (h : Lexeme b l k s n ad) : ¬ LexError b l := by
  intro h'
  have := (parseToken_tok h).symm.trans (parseToken_throw h')
  cases this

theorem error_ne {l : List Nat} {b} (h : LexError b l) : l ≠ [] := by cases h <;> simp

theorem begins_unique {l : List Nat} {p : Kind → Prop} {k s n ad} (h : Lexeme false l k s n ad) (hb : Begins l p) : p k := by
  rcases hb with ⟨rfl, _⟩ | ⟨k', s', n', ad', h', hp⟩
  · exact absurd rfl (Lexeme.ne h)
  · rw [(lexeme_unique h h').1]; exact hp

theorem ready_skip {mem : Mem} {a last : Nat} {l : List Nat} (hh : Here mem last a l) (hs : Skips true [] l) :
    Ready mem (lxAt a last false true) a last l where
  other := by
    rintro (⟨rfl, _⟩ | ⟨k, sk, n, ad, hx, h1, h2⟩)
    · obtain ⟨L, hg, _⟩ := get_eof (b := false) (w := true) hh hs
      exact ⟨_, L, hg, by simp, by simp⟩
    · obtain ⟨L, hg, _⟩ := get_tok (w := true) (ws := []) hh hs hx
      exact ⟨_, L, hg, h1, h2⟩
  tag := fun _ => ⟨Same.refl _, hs⟩
  pi := by
    rintro body r hb rfl
    obtain ⟨L, hg, hS⟩ := get_tok (w := true) (ws := []) hh hs (.pi body r hb)
    exact ⟨_, L, hg, rfl, by simpa [nextLx] using hS⟩
  err := fun h => get_err (ws := []) hh hs h

theorem ready_same {mem : Mem} {L L' : Lx} {a last : Nat} {l : List Nat} (hS : Same mem L L') (h : Ready mem L' a last l) :
    Ready mem L a last l where
  other := fun hb => by
    obtain ⟨tk, L'', hg, h1⟩ := h.other hb
    exact ⟨tk, L'', hS.trans hg, h1⟩
  tag := fun hb => ⟨hS.trans (h.tag hb).1, (h.tag hb).2⟩
  pi := fun body r hb e => by
    obtain ⟨tk, L'', hg, h1⟩ := h.pi body r hb e
    exact ⟨tk, L'', hS.trans hg, h1⟩
  err := fun hb => hS.trans (h.err hb)

/-- The state after a token that was looked at without white space being skipped and put back. -/
theorem ready_pending {mem : Mem} {a last : Nat} {l : List Nat} {cur tk : Token} {L : Lx} (hh : Here mem last a l)
    (hb : Begins l (· ≠ .charData)) (hg : getToken mem ⟨a, last, false, false, none, cur⟩ = .ok tk L) :
    Ready mem { { L with pending := some tk } with skipWhite := true } a last l := by
  rw [getToken_at mem (ws := []) hh (skips_none l)] at hg
  have hnw : ∀ k sk n ad, Lexeme false l k sk n ad → k ≠ .charData → Skips true [] l := by
    intro k sk n ad hx hk
    refine ⟨by simp, by simp [Blank], fun _ d r hd hw => ?_⟩
    cases hx with
    | chars => exact hk rfl
    | _ => simp at hd; obtain ⟨rfl, _⟩ := hd; unfold White at hw; omega
  by_cases hl : l = []
  · subst hl
    rw [if_pos rfl] at hg
    simp only [List.length_nil, Nat.add_zero, R.ok.injEq] at hg
    obtain ⟨rfl, rfl⟩ := hg
    exact ⟨fun _ => ⟨⟨.eof, ⟨last, last⟩⟩, _, rfl, by simp, by simp⟩, fun h => by
        rcases h with ⟨_, h⟩ | ⟨_, _, _, _, h, _⟩
        · cases h
        · exact absurd rfl (Lexeme.ne h),
      by simp, fun h => absurd rfl (error_ne h)⟩
  · rw [if_neg hl] at hg
    rcases parseToken_total false hl with ⟨k, sk, n, ad, hp, hx⟩ | ⟨hp, hx⟩
    · have hk := begins_unique hx hb
      rw [hp] at hg
      simp only [List.length_nil, Nat.add_zero, R.ok.injEq] at hg
      obtain ⟨rfl, rfl⟩ := hg
      refine ⟨fun h => ⟨_, _, rfl, begins_unique hx h⟩, fun h => ⟨?_, hnw _ _ _ _ hx hk⟩, ?_, fun h => absurd h (lexeme_no_error hx)⟩
      · have hko := begins_unique hx h
        subst hko
        unfold Same lxAt
        rw [getToken_at mem (ws := []) hh (hnw _ _ _ _ hx hk), if_neg hl, hp]
        simp [getToken, Lx.after]
      · rintro body r hbd rfl
        obtain ⟨rfl, rfl, rfl, rfl⟩ := lexeme_unique hx (.pi body r hbd)
        refine ⟨_, _, rfl, rfl, ?_⟩
        unfold Same lxAt
        rw [← getToken_cur _ _ ⟨.eof, .null⟩]
        rfl
    · rw [hp] at hg
      cases hg

/-- What is done about the byte order mark. -/
def bomTail (c : Cfg) (t : Option Tok) : M Bool := match t with
  | none => pure false
  | some bom =>
    if (bom.text c.mem).take 3 = [0xEF, 0xBB, 0xBF] then pure true
    else if (bom.text c.mem).take 2 = [0xFE, 0xFF] ∨ (bom.text c.mem).take 2 = [0xFF, 0xFE] then do
      nextPosition c
      throw
    else pure false

theorem isBom_eq (c : Cfg) : isBom c = (do
    lex fun l => .ok () { l with skipWhite := false }
    let t ← isToken c .charData
    let r ← bomTail c t
    lex fun l => .ok () { l with skipWhite := true }
    return r) := rfl

theorem take_prefix {p l : List Nat} {n : Nat} (h : p.length = n) : l.take n = p ↔ p <+: l := by
  subst h
  constructor
  · intro h; rw [← h]; exact List.take_prefix _ _
  · rintro ⟨r, rfl⟩; simp

theorem bomTail_ok {t : Option Tok} {s s' : St} {v : Bool} (h : bomTail c t s = .ok v s') :
    s' = s ∧ ∀ tk, t = some tk → ¬ Bom16 (tk.text c.mem) := by
  unfold bomTail at h
  cases t with
  | none => obtain ⟨_, rfl⟩ := pure_ok h; simp
  | some tk =>
    simp only at h
    split at h
    · next h3 =>
      obtain ⟨_, rfl⟩ := pure_ok h
      refine ⟨rfl, ?_⟩
      rintro _ ⟨⟩ (⟨r, hr⟩ | ⟨r, hr⟩) <;> rw [← hr] at h3 <;> simp at h3
    · split at h
      · obtain ⟨_, _, _, h⟩ := bind_ok h
        simp [throw] at h
      · next h2 =>
        obtain ⟨_, rfl⟩ := pure_ok h
        refine ⟨rfl, ?_⟩
        rintro _ ⟨⟩ hb
        rw [take_prefix (p := [254, 255]) (n := 2) rfl, take_prefix (p := [255, 254]) (n := 2) rfl] at h2
        exact h2 hb

theorem bomTail_run {t : Option Tok} {s : St} (h : ∀ tk, t = some tk → ¬ Bom16 (tk.text c.mem)) :
    ∃ v, bomTail c t s = .ok v s := by
  unfold bomTail
  cases t with
  | none => exact ⟨_, rfl⟩
  | some tk =>
    simp only
    split
    · exact ⟨_, rfl⟩
    · have := h tk rfl
      unfold Bom16 at this
      rw [← take_prefix (p := [254, 255]) (n := 2) rfl, ← take_prefix (p := [255, 254]) (n := 2) rfl] at this
      rw [if_neg this]
      exact ⟨_, rfl⟩

/-- The byte order mark, or any text at the beginning, is read. -/
theorem isBom_run {s : St} {a last : Nat} {t r : List Nat} {w : Bool} {cur : Token} (hl : s.lx = ⟨a, last, false, w, none, cur⟩)
    (hh : Here c.mem last a (t ++ r)) (ht : MaxChars t r) (hb : ¬ Bom16 t) :
    ∃ v s', isBom c s = .ok v s' ∧ Ready c.mem s'.lx (a + t.length) last r ∧ s'.preorder = s.preorder ∧ s'.out = s.out ∧
      s'.calls = s.calls := by
  rw [isBom_eq]
  have e1 : (lex fun l => R.ok () { l with skipWhite := false }) s = .ok () { s with lx := ⟨a, last, false, false, none, cur⟩ } := by
    simp [lex, hl]
  by_cases h0 : t = []
  · subst h0
    have hbg := ht.2.2 rfl
    obtain ⟨tk, L, hg, hk⟩ := begins_next hh hbg
    have hg' : getToken c.mem ⟨a, last, false, false, none, cur⟩ = .ok tk L := by
      rw [← hg, ← getToken_cur _ (pos a last) cur]; rfl
    obtain ⟨h1, _⟩ := get_fresh hg'
    refine ⟨false, { s with lx := { { L with pending := some tk } with skipWhite := true } }, ?_, ?_, rfl, rfl, rfl⟩
    · rw [bind_eq, e1]
      simp only [isToken, bind_eq, lex, hg', hk, if_false, h1, pure_eq, bomTail]
    · simpa using ready_pending hh hbg hg'
  · have hx := Lexeme.chars (b := false) t r h0 ht.1 (ht.2.1 h0) (by simp)
    have hne : t ++ r ≠ [] := by simp [h0]
    have hg : getToken c.mem ⟨a, last, false, false, none, cur⟩ = .ok ⟨.charData, ⟨a, a + t.length⟩⟩
        ⟨a + t.length, last, false, false, none, ⟨.charData, ⟨a, a + t.length⟩⟩⟩ := by
      rw [getToken_at c.mem (ws := []) (l := t ++ r) hh (skips_none _), if_neg hne, parseToken_tok hx]
      rfl
    obtain ⟨v, hv⟩ := bomTail_run (c := c) (t := some ⟨a, a + t.length⟩)
      (s := { s with lx := ⟨a + t.length, last, false, false, none, ⟨.charData, ⟨a, a + t.length⟩⟩⟩ }) (by
        rintro _ ⟨⟩
        rwa [hh.text])
    refine ⟨v, { s with lx := ⟨a + t.length, last, false, true, none, ⟨.charData, ⟨a, a + t.length⟩⟩⟩ }, ?_, ?_, rfl, rfl, rfl⟩
    · rw [bind_eq, e1]
      simp only [isToken, bind_eq, lex, hg, if_true, pure_eq, hv]
    · refine ready_same (L' := lxAt (a + t.length) last false true) ?_ (ready_skip hh.drop ?_)
      · unfold Same lxAt
        rw [← getToken_cur _ _ ⟨.eof, .null⟩]
      · refine ⟨by simp, by simp [Blank], fun _ d r' hd hw => ?_⟩
        unfold White at hw
        rcases ht.2.1 h0 with h | ⟨_, h⟩ | ⟨_, h⟩ <;> rw [hd] at h <;> simp at h <;> omega

theorem isBom_inv {s s' : St} {a last : Nat} {l : List Nat} {w : Bool} {cur : Token} {v : Bool}
    (hl : s.lx = ⟨a, last, false, w, none, cur⟩) (hh : Here c.mem last a l) (hr : isBom c s = .ok v s') :
    ∃ t r, l = t ++ r ∧ MaxChars t r ∧ ¬ Bom16 t := by
  rw [isBom_eq] at hr
  obtain ⟨_, s1, h1, hr⟩ := bind_ok hr
  simp only [lex] at h1
  cases h1
  obtain ⟨o, s2, h2, hr⟩ := bind_ok hr
  obtain ⟨b, s3, h3, hr⟩ := bind_ok hr
  have hA : At c.mem { s with lx := { s.lx with skipWhite := false } } (pos a last) s.preorder s.out s.calls := by
    refine ⟨?_, rfl, rfl, rfl⟩
    unfold Same pos lxAt
    rw [← getToken_cur _ _ ⟨.eof, .null⟩]
    simp [hl]
  obtain ⟨t, r, rfl, ht, rfl, _⟩ := maxChars_inv hA hh h2
  refine ⟨t, r, rfl, ht, ?_⟩
  by_cases h0 : t = []
  · subst h0; simp [Bom16]
  · have := (bomTail_ok h3).2 ⟨a, a + t.length⟩ (by simp [h0])
    rwa [hh.text] at this

/-- The rest of a document. -/
def docRest (c : Cfg) (n : Nat) : M Unit := do
  let _ ← isToken c .pi
  let _ ← isElement c n
  return ()

theorem parseDocument_eq (c : Cfg) (n : Nat) (s : St) : parseDocument c n s = (do
    lex fun l => .ok () { l with skipWhite := true }
    let _ ← isBom c
    docRest c n) s := by
  simp only [parseDocument, isProlog, docRest, bind_eq]
  cases (lex fun l => R.ok () { l with skipWhite := true }) s with
  | ok u s1 =>
    simp only
    cases isBom c s1 with
    | ok b s2 =>
      simp only
      cases isToken c .pi s2 with
      | ok o s3 => cases o <;> simp [pure_eq]
      | _ => rfl
    | _ => rfl
  | _ => rfl

theorem lxAt_next {mem : Mem} {a last : Nat} {l : List Nat} {p : Kind → Prop} (hh : Here mem last a l) (hs : Skips true [] l)
    (h : Begins l p) : Next mem (lxAt a last false true) p := by
  rcases h with ⟨rfl, hp⟩ | ⟨k, sk, n, ad, hx, hp⟩
  · obtain ⟨L, hg, _⟩ := get_eof (b := false) (w := true) hh hs
    exact ⟨_, L, hg, hp⟩
  · obtain ⟨L, hg, _⟩ := get_tok (b := false) (w := true) (ws := []) hh hs hx
    exact ⟨_, L, hg, hp⟩

theorem next_begins_skip {mem : Mem} {a last : Nat} {ws l : List Nat} {p : Kind → Prop} (hh : Here mem last a (ws ++ l))
    (hs : Skips true ws l) (h : Next mem (lxAt a last false true) p) : Begins l p := by
  obtain ⟨t, L, hg, hp⟩ := h
  by_cases hl : l = []
  · subst hl
    obtain ⟨L', h', _⟩ := get_eof (b := false) (w := true) (by simpa using hh) hs
    rw [hg] at h'; cases h'
    exact .inl ⟨rfl, hp⟩
  · rcases parseToken_total false hl with ⟨k, sk, n, ad, _, hx⟩ | ⟨_, hx⟩
    · obtain ⟨L', h', _⟩ := get_tok (b := false) (w := true) hh hs hx
      rw [hg] at h'; cases h'
      exact .inr ⟨k, sk, n, ad, hx, hp⟩
    · have := get_err (b := false) (w := true) hh hs hx
      rw [hg] at this; cases this

theorem next_skip {mem : Mem} {a last : Nat} {ws l : List Nat} {p : Kind → Prop} (hh : Here mem last a (ws ++ l))
    (hs : Skips true ws l) (h : Begins l p) : Next mem (lxAt a last false true) p := by
  rcases h with ⟨rfl, hp⟩ | ⟨k, sk, n, ad, hx, hp⟩
  · obtain ⟨L, hg, _⟩ := get_eof (b := false) (w := true) (by simpa using hh) hs
    exact ⟨_, L, hg, hp⟩
  · obtain ⟨L, hg, _⟩ := get_tok (b := false) (w := true) hh hs hx
    exact ⟨_, L, hg, hp⟩

theorem item_begins {i : Item} (h : i.Ok) (hd : i.head? ≠ none) (r : List Nat) : Begins (i.render ++ r) (· = .openTag) := by
  obtain ⟨k, sk, n, ad, hx, hk⟩ := item_lexeme h r
  refine .inr ⟨k, sk, n, ad, hx, ?_⟩
  rcases hk with ⟨_, rfl, _⟩ | ⟨_, rfl, _⟩ | ⟨_, h⟩
  · simp [Item.head?] at hd
  · simp [Item.head?] at hd
  · exact h

theorem root_run {p r o : List Nat} {a last : Nat} {cs : List Call} (hh : Here c.mem last a (p ++ r)) (hp : Prolog p r)
    (h : (Begins r (· ≠ .openTag) ∧ o = [] ∧ cs = []) ∨ ∃ i r', r = Item.render i ++ r' ∧ i.Ok ∧ i.head? ≠ none ∧
      ItemSem c (a + p.length) i [] o cs ∧ Begins r' (fun _ => True)) :
    ∃ n0, ∀ n, n0 ≤ n → ∃ s', parseDocument c n (St.new ⟨a, last⟩) = .ok () s' ∧ s'.out = o ∧ s'.calls = cs := by
  obtain ⟨n1, hn1⟩ : ∃ n1, ∀ n, n1 ≤ n → ∀ {s : St} {q : Nat} {ws : List Nat}, a + p.length = q + ws.length →
      s.preorder = false → s.out = [] → s.calls = [] → Same c.mem s.lx (lxAt q last false true) →
      Here c.mem last q (ws ++ r) → Skips true ws r → ∃ v s', isElement c n s = .ok v s' ∧ s'.out = o ∧ s'.calls = cs := by
    rcases h with ⟨hb, rfl, rfl⟩ | ⟨i, r', rfl, hi, hd, hsem, hn⟩
    · refine ⟨1, fun n hn' => ?_⟩
      intro s q ws he h1 h2 h3 hS hhq hsk
      obtain ⟨m, rfl⟩ : ∃ m, n = m + 1 := ⟨n - 1, by omega⟩
      obtain ⟨s', e, hA⟩ := isElement_none (c := c) (n := m) (s := s) ⟨hS, h1, h2, h3⟩ (next_skip hhq hsk hb)
      exact ⟨_, s', e, hA.out, hA.calls⟩
    · obtain ⟨n1, hn1⟩ := (itemSem_run hsem hi).2.2 hd
      refine ⟨n1, fun n hn' => ?_⟩
      intro s q ws he h1 h2 h3 hS hhq hsk
      obtain ⟨s', e, hA⟩ := hn1 n hn' (s := s) he ⟨hS, h1, h2, h3⟩ hhq hsk (by
        rw [he]
        exact begins_next hhq.drop.drop hn)
      exact ⟨_, s', e, by simpa using hA.out, hA.calls⟩
  refine ⟨n1 + 1, fun n hn' => ?_⟩
  obtain ⟨m, rfl⟩ : ∃ m, n = m + 1 := ⟨n - 1, by omega⟩
  have e1 : (lex fun l => R.ok () { l with skipWhite := true }) (St.new ⟨a, last⟩) = .ok () (St.new ⟨a, last⟩) := rfl
  rw [parseDocument_eq, bind_eq, e1]
  simp only
  have step : ∀ {t r2 : List Nat}, p ++ r = t ++ r2 → MaxChars t r2 → ¬ Bom16 t →
      (∀ s2 : St, Ready c.mem s2.lx (a + t.length) last r2 → s2.preorder = false → s2.out = [] → s2.calls = [] →
        ∃ s', docRest c (m + 1) s2 = .ok () s' ∧ s'.out = o ∧ s'.calls = cs) →
      ∃ s', (do let _ ← isBom c; docRest c (m + 1)) (St.new ⟨a, last⟩) = .ok () s' ∧ s'.out = o ∧ s'.calls = cs := by
    intro t r2 e ht hb hk
    obtain ⟨v, s2, h2, hR, g1, g2, g3⟩ := isBom_run (c := c) (s := St.new ⟨a, last⟩) rfl (e ▸ hh) ht hb
    rw [bind_eq, h2]
    exact hk s2 hR g1 g2 g3
  cases hp with
  | @plain t r ht hb hb2 =>
    refine step rfl ht hb fun s2 hR g1 g2 g3 => ?_
    rcases lex_cases r with h' | h' | ⟨body, r', hbd, rfl⟩ | h'
    · obtain ⟨tk, L, hg, hk1, hk2⟩ := hR.other h'
      have hA : At c.mem s2 s2.lx false [] [] := ⟨Same.refl _, g1, g2, g3⟩
      obtain ⟨s3, e3, hA3⟩ := run_isToken_no (k := .pi) hA hg hk1
      obtain ⟨s4, e4, hA4⟩ := isElement_none (n := m) hA3 ⟨tk, L, hg, hk2⟩
      have : o = [] ∧ cs = [] := by
        rcases h with ⟨_, rfl, rfl⟩ | ⟨i, r', rfl, hi, hd, hsem, hn⟩
        · exact ⟨rfl, rfl⟩
        · exfalso
          have hbt := item_begins hi hd r'
          obtain ⟨k, sk, l', ad, hx, _⟩ := item_lexeme hi r'
          exact (begins_unique hx h').2 (begins_unique (p := (· = .openTag)) hx hbt)
      obtain ⟨rfl, rfl⟩ := this
      exact ⟨s4, by simp only [docRest, bind_eq, e3, e4, pure_eq], hA4.out, hA4.calls⟩
    · obtain ⟨hS, hsk⟩ := hR.tag h'
      have hA : At c.mem s2 (lxAt (a + p.length) last false true) false [] [] := ⟨hS, g1, g2, g3⟩
      obtain ⟨tk, L, hg, hk⟩ := lxAt_next hh.drop hsk h'
      obtain ⟨s3, e3, hA3⟩ := run_isToken_no (k := .pi) hA hg (by rw [hk]; simp)
      obtain ⟨v, s4, e4, ho, hc⟩ := hn1 (m + 1) (by omega) (ws := []) (by simp) hA3.pre hA3.out hA3.calls hA3.lx hh.drop hsk
      exact ⟨s4, by simp only [docRest, bind_eq, e3, e4, pure_eq], ho, hc⟩
    · exact absurd rfl (begins_unique (.pi body r' hbd) hb2)
    · exfalso
      rcases hb2 with ⟨rfl, _⟩ | ⟨k, sk, n, ad, hx, _⟩
      · exact absurd rfl (error_ne h')
      · exact lexeme_no_error hx h'
  | @pi t body ws r ht hb hbd hws hnw =>
    refine step (t := t) (by simp) ht hb fun s2 hR g1 g2 g3 => ?_
    obtain ⟨tk, L, hg, hk, hS⟩ := hR.pi body (ws ++ r) hbd rfl
    have hA : At c.mem s2 s2.lx false [] [] := ⟨Same.refl _, g1, g2, g3⟩
    obtain ⟨s3, e3, hA3⟩ := run_isToken_yes (k := .pi) hA hg hk
    have hh3 : Here c.mem last (a + t.length + (body.length + 4)) (ws ++ r) := by
      have : Here c.mem last a ((t ++ 60 :: 63 :: (body ++ [63, 62])) ++ (ws ++ r)) := by simpa using hh
      have := this.drop
      convert this using 1
      simp; omega
    obtain ⟨v, s4, e4, ho, hc⟩ := hn1 (m + 1) (by omega) (s := s3) (q := a + t.length + (body.length + 4)) (ws := ws)
      (by simp; omega) hA3.pre hA3.out hA3.calls (hA3.lx.trans hS) hh3 ⟨by simp, hws, fun _ => hnw⟩
    exact ⟨s4, by simp only [docRest, bind_eq, e3, e4, pure_eq], ho, hc⟩

theorem root_sound {n a last : Nat} {l : List Nat} {s' : St} (hh : Here c.mem last a l)
    (hr : parseDocument c n (St.new ⟨a, last⟩) = .ok () s') :
    ∃ p r, l = p ++ r ∧ Prolog p r ∧ Root c (a + p.length) r s'.out s'.calls := by
  rw [parseDocument_eq] at hr
  obtain ⟨_, s1, h1, hr⟩ := bind_ok hr
  have e1 : (lex fun l => R.ok () { l with skipWhite := true }) (St.new ⟨a, last⟩) = .ok () (St.new ⟨a, last⟩) := rfl
  rw [e1] at h1
  cases h1
  obtain ⟨_, s2, h2, hr⟩ := bind_ok hr
  obtain ⟨t, r, rfl, ht, hb⟩ := isBom_inv (c := c) (s := St.new ⟨a, last⟩) rfl hh h2
  obtain ⟨v, s2', h2', hR, g1, g2, g3⟩ := isBom_run (c := c) (s := St.new ⟨a, last⟩) rfl hh ht hb
  rw [h2] at h2'; cases h2'
  have hA : At c.mem s2 s2.lx false [] [] := ⟨Same.refl _, g1, g2, g3⟩
  unfold docRest at hr
  obtain ⟨o, s3, h3, hr⟩ := bind_ok hr
  obtain ⟨e, s4, h4, hr⟩ := bind_ok hr
  obtain ⟨_, rfl⟩ := pure_ok hr
  have fin : ∀ {q : Nat} {ws r' : List Nat}, At c.mem s3 (lxAt q last false true) false [] [] → Here c.mem last q (ws ++ r') →
      Skips true ws r' → Root c (q + ws.length) r' s4.out s4.calls := by
    intro q ws r' hA3 hq hs
    cases e with
    | none =>
      obtain ⟨hA4, hn⟩ := isElement_none_inv hA3 h4
      rw [hA4.out, hA4.calls]
      exact .none (next_begins_skip hq hs hn)
    | some e =>
      obtain ⟨ws', i, r'', hd, el, hs', hi, hhd, _, hqq⟩ := (sound c n).element hA3 hq h4
      obtain ⟨_, o, cs', hsem, hA4⟩ := hqq rfl
      have hw : ws' = ws ∧ r' = i.render ++ r'' := by
        have h1 : ws = (ws ++ r').takeWhile isSpace := by
          rw [takeWhile_eq (fun d hd => (isSpace_iff d).mpr (hs.2.1 d hd)) fun d r e => by
            have := hs.2.2 rfl d r e
            rw [← isSpace_iff] at this
            simpa using this]
        have h2 : ws' = (ws' ++ (i.render ++ r'')).takeWhile isSpace := by
          rw [takeWhile_eq (fun d hd => (isSpace_iff d).mpr (hs'.2.1 d hd)) fun d r e => by
            have := hs'.2.2 rfl d r e
            rw [← isSpace_iff] at this
            simpa using this]
        rw [← el] at h2
        have h3 : ws' = ws := h2.trans h1.symm
        subst h3
        exact ⟨rfl, List.append_cancel_left el⟩
      obtain ⟨rfl, rfl⟩ := hw
      rw [hA4.out, hA4.calls]
      exact .elem hi (by simp [hhd]) hsem
  rcases lex_cases r with h' | h' | ⟨body, r', hbd, rfl⟩ | h'
  · obtain ⟨tk, L, hg, hk1, hk2⟩ := hR.other h'
    obtain ⟨s3', e3, hA3⟩ := run_isToken_no (k := .pi) hA hg hk1
    rw [h3] at e3; cases e3
    have hno : Begins r (· ≠ .openTag) := by
      rcases h' with ⟨h, _⟩ | ⟨k, sk, n, ad, hx, hk⟩
      · exact .inl ⟨h, by simp⟩
      · exact .inr ⟨k, sk, n, ad, hx, hk.2⟩
    refine ⟨t, r, rfl, .plain ht hb ?_, ?_⟩
    · rcases h' with ⟨h, _⟩ | ⟨k, sk, n, ad, hx, hk⟩
      · exact .inl ⟨h, by simp⟩
      · exact .inr ⟨k, sk, n, ad, hx, hk.1⟩
    · cases e with
      | none =>
        obtain ⟨hA4, _⟩ := isElement_none_inv hA3 h4
        rw [hA4.out, hA4.calls]
        exact .none hno
      | some e =>
        exfalso
        cases n with
        | zero => simp [isElement, stuck] at h4
        | succ n =>
          obtain ⟨s4', e4, _⟩ := isElement_none (n := n) hA3 ⟨tk, L, hg, hk2⟩
          rw [h4] at e4; cases e4
  · obtain ⟨hS, hsk⟩ := hR.tag h'
    have hA' : At c.mem s2 (lxAt (a + t.length) last false true) false [] [] := ⟨hS, g1, g2, g3⟩
    obtain ⟨tk, L, hg, hk⟩ := lxAt_next hh.drop hsk h'
    obtain ⟨s3', e3, hA3⟩ := run_isToken_no (k := .pi) hA' hg (by rw [hk]; simp)
    rw [h3] at e3; cases e3
    refine ⟨t, r, rfl, .plain ht hb ?_, by simpa using fin (ws := []) hA3 hh.drop hsk⟩
    rcases h' with ⟨h, hk⟩ | ⟨k, sk, n, ad, hx, rfl⟩
    · cases hk
    · exact .inr ⟨_, sk, n, ad, hx, by simp⟩
  · obtain ⟨tk, L, hg, hk, hS⟩ := hR.pi body r' hbd rfl
    obtain ⟨s3', e3, hA3⟩ := run_isToken_yes (k := .pi) hA hg hk
    rw [h3] at e3; cases e3
    obtain ⟨ws, r2, rfl, hs⟩ := skips_exists true r'
    have hh3 : Here c.mem last (a + t.length + (body.length + 4)) (ws ++ r2) := by
      have : Here c.mem last a ((t ++ 60 :: 63 :: (body ++ [63, 62])) ++ (ws ++ r2)) := by simpa using hh
      have := this.drop
      convert this using 1
      simp; omega
    have := fin (hA3.same hS) hh3 hs
    refine ⟨t ++ 60 :: 63 :: (body ++ 63 :: 62 :: ws), r2, by simp, .pi ht hb hbd hs.2.1 (hs.2.2 rfl), ?_⟩
    convert this using 1
    simp; omega
  · exfalso
    have hg := hR.err h'
    simp [isToken, bind_eq, lex, hg] at h3

end Verif.Xml
