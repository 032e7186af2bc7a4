import Verif.Xml.LexLemmas
import Verif.XmlAttr.Lemmas
/-! One token, as the parser sees it. -/
namespace Verif.Xml
open Verif.Xml.Spec
open Verif.XmlAttr (Mem Tok Attr)

/-- The text from `a` to the end of the range is `l`. -/
def Here (mem : Mem) (last a : Nat) (l : List Nat) : Prop := a ≤ last ∧ (Tok.mk a last).text mem = l

theorem text_split (mem : Mem) {a last : Nat} {l1 l2 : List Nat} (h : Here mem last a (l1 ++ l2)) :
    (Tok.mk a (a + l1.length)).text mem = l1 ∧ Here mem last (a + l1.length) l2 := by
  obtain ⟨h0, h⟩ := h
  have hlen : last - a = l1.length + l2.length := by
    have := XmlAttr.Tok.text_length mem ⟨a, last⟩
    rw [h] at this
    simpa [Tok.size] using this.symm
  have e : (List.range' a (last - a)) = List.range' a l1.length ++ List.range' (a + l1.length) l2.length := by
    rw [hlen, List.range'_append_1]
  simp only [Tok.text, Tok.size, e, List.map_append] at h
  obtain ⟨h1, h2⟩ := List.append_inj h (by simp)
  refine ⟨by simpa [Tok.text, Tok.size] using h1, by omega, ?_⟩
  have : last - (a + l1.length) = l2.length := by omega
  simpa [Tok.text, Tok.size, this] using h2

theorem Here.drop {mem : Mem} {a last : Nat} {l1 l2 : List Nat} (h : Here mem last a (l1 ++ l2)) :
    Here mem last (a + l1.length) l2 := (text_split mem h).2

theorem Here.text {mem : Mem} {a last : Nat} {l1 l2 : List Nat} (h : Here mem last a (l1 ++ l2)) :
    (Tok.mk a (a + l1.length)).text mem = l1 := (text_split mem h).1

theorem Here.len {mem : Mem} {a last : Nat} {l : List Nat} (h : Here mem last a l) : last = a + l.length := by
  obtain ⟨h0, h⟩ := h
  have := XmlAttr.Tok.text_length mem ⟨a, last⟩
  rw [h] at this
  simp [Tok.size] at this
  omega

theorem here_of_le (mem : Mem) {a last : Nat} (h : a ≤ last) : Here mem last a ((Tok.mk a last).text mem) := ⟨h, rfl⟩

/-- A lexer with nothing put back. -/
def lxAt (a last : Nat) (b w : Bool) : Lx := ⟨a, last, b, w, none, ⟨.eof, .null⟩⟩

/-- In content. -/
abbrev pos (a last : Nat) : Lx := lxAt a last false false
/-- In a tag. -/
abbrev tag (a last : Nat) : Lx := lxAt a last true true

/-- Where the lexer is after a token. -/
def nextLx (q last : Nat) (b w : Bool) : Kind → Lx
  | .openTag | .openSlash => tag q last
  | .closeTag | .slashClose => pos q last
  | _ => lxAt q last b w

def Same (mem : Mem) (x y : Lx) : Prop := getToken mem x = getToken mem y

theorem Same.refl {mem : Mem} (x : Lx) : Same mem x x := rfl

/-- White space before a token: none unless it is skipped; then all of it. -/
def Skips (w : Bool) (ws l : List Nat) : Prop :=
  (w = false → ws = []) ∧ Blank ws ∧ (w = true → ∀ c r, l = c :: r → ¬ White c)

theorem skips_exists (w : Bool) (l : List Nat) : ∃ ws l', l = ws ++ l' ∧ Skips w ws l' := by
  cases w with
  | false => exact ⟨[], l, rfl, by simp [Skips, Blank]⟩
  | true =>
    obtain ⟨t, r, h1, _, h3, h4⟩ := takeWhile_split (p := isSpace) l
    refine ⟨t, r, h1, by simp, fun c hc => (isSpace_iff c).mp (h3 c hc), fun _ c r' h hw => ?_⟩
    have := h4 c r' h
    rw [(isSpace_iff c).mpr hw] at this
    simp at this

theorem getToken_at (mem : Mem) {a last : Nat} {b w : Bool} {ws l : List Nat} (h : Here mem last a (ws ++ l)) (hs : Skips w ws l)
    (cur : Token) : getToken mem ⟨a, last, b, w, none, cur⟩ =
      if l = [] then .ok ⟨.eof, ⟨last, last⟩⟩ ⟨a + ws.length, last, b, w, none, ⟨.eof, ⟨last, last⟩⟩⟩
      else match parseToken b l with
        | .no => .throw
        | .throw => .throw
        | .tok k skip len adv =>
          let t : Token := ⟨k, ⟨a + ws.length + skip, a + ws.length + skip + len⟩⟩
          .ok t { (⟨a + ws.length + adv, last, b, w, none, cur⟩ : Lx).after k with cur := t } := by
  have hp : (if w then skipWhiteSpace mem ⟨a, last, b, w, none, cur⟩ else a) = a + ws.length := by
    obtain ⟨h1, h2, h3⟩ := hs
    cases w with
    | false => simp [h1 rfl]
    | true =>
      simp only [if_true, skipWhiteSpace, h.2]
      rw [takeWhile_eq (fun c hc => (isSpace_iff c).mpr (h2 c hc)) fun c r e => by
        have := h3 rfl c r e
        rw [← isSpace_iff] at this
        simpa using this]
  have hd := h.drop
  have hlen := hd.len
  have : ¬ last < a := by have := h.1; omega
  simp only [getToken, this, if_false, hp]
  by_cases hl : l = []
  · subst hl
    simp at hlen
    simp [hlen]
  · have : a + ws.length ≠ last := by
      have : l.length ≠ 0 := by simpa using hl
      omega
    simp only [this, hl, if_false, hd.2]
    cases parseToken b l <;> rfl

theorem getToken_cur (mem : Mem) (s : Lx) (x : Token) : getToken mem { s with cur := x } = getToken mem s := by
  obtain ⟨f, l, np, sw, pend, cur⟩ := s
  cases pend with
  | some t => rfl
  | none =>
    by_cases hlt : l < f
    · simp [getToken, hlt]
    · obtain ⟨ws, l', e, hs⟩ := skips_exists sw ((Tok.mk f l).text mem)
      have hh : Here mem l f (ws ++ l') := e ▸ here_of_le mem (by omega)
      simp only
      rw [getToken_at mem hh hs, getToken_at mem hh hs]
      split
      · rfl
      cases parseToken np l' with
      | no => rfl
      | throw => rfl
      | tok k s n a => cases k <;> rfl

theorem Lexeme.ne {b l k s n ad} (h : Lexeme b l k s n ad) : l ≠ [] := by
  cases h with
  | name nm r hn _ => obtain ⟨⟨_, _, rfl, _⟩, _⟩ := hn; simp
  | chars t r hne => simp [hne]
  | _ => simp

/-- A token is read. -/
theorem get_tok {mem : Mem} {a last : Nat} {b w : Bool} {ws l : List Nat} {k s n ad} (h : Here mem last a (ws ++ l))
    (hs : Skips w ws l) (hl : Lexeme b l k s n ad) : ∃ L, getToken mem (lxAt a last b w) =
      .ok ⟨k, ⟨a + ws.length + s, a + ws.length + s + n⟩⟩ L ∧ Same mem L (nextLx (a + ws.length + ad) last b w k) := by
  have hne : l ≠ [] := Lexeme.ne hl
  unfold lxAt
  rw [getToken_at mem h hs, if_neg hne, parseToken_tok hl]
  refine ⟨_, rfl, ?_⟩
  unfold Same
  rw [getToken_cur]
  cases k <;> simp [Lx.after, nextLx, lxAt] <;> rw [← getToken_cur _ _ ⟨.eof, .null⟩]

/-- The end is reached. -/
theorem get_eof {mem : Mem} {a last : Nat} {b w : Bool} {ws : List Nat} (h : Here mem last a ws)
    (hs : Skips w ws []) : ∃ L, getToken mem (lxAt a last b w) = .ok ⟨.eof, ⟨last, last⟩⟩ L ∧ Same mem L (lxAt last last b w) := by
  have h' : Here mem last a (ws ++ []) := by simpa using h
  unfold lxAt
  rw [getToken_at mem h' hs, if_pos rfl]
  refine ⟨_, rfl, ?_⟩
  have := h.len
  unfold Same
  rw [← getToken_cur _ _ ⟨.eof, .null⟩, this]

theorem get_err {mem : Mem} {a last : Nat} {b w : Bool} {ws l : List Nat} (h : Here mem last a (ws ++ l))
    (hs : Skips w ws l) (hl : LexError b l) : getToken mem (lxAt a last b w) = .throw := by
  have hne : l ≠ [] := by cases hl <;> simp
  unfold lxAt
  rw [getToken_at mem h hs, if_neg hne, parseToken_throw hl]

/-- What the next token can be. -/
theorem get_cases {mem : Mem} {a last : Nat} (b w : Bool) {l : List Nat} (h : Here mem last a l) :
    ∃ ws l', l = ws ++ l' ∧ Skips w ws l' ∧
      ((l' = [] ∧ ∃ L, getToken mem (lxAt a last b w) = .ok ⟨.eof, ⟨last, last⟩⟩ L ∧ Same mem L (lxAt last last b w)) ∨
       (∃ k s n ad L, Lexeme b l' k s n ad ∧ getToken mem (lxAt a last b w) =
          .ok ⟨k, ⟨a + ws.length + s, a + ws.length + s + n⟩⟩ L ∧ Same mem L (nextLx (a + ws.length + ad) last b w k)) ∨
       (LexError b l' ∧ getToken mem (lxAt a last b w) = .throw)) := by
  obtain ⟨ws, l', rfl, hs⟩ := skips_exists w l
  refine ⟨ws, l', rfl, hs, ?_⟩
  by_cases hl : l' = []
  · subst hl
    exact .inl ⟨rfl, get_eof (by simpa using h) hs⟩
  · rcases parseToken_total b hl with ⟨k, s, n, ad, _, hx⟩ | ⟨_, hx⟩
    · obtain ⟨L, h1, h2⟩ := get_tok h hs hx
      exact .inr (.inl ⟨k, s, n, ad, L, hx, h1, h2⟩)
    · exact .inr (.inr ⟨hx, get_err h hs hx⟩)

/-- The same for a token that was read. -/
theorem get_inv {mem : Mem} {a last : Nat} {b w : Bool} {l : List Nat} (h : Here mem last a l) {t : Token} {L : Lx}
    (hg : getToken mem (lxAt a last b w) = .ok t L) :
    ∃ ws l', l = ws ++ l' ∧ Skips w ws l' ∧
      ((l' = [] ∧ t = ⟨.eof, ⟨last, last⟩⟩ ∧ Same mem L (lxAt last last b w)) ∨
       (∃ s n ad, Lexeme b l' t.kind s n ad ∧ t.range = ⟨a + ws.length + s, a + ws.length + s + n⟩ ∧
          Same mem L (nextLx (a + ws.length + ad) last b w t.kind))) := by
  obtain ⟨ws, l', h1, h2, h3⟩ := get_cases b w h
  refine ⟨ws, l', h1, h2, ?_⟩
  rcases h3 with ⟨h3, L', h4, h5⟩ | ⟨k, s, n, ad, L', h4, h5, h6⟩ | ⟨_, h4⟩
  · rw [hg] at h4; cases h4; exact .inl ⟨h3, rfl, h5⟩
  · rw [hg] at h5; cases h5; exact .inr ⟨s, n, ad, h4, rfl, h6⟩
  · rw [hg] at h4; cases h4

/-- A token that was just read can be put back. -/
theorem get_fresh {mem : Mem} {s s' : Lx} {t : Token} (h : getToken mem s = .ok t s') :
    putback s' = .ok () { s' with pending := some t } ∧ getToken mem { s' with pending := some t } = .ok t s' := by
  have : s'.pending = none ∧ s'.cur = t := by
    unfold getToken at h
    split at h
    · cases h; simp
    · next hp =>
      simp only at h
      generalize (if s.skipWhite = true then skipWhiteSpace mem s else s.first) = q at h
      split at h
      · cases h
      · split at h
        · cases h; simp [hp]
        · split at h
          · cases h
          · cases h
          · next k sk n ad _ => cases h; cases k <;> simp [Lx.after, hp]
  obtain ⟨h1, h2⟩ := this
  constructor
  · simp [putback, h1, h2]
  · simp [getToken]
    cases s'
    simp_all

/-- The state of the parser, up to a token that was put back. -/
structure At (mem : Mem) (s : St) (L : Lx) (pre : Bool) (out : List Nat) (calls : List Call) : Prop where
  lx : Same mem s.lx L
  pre : s.preorder = pre
  out : s.out = out
  calls : s.calls = calls

/-- A call succeeds with a value in a state. -/
def Run {α : Type} (mem : Mem) (r : R St α) (v : α) (L : Lx) (pre : Bool) (out : List Nat) (calls : List Call) : Prop :=
  ∃ s', r = .ok v s' ∧ At mem s' L pre out calls

section
variable {α β : Type} {mem : Mem}

theorem bind_eq (x : M α) (f : α → M β) (s : St) : (x >>= f) s = match x s with
  | .ok a s => f a s
  | .throw => .throw
  | .ub => .ub
  | .stuck => .stuck := rfl

theorem pure_eq (a : α) (s : St) : (pure a : M α) s = .ok a s := rfl

theorem Run.bind {x : M α} {f : α → M β} {s : St} {v : α} {w : β} {L L' pre pre' out out' calls calls'}
    (h : Run mem (x s) v L pre out calls) (hf : ∀ s', At mem s' L pre out calls → Run mem (f v s') w L' pre' out' calls') :
    Run mem ((x >>= f) s) w L' pre' out' calls' := by
  obtain ⟨s', h1, h2⟩ := h
  rw [bind_eq, h1]
  exact hf s' h2

theorem Run.pure {s : St} {L pre out calls} (h : At mem s L pre out calls) (v : α) :
    Run mem ((Pure.pure v : M α) s) v L pre out calls := ⟨s, rfl, h⟩

theorem bind_ok {x : M α} {f : α → M β} {s s' : St} {w : β} (h : (x >>= f) s = .ok w s') :
    ∃ v s1, x s = .ok v s1 ∧ f v s1 = .ok w s' := by
  rw [bind_eq] at h
  split at h
  · next v s1 hx => exact ⟨v, s1, hx, h⟩
  · cases h
  · cases h
  · cases h

theorem pure_ok {s s' : St} {v w : α} (h : (Pure.pure v : M α) s = .ok w s') : v = w ∧ s = s' := by
  rw [pure_eq] at h; cases h; exact ⟨rfl, rfl⟩

theorem Run.output {s : St} {L pre out calls} (h : At mem s L pre out calls) (l : List Nat) :
    Run mem (output l s) () L pre (out ++ l) calls := ⟨_, rfl, ⟨h.lx, h.pre, by simp [h.out], h.calls⟩⟩

theorem Run.setPreorder {s : St} {L pre out calls} (h : At mem s L pre out calls) (b : Bool) :
    Run mem (setPreorder b s) () L b out calls := ⟨_, rfl, ⟨h.lx, rfl, h.out, h.calls⟩⟩

theorem Run.getPreorder {s : St} {L pre out calls} (h : At mem s L pre out calls) :
    Run mem (getPreorder s) pre L pre out calls := ⟨_, by simp [Xml.getPreorder, h.pre], h⟩

variable {c : Cfg}

theorem run_isToken_yes {k : Kind} {s : St} {L L' pre out calls t} (h : At c.mem s L pre out calls)
    (hg : getToken c.mem L = .ok t L') (hk : t.kind = k) : Run c.mem (isToken c k s) (some t.range) L' pre out calls := by
  refine ⟨{ s with lx := L' }, ?_, ⟨rfl, h.pre, h.out, h.calls⟩⟩
  simp only [isToken, bind_eq, lex, h.lx.trans hg, hk, if_true, pure_eq]

theorem run_isToken_no {k : Kind} {s : St} {L L' pre out calls t} (h : At c.mem s L pre out calls)
    (hg : getToken c.mem L = .ok t L') (hk : t.kind ≠ k) : Run c.mem (isToken c k s) none L pre out calls := by
  obtain ⟨h1, h2⟩ := get_fresh hg
  refine ⟨{ s with lx := { L' with pending := some t } }, ?_, ⟨h2.trans hg.symm, h.pre, h.out, h.calls⟩⟩
  simp only [isToken, bind_eq, lex, h.lx.trans hg, hk, if_false, h1, pure_eq]

theorem isToken_inv {k : Kind} {s s' : St} {L pre out calls v} (h : At c.mem s L pre out calls)
    (hr : isToken c k s = .ok v s') : ∃ t L', getToken c.mem L = .ok t L' ∧
      ((t.kind = k ∧ v = some t.range ∧ At c.mem s' L' pre out calls) ∨ (t.kind ≠ k ∧ v = none ∧ At c.mem s' L pre out calls)) := by
  cases hg : getToken c.mem L with
  | ok t L' =>
    refine ⟨t, L', rfl, ?_⟩
    by_cases hk : t.kind = k
    · obtain ⟨s1, e, h1⟩ := run_isToken_yes h hg hk
      rw [hr] at e; cases e; exact .inl ⟨hk, rfl, h1⟩
    · obtain ⟨s1, e, h1⟩ := run_isToken_no h hg hk
      rw [hr] at e; cases e; exact .inr ⟨hk, rfl, h1⟩
  | throw => simp [isToken, bind_eq, lex, h.lx.trans hg] at hr
  | ub => simp [isToken, bind_eq, lex, h.lx.trans hg] at hr
  | stuck => simp [isToken, bind_eq, lex, h.lx.trans hg] at hr

theorem run_require {k : Kind} {s : St} {L L' pre out calls t} (h : At c.mem s L pre out calls)
    (hg : getToken c.mem L = .ok t L') (hk : t.kind = k) : Run c.mem (requireToken c k s) t.range L' pre out calls := by
  refine ⟨{ s with lx := L' }, ?_, ⟨rfl, h.pre, h.out, h.calls⟩⟩
  simp only [requireToken, bind_eq, lex, h.lx.trans hg, hk, if_true, pure_eq]

theorem require_inv {k : Kind} {s s' : St} {L pre out calls v} (h : At c.mem s L pre out calls)
    (hr : requireToken c k s = .ok v s') : ∃ t L', getToken c.mem L = .ok t L' ∧ t.kind = k ∧ v = t.range ∧
      At c.mem s' L' pre out calls := by
  cases hg : getToken c.mem L with
  | ok t L' =>
    by_cases hk : t.kind = k
    · obtain ⟨s1, e, h1⟩ := run_require h hg hk
      rw [hr] at e; cases e; exact ⟨t, L', rfl, hk, rfl, h1⟩
    · exfalso
      simp only [requireToken, bind_eq, lex, h.lx.trans hg, hk, if_false] at hr
      split at hr
      · simp [throw] at hr
      · cases hr
      · cases hr
      · cases hr
  | throw => simp [requireToken, bind_eq, lex, h.lx.trans hg] at hr
  | ub => simp [requireToken, bind_eq, lex, h.lx.trans hg] at hr
  | stuck => simp [requireToken, bind_eq, lex, h.lx.trans hg] at hr

theorem run_nextPosition {s : St} {L L' pre out calls t} (h : At c.mem s L pre out calls)
    (hg : getToken c.mem L = .ok t L') : Run c.mem (nextPosition c s) () L pre out calls := by
  obtain ⟨h1, h2⟩ := get_fresh hg
  refine ⟨{ s with lx := { L' with pending := some t } }, ?_, ⟨h2.trans hg.symm, h.pre, h.out, h.calls⟩⟩
  simp only [nextPosition, bind_eq, lex, h.lx.trans hg, h1]

theorem nextPosition_inv {s s' : St} {L pre out calls v} (h : At c.mem s L pre out calls)
    (hr : nextPosition c s = .ok v s') : At c.mem s' L pre out calls ∧ ∃ t L', getToken c.mem L = .ok t L' := by
  cases hg : getToken c.mem L with
  | ok t L' =>
    obtain ⟨s1, e, h1⟩ := run_nextPosition h hg
    rw [hr] at e; cases e; exact ⟨h1, t, L', rfl⟩
  | throw => simp [nextPosition, bind_eq, lex, h.lx.trans hg] at hr
  | ub => simp [nextPosition, bind_eq, lex, h.lx.trans hg] at hr
  | stuck => simp [nextPosition, bind_eq, lex, h.lx.trans hg] at hr

theorem At.same {s : St} {L L' pre out calls} (h : At mem s L pre out calls) (e : Same mem L L') : At mem s L' pre out calls :=
  ⟨h.lx.trans e, h.pre, h.out, h.calls⟩

theorem Run.same {r : R St α} {v : α} {L L' pre out calls} (h : Run mem r v L pre out calls) (e : Same mem L L') :
    Run mem r v L' pre out calls := by
  obtain ⟨s', h1, h2⟩ := h
  exact ⟨s', h1, h2.same e⟩

end

end Verif.Xml
