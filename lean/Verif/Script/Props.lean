import Verif.Script.Unamb
import Verif.XmlOut.Props
/-!
C121: what `begin_javascript << value << end_javascript` and `begin_pdf << value << end_pdf` write.  C122: whether the text determines the value.
-/
namespace Verif.Script
open Verif.Expr
open Verif.Cel.Spec (tabs norm normAll normMembers)
open Spec

variable {D O : Type}

/-! ### C121 -/

mutual
theorem js_eq (num : D → Str) (typeO : O → Str) (d : Nat) (v : Val D O) : text javascript num typeO d v = js num typeO d v := by
  match v with
  | .empty | .bool _ | .num _ | .name _ | .str _ | .other _ | .arr [] | .dict [] => simp [text, js, javascript]
  | .arr (v :: vs) => simp only [text, js, js_eq num typeO d v, jsMore_eq num typeO d vs]
  | .dict ((k, v) :: ms) =>
    simp only [text, js, js_eq num typeO (d + 1) v, jsMembers_eq num typeO (d + 1) ms]
    simp [javascript]
theorem jsMore_eq (num : D → Str) (typeO : O → Str) (d : Nat) (vs : List (Val D O)) : textMore javascript num typeO d vs = jsMore num typeO d vs := by
  match vs with
  | [] => rfl
  | v :: vs => simp only [textMore, jsMore, js_eq num typeO d v, jsMore_eq num typeO d vs]; rfl
theorem jsMembers_eq (num : D → Str) (typeO : O → Str) (d : Nat) (ms : List (Str × Val D O)) :
    textMembers javascript num typeO d ms = jsMembers num typeO d ms := by
  match ms with
  | [] => rfl
  | (k, v) :: ms =>
    simp only [textMembers, jsMembers, js_eq num typeO d v, jsMembers_eq num typeO d ms]
    simp [javascript]
end

mutual
theorem pdf_eq (num : D → Str) (typeO : O → Str) (d : Nat) (v : Val D O) : text pdf num typeO d v = pdfText num typeO d v := by
  match v with
  | .empty | .bool _ | .num _ | .name _ | .str _ | .other _ | .arr [] | .dict [] => simp [text, pdfText, pdf]
  | .arr (v :: vs) => simp only [text, pdfText, pdf_eq num typeO d v, pdfMore_eq num typeO d vs]
  | .dict ((k, v) :: ms) =>
    simp only [text, pdfText, pdf_eq num typeO (d + 1) v, pdfMembers_eq num typeO (d + 1) ms]
    simp [pdf]
theorem pdfMore_eq (num : D → Str) (typeO : O → Str) (d : Nat) (vs : List (Val D O)) : textMore pdf num typeO d vs = pdfMore num typeO d vs := by
  match vs with
  | [] => rfl
  | v :: vs => simp only [textMore, pdfMore, pdf_eq num typeO d v, pdfMore_eq num typeO d vs]; rfl
theorem pdfMembers_eq (num : D → Str) (typeO : O → Str) (d : Nat) (ms : List (Str × Val D O)) :
    textMembers pdf num typeO d ms = pdfMembers num typeO d ms := by
  match ms with
  | [] => rfl
  | (k, v) :: ms =>
    simp only [textMembers, pdfMembers, pdf_eq num typeO d v, pdfMembers_eq num typeO d ms]
    simp [pdf]
end

/-- **C121** – JavaScript: the text of the value, with the members of dictionaries in the order of their names, whatever the value, if the text of
every number in it is defined. -/
theorem C121_javascript (c : Cfg D O) (hs : c.style = javascript) {num : D → Str} (v : Val D O)
    (hn : Numbers (fun x => numText c x = some (num x)) v) : serialize c v = some (js num c.typeO 0 (norm v)) := by
  rw [serialize_text v hn, hs, js_eq]
  simp [javascript]

/-- **C121** – PDF: the same, between two comments. -/
theorem C121_pdf (c : Cfg D O) (hs : c.style = pdf) {num : D → Str} (v : Val D O)
    (hn : Numbers (fun x => numText c x = some (num x)) v) :
    serialize c v = some (lit "% start pdf\n" ++ pdfText num c.typeO 0 (norm v) ++ lit "\n% end pdf") := by
  rw [serialize_text v hn, hs, pdf_eq]
  rfl

/-- **C121** – a number that is an integer of 64 bits is written with its decimal digits. -/
theorem C121_integer (c : Cfg D O) {x : D} {i : Int} (hi : c.int64 x = some i) (he : c.eqInt x i = true) :
    numText c x = some (toString i).toList := by
  unfold numText
  rw [hi]
  simp only [he, if_true]
  rw [XmlOut.intText_eq]
  rfl

/-- **C121** – a number that does not fit in 64 bits (10^300, an infinity, a NaN) is to be written like any other, but is converted to an integer
first, which is undefined. -/
theorem C121_large_violated (c : Cfg D O) {x : D} (hx : c.int64 x = none) : serialize c (.num x) = none := by
  have h : numText c x = none := by unfold numText; rw [hx]
  unfold serialize
  simp [seq, beginFormat, push, eventPush, Cel.St.tag, put, format, manip, atomPush, Cel.St.counter, Cel.St.inBag, h, writeNum]

/-! ### C122 -/

theorem span_unique {p : Char → Prop} {s s' r r' : Str} (hs : ∀ c ∈ s, p c) (hs' : ∀ c ∈ s', p c) (hr : ∀ c t, r = c :: t → ¬ p c)
    (hr' : ∀ c t, r' = c :: t → ¬ p c) (e : s ++ r = s' ++ r') : s = s' ∧ r = r' := by
  induction s generalizing s' with
  | nil =>
    cases s' with
    | nil => exact ⟨rfl, by simpa using e⟩
    | cons c s' => exact absurd (hs' c (by simp)) (hr c (s' ++ r') (by simpa using e))
  | cons a s ih =>
    cases s' with
    | nil => exact absurd (hs a (by simp)) (hr' a (s ++ r) (by simpa using e.symm))
    | cons c s' =>
      simp only [List.cons_append, List.cons.injEq] at e
      obtain ⟨h1, h2⟩ := ih (fun x hx => hs x (by simp [hx])) (fun x hx => hs' x (by simp [hx])) e.2
      exact ⟨by rw [e.1, h1], h2⟩

theorem until_unique {a : Char} {s s' r r' : Str} (hs : a ∉ s) (hs' : a ∉ s') (e : s ++ a :: r = s' ++ a :: r') : s = s' ∧ r = r' := by
  have := span_unique (p := (· ≠ a)) (fun c hc h => hs (h ▸ hc)) (fun c hc h => hs' (h ▸ hc))
    (fun c t h => by simp only [List.cons.injEq] at h; simp [h.1]) (fun c t h => by simp only [List.cons.injEq] at h; simp [h.1]) e
  exact ⟨this.1, by simpa using this.2⟩

theorem numeric_head {s : Str} (h : Numeric s) : ∃ c t, s = c :: t ∧ (c.isDigit ∨ c = '-' ∨ c = '.') := by
  obtain ⟨h1, h2⟩ := h
  cases s with
  | nil => exact absurd rfl h1
  | cons c t => exact ⟨c, t, rfl, h2 c (by simp)⟩

theorem not_numeric {c : Char} {l : List Char} (hc : c.isDigit ∨ c = '-' ∨ c = '.') (hl : ∀ x ∈ l, ¬ (x.isDigit = true ∨ x = '-' ∨ x = '.')) : c ∉ l :=
  fun h => hl c h hc

/-- What can come after a value: the end or one of the given characters. -/
def After (l : List Char) (r : Str) : Prop := ∀ c t, r = c :: t → c ∈ l

/-- JavaScript is unambiguous. -/
theorem js_unamb (num : D → Str) (typeO : O → Str) (P : D → Prop) (hnum : ∀ x, P x → Numeric (num x))
    (hinj : ∀ x x', P x → P x' → num x = num x' → x = x') :
    Unamb (O := O) javascript num typeO P (fun n => '\'' ∉ n) (fun s => '\'' ∉ s) (fun k => ':' ∉ k) (After [',', ' ', '\n']) where
  leaf v w hv hw pv pw d r r' hr hr' e := by
    have numCase : ∀ x, P x → ∀ (a : Char) (t : Str), num x ++ r = a :: t → a ∈ ['n', 't', 'f', '\''] → False := by
      intro x hx a t e ha
      obtain ⟨c, t', h1, h2⟩ := numeric_head (hnum x hx)
      rw [h1, List.cons_append, List.cons.injEq] at e
      exact not_numeric h2 (l := ['n', 't', 'f', '\'']) (by decide) (e.1 ▸ ha)
    have numCase' : ∀ x, P x → ∀ (a : Char) (t : Str), a :: t = num x ++ r' → a ∈ ['n', 't', 'f', '\''] → False := by
      intro x hx a t e ha
      obtain ⟨c, t', h1, h2⟩ := numeric_head (hnum x hx)
      rw [h1, List.cons_append, List.cons.injEq] at e
      exact not_numeric h2 (l := ['n', 't', 'f', '\'']) (by decide) (e.1 ▸ ha)
    cases v with
    | arr _ => exact hv.elim
    | dict _ => exact hv.elim
    | other _ => exact pv.elim
    | empty =>
      cases w with
      | arr _ => exact hw.elim
      | dict _ => exact hw.elim
      | other _ => exact pw.elim
      | empty => exact ⟨rfl, by simpa [text, javascript] using e⟩
      | bool b => cases b <;> simp [text, javascript] at e
      | num x => exact (numCase' x pw _ _ (by simpa [text, javascript] using e) (by simp)).elim
      | name n => simp [text, javascript] at e
      | str s => simp [text, javascript] at e
    | bool b =>
      cases w with
      | arr _ => exact hw.elim
      | dict _ => exact hw.elim
      | other _ => exact pw.elim
      | empty => cases b <;> simp [text, javascript] at e
      | bool b' => cases b <;> cases b' <;> simp [text, javascript] at e <;> exact ⟨rfl, e⟩
      | num x =>
        cases b
        · exact (numCase' x pw 'f' _ (by simpa [text, javascript] using e) (by simp)).elim
        · exact (numCase' x pw 't' _ (by simpa [text, javascript] using e) (by simp)).elim
      | name n => cases b <;> simp [text, javascript] at e
      | str s => cases b <;> simp [text, javascript] at e
    | num x =>
      cases w with
      | arr _ => exact hw.elim
      | dict _ => exact hw.elim
      | other _ => exact pw.elim
      | empty => exact (numCase x pv _ _ (by simpa [text, javascript] using e) (by simp)).elim
      | bool b =>
        cases b
        · exact (numCase x pv 'f' _ (by simpa [text, javascript] using e) (by simp)).elim
        · exact (numCase x pv 't' _ (by simpa [text, javascript] using e) (by simp)).elim
      | num x' =>
        simp only [text] at e
        obtain ⟨h1, h2⟩ := span_unique (p := fun c => c.isDigit = true ∨ c = '-' ∨ c = '.') (hnum x pv).2 (hnum x' pw).2
          (fun c t h hp => not_numeric hp (by decide) (hr c t h)) (fun c t h hp => not_numeric hp (by decide) (hr' c t h)) e
        exact ⟨by rw [hinj x x' pv pw h1], h2⟩
      | name n => exact (numCase x pv 'n' _ (by simpa [text, javascript] using e) (by simp)).elim
      | str s => exact (numCase x pv '\'' _ (by simpa [text, javascript] using e) (by simp)).elim
    | name n =>
      cases w with
      | arr _ => exact hw.elim
      | dict _ => exact hw.elim
      | other _ => exact pw.elim
      | empty => simp [text, javascript] at e
      | bool b => cases b <;> simp [text, javascript] at e
      | num x => exact (numCase' x pw 'n' _ (by simpa [text, javascript] using e) (by simp)).elim
      | name n' =>
        simp only [text, javascript, Bool.false_eq_true, if_false, List.append_assoc] at e
        have e := List.append_cancel_left e
        simp only [lit6, List.cons_append] at e
        obtain ⟨h1, h2⟩ := until_unique (a := '\'') pv pw e
        simp only [List.cons_append, List.nil_append, List.cons.injEq, true_and] at h2
        exact ⟨by rw [h1], h2⟩
      | str s => simp [text, javascript] at e
    | str s =>
      cases w with
      | arr _ => exact hw.elim
      | dict _ => exact hw.elim
      | other _ => exact pw.elim
      | empty => simp [text, javascript] at e
      | bool b => cases b <;> simp [text, javascript] at e
      | num x => exact (numCase' x pw '\'' _ (by simpa [text, javascript] using e) (by simp)).elim
      | name n => simp [text, javascript] at e
      | str s' =>
        simp only [text, javascript, List.cons_append, List.append_assoc, List.nil_append, List.cons.injEq, true_and] at e
        obtain ⟨h1, h2⟩ := until_unique (a := '\'') pv pw e
        exact ⟨by rw [h1], h2⟩
  leafHead v hl hv d := by
    cases v with
    | arr _ => exact hl.elim
    | dict _ => exact hl.elim
    | other _ => exact hv.elim
    | empty => simp [text, javascript]
    | bool b =>
      cases b
      · simp [text, javascript]
      · simp [text, javascript]
    | num x =>
      obtain ⟨c, t, h1, h2⟩ := numeric_head (hnum x hv)
      have := not_numeric h2 (l := ['[', ']', '{']) (by decide)
      simp only [List.mem_cons, List.not_mem_nil, or_false, not_or] at this
      exact ⟨c, t, h1, this.1, this.2.1, by simp [javascript]; exact fun h => this.2.2 h.symm⟩
    | name n => simp [text, javascript]
    | str s => simp [text, javascript]
  openHead := ⟨'{', [], by simp [javascript], by decide, by decide⟩
  key k k' x x' hk hk' e := by
    simp only [javascript, if_true, List.nil_append, List.append_assoc, lit5, List.cons_append] at e
    obtain ⟨h1, h2⟩ := until_unique (a := ':') hk hk' e
    simp only [List.cons_append, List.nil_append, List.cons.injEq, true_and] at h2
    exact ⟨h1, h2⟩
  comma c x z _ := by simp [javascript]
  sep k d x z := by simp [javascript]
  stopComma x := by rintro c t h; simp [javascript] at h; simp [← h.1]
  stopArr x := by rintro c t h; simp at h; simp [← h.1]
  stopSep x := by rintro c t h; simp [javascript] at h; simp [← h.1]
  stopDict x := by rintro c t h; simp at h; simp [← h.1]

theorem balanced_unique {s s' r r' : Str} {n : Nat} (hs : Balanced n s) (hs' : Balanced n s') (e : s ++ ')' :: r = s' ++ ')' :: r') :
    s = s' ∧ r = r' := by
  induction s generalizing s' n with
  | nil =>
    have hn : n = 0 := hs
    cases s' with
    | nil => exact ⟨rfl, by simpa using e⟩
    | cons c s' =>
      simp only [List.nil_append, List.cons_append, List.cons.injEq] at e
      rw [← e.1] at hs'
      simp [Balanced, hn] at hs'
  | cons a s ih =>
    cases s' with
    | nil =>
      have hn : n = 0 := hs'
      simp only [List.nil_append, List.cons_append, List.cons.injEq] at e
      rw [e.1] at hs
      simp [Balanced, hn] at hs
    | cons c s' =>
      simp only [List.cons_append, List.cons.injEq] at e
      obtain ⟨rfl, e⟩ := e
      unfold Balanced at hs hs'
      split at hs
      · rename_i h
        rw [if_pos h] at hs'
        obtain ⟨h1, h2⟩ := ih hs hs' e
        exact ⟨by rw [h1], h2⟩
      · rename_i h
        rw [if_neg h] at hs'
        split at hs
        · rename_i h
          rw [if_pos h] at hs'
          obtain ⟨h1, h2⟩ := ih hs.2 hs'.2 e
          exact ⟨by rw [h1], h2⟩
        · rename_i h
          rw [if_neg h] at hs'
          obtain ⟨h1, h2⟩ := ih hs hs' e
          exact ⟨by rw [h1], h2⟩

/-- PDF is unambiguous. -/
theorem pdf_unamb (num : D → Str) (typeO : O → Str) (P : D → Prop) (hnum : ∀ x, P x → Numeric (num x))
    (hinj : ∀ x x', P x → P x' → num x = num x' → x = x') :
    Unamb (O := O) pdf num typeO P (fun n => ' ' ∉ n ∧ '\n' ∉ n) (Balanced 0) (fun k => ' ' ∉ k) (After [' ', '\n']) where
  leaf v w hv hw pv pw d r r' hr hr' e := by
    have numCase : ∀ x, P x → ∀ (a : Char) (t : Str), num x ++ r = a :: t → a ∈ ['n', 't', 'f', '/', '('] → False := by
      intro x hx a t e ha
      obtain ⟨c, t', h1, h2⟩ := numeric_head (hnum x hx)
      rw [h1, List.cons_append, List.cons.injEq] at e
      exact not_numeric h2 (l := ['n', 't', 'f', '/', '(']) (by decide) (e.1 ▸ ha)
    have numCase' : ∀ x, P x → ∀ (a : Char) (t : Str), a :: t = num x ++ r' → a ∈ ['n', 't', 'f', '/', '('] → False := by
      intro x hx a t e ha
      obtain ⟨c, t', h1, h2⟩ := numeric_head (hnum x hx)
      rw [h1, List.cons_append, List.cons.injEq] at e
      exact not_numeric h2 (l := ['n', 't', 'f', '/', '(']) (by decide) (e.1 ▸ ha)
    cases v with
    | arr _ => exact hv.elim
    | dict _ => exact hv.elim
    | other _ => exact pv.elim
    | empty =>
      cases w with
      | arr _ => exact hw.elim
      | dict _ => exact hw.elim
      | other _ => exact pw.elim
      | empty => exact ⟨rfl, by simpa [text, pdf] using e⟩
      | bool b => cases b <;> simp [text, pdf] at e
      | num x => exact (numCase' x pw _ _ (by simpa [text, pdf] using e) (by simp)).elim
      | name n => simp [text, pdf] at e
      | str s => simp [text, pdf] at e
    | bool b =>
      cases w with
      | arr _ => exact hw.elim
      | dict _ => exact hw.elim
      | other _ => exact pw.elim
      | empty => cases b <;> simp [text, pdf] at e
      | bool b' => cases b <;> cases b' <;> simp [text, pdf] at e <;> exact ⟨rfl, e⟩
      | num x =>
        cases b
        · exact (numCase' x pw 'f' _ (by simpa [text, pdf] using e) (by simp)).elim
        · exact (numCase' x pw 't' _ (by simpa [text, pdf] using e) (by simp)).elim
      | name n => cases b <;> simp [text, pdf] at e
      | str s => cases b <;> simp [text, pdf] at e
    | num x =>
      cases w with
      | arr _ => exact hw.elim
      | dict _ => exact hw.elim
      | other _ => exact pw.elim
      | empty => exact (numCase x pv _ _ (by simpa [text, pdf] using e) (by simp)).elim
      | bool b =>
        cases b
        · exact (numCase x pv 'f' _ (by simpa [text, pdf] using e) (by simp)).elim
        · exact (numCase x pv 't' _ (by simpa [text, pdf] using e) (by simp)).elim
      | num x' =>
        simp only [text] at e
        obtain ⟨h1, h2⟩ := span_unique (p := fun c => c.isDigit = true ∨ c = '-' ∨ c = '.') (hnum x pv).2 (hnum x' pw).2
          (fun c t h hp => not_numeric hp (by decide) (hr c t h)) (fun c t h hp => not_numeric hp (by decide) (hr' c t h)) e
        exact ⟨by rw [hinj x x' pv pw h1], h2⟩
      | name n => exact (numCase x pv '/' _ (by simpa [text, pdf] using e) (by simp)).elim
      | str s => exact (numCase x pv '(' _ (by simpa [text, pdf] using e) (by simp)).elim
    | name n =>
      cases w with
      | arr _ => exact hw.elim
      | dict _ => exact hw.elim
      | other _ => exact pw.elim
      | empty => simp [text, pdf] at e
      | bool b => cases b <;> simp [text, pdf] at e
      | num x => exact (numCase' x pw '/' _ (by simpa [text, pdf] using e) (by simp)).elim
      | name n' =>
        simp only [text, pdf, Bool.false_eq_true, if_false, List.append_nil, List.cons_append, List.cons.injEq, true_and] at e
        obtain ⟨h1, h2⟩ := span_unique (p := fun c => c ∉ [' ', '\n'])
          (fun c hc h => by
            simp only [List.mem_cons, List.not_mem_nil, or_false] at h
            rcases h with rfl | rfl
            · exact pv.1 hc
            · exact pv.2 hc)
          (fun c hc h => by
            simp only [List.mem_cons, List.not_mem_nil, or_false] at h
            rcases h with rfl | rfl
            · exact pw.1 hc
            · exact pw.2 hc)
          (fun c t h hp => hp (hr c t h)) (fun c t h hp => hp (hr' c t h)) e
        exact ⟨by rw [h1], h2⟩
      | str s => simp [text, pdf] at e
    | str s =>
      cases w with
      | arr _ => exact hw.elim
      | dict _ => exact hw.elim
      | other _ => exact pw.elim
      | empty => simp [text, pdf] at e
      | bool b => cases b <;> simp [text, pdf] at e
      | num x => exact (numCase' x pw '(' _ (by simpa [text, pdf] using e) (by simp)).elim
      | name n => simp [text, pdf] at e
      | str s' =>
        simp only [text, pdf, List.cons_append, List.append_assoc, List.nil_append, List.cons.injEq, true_and] at e
        obtain ⟨h1, h2⟩ := balanced_unique pv pw e
        exact ⟨by rw [h1], h2⟩
  leafHead v hl hv d := by
    cases v with
    | arr _ => exact hl.elim
    | dict _ => exact hl.elim
    | other _ => exact hv.elim
    | empty => simp [text, pdf]
    | bool b =>
      cases b
      · simp [text, pdf]
      · simp [text, pdf]
    | num x =>
      obtain ⟨c, t, h1, h2⟩ := numeric_head (hnum x hv)
      have := not_numeric h2 (l := ['[', ']', '<']) (by decide)
      simp only [List.mem_cons, List.not_mem_nil, or_false, not_or] at this
      exact ⟨c, t, h1, this.1, this.2.1, by simp [pdf]; exact fun h => this.2.2 h.symm⟩
    | name n => simp [text, pdf]
    | str s => simp [text, pdf]
  openHead := ⟨'<', ['<'], by simp [pdf], by decide, by decide⟩
  key k k' x x' hk hk' e := by
    simp only [pdf, if_true, List.cons_append, List.append_assoc, List.cons.injEq, true_and, lit11, List.nil_append] at e
    exact until_unique (a := ' ') hk hk' e
  comma c x z hc := by simp [pdf]; exact fun h => absurd h hc
  sep k d x z := by
    intro e
    have e' : tabs (d + 1) ++ (pdf.name true k ++ x) = tabs d ++ (pdf.closeBag ++ z) := by
      simpa [pdf] using e
    have : tabs (d + 1) = tabs d ++ ['\t'] := by simp [tabs, List.replicate_succ']
    rw [this, List.append_assoc] at e'
    have := List.append_cancel_left e'
    simp [pdf] at this
  stopComma x := by rintro c t h; simp [pdf] at h; simp [← h.1]
  stopArr x := by rintro c t h; simp at h; simp [← h.1]
  stopSep x := by rintro c t h; simp [pdf] at h; simp [← h.1]
  stopDict x := by rintro c t h; simp at h; simp [← h.1]

theorem everyMember_iff {P : D → Prop} {name str key : Str → Prop} {ms : List (Str × Val D O)} :
    EveryMember P name str key ms ↔ ∀ m ∈ ms, key m.1 ∧ Every P name str key m.2 := by
  induction ms with
  | nil => simp [EveryMember]
  | cons m ms ih => obtain ⟨k, v⟩ := m; simp [EveryMember, ih, and_assoc]

mutual
theorem every_norm {P : D → Prop} {name str key : Str → Prop} (v : Val D O) (h : Every P name str key v) : Every P name str key (norm v) := by
  match v with
  | .empty | .bool _ | .num _ | .name _ | .str _ | .other _ => exact h
  | .arr vs => simp only [norm, Every]; exact everyAll_norm vs h
  | .dict ms =>
    simp only [norm, Every]
    rw [everyMember_iff]
    intro m hm
    exact everyMember_iff.mp (everyMember_norm ms h) m (Cel.mem_sortKeys.mp hm)
theorem everyAll_norm {P : D → Prop} {name str key : Str → Prop} (vs : List (Val D O)) (h : EveryAll P name str key vs) :
    EveryAll P name str key (normAll vs) := by
  match vs with
  | [] => trivial
  | v :: vs => exact ⟨every_norm v h.1, everyAll_norm vs h.2⟩
theorem everyMember_norm {P : D → Prop} {name str key : Str → Prop} (ms : List (Str × Val D O)) (h : EveryMember P name str key ms) :
    EveryMember P name str key (normMembers ms) := by
  match ms with
  | [] => trivial
  | (k, v) :: ms => exact ⟨h.1, every_norm v h.2.1, everyMember_norm ms h.2.2⟩
end

mutual
theorem every_numbers {P Q : D → Prop} {name str key : Str → Prop} (hpq : ∀ x, P x → Q x) (v : Val D O) (h : Every P name str key v) : Numbers Q v := by
  match v with
  | .empty | .bool _ | .name _ | .str _ => trivial
  | .other _ => exact h.elim
  | .num x => exact hpq x h
  | .arr vs => exact everyAll_numbers hpq vs h
  | .dict ms => exact everyMember_numbers hpq ms h
theorem everyAll_numbers {P Q : D → Prop} {name str key : Str → Prop} (hpq : ∀ x, P x → Q x) (vs : List (Val D O))
    (h : EveryAll P name str key vs) : NumbersAll Q vs := by
  match vs with
  | [] => trivial
  | v :: vs => exact ⟨every_numbers hpq v h.1, everyAll_numbers hpq vs h.2⟩
theorem everyMember_numbers {P Q : D → Prop} {name str key : Str → Prop} (hpq : ∀ x, P x → Q x) (ms : List (Str × Val D O))
    (h : EveryMember P name str key ms) : NumbersMembers Q ms := by
  match ms with
  | [] => trivial
  | (k, v) :: ms => exact ⟨every_numbers hpq v h.2.1, everyMember_numbers hpq ms h.2.2⟩
end

/-- Numbers with a text of digits, sign and point that determines them. -/
def Told (c : Cfg D O) (P : D → Prop) : Prop :=
  (∀ x, P x → ∃ s, numText c x = some s ∧ Numeric s) ∧ ∀ x x', P x → P x' → numText c x = numText c x' → x = x'

theorem Told.num {c : Cfg D O} {P : D → Prop} (h : Told c P) :
    (∀ x, P x → numText c x = some ((numText c x).getD [])) ∧ (∀ x, P x → Numeric ((numText c x).getD [])) ∧
      ∀ x x', P x → P x' → (numText c x).getD [] = (numText c x').getD [] → x = x' := by
  have h1 : ∀ x, P x → numText c x = some ((numText c x).getD []) := by
    intro x hx
    obtain ⟨s, e, -⟩ := h.1 x hx
    rw [e]; rfl
  refine ⟨h1, fun x hx => ?_, fun x x' hx hx' e => ?_⟩
  · obtain ⟨s, e, hs⟩ := h.1 x hx
    rw [e]; exact hs
  · exact h.2 x x' hx hx' (by rw [h1 x hx, h1 x' hx', e])

theorem unamb_serialize {c : Cfg D O} {P : D → Prop} {name str key : Str → Prop} {stop : Str → Prop} {num : D → Str}
    (h : Unamb (O := O) c.style num c.typeO P name str key stop) (hend : stop c.style.endF) (hn : ∀ x, P x → numText c x = some (num x))
    {v w : Val D O} (hv : Every P name str key v) (hw : Every P name str key w) (e : serialize c v = serialize c w) : norm v = norm w := by
  rw [serialize_text v (every_numbers hn v hv), serialize_text w (every_numbers hn w hw), Option.some.injEq, List.append_assoc, List.append_assoc] at e
  exact (h.inj _ _ (every_norm v hv) (every_norm w hw) hend hend (List.append_cancel_left e)).1

/-- **C122** – JavaScript: if two values have the same text, they are the same up to the order of the members of dictionaries.  For values in which no
string and no name has an apostrophe, no name of a member has a colon, the numbers are told by their texts, and without foreign types. -/
theorem C122_javascript_partial (c : Cfg D O) (hs : c.style = javascript) {P : D → Prop} (hP : Told c P) {v w : Val D O}
    (hv : Every P (fun n => '\'' ∉ n) (fun s => '\'' ∉ s) (fun k => ':' ∉ k) v)
    (hw : Every P (fun n => '\'' ∉ n) (fun s => '\'' ∉ s) (fun k => ':' ∉ k) w) (e : serialize c v = serialize c w) : norm v = norm w := by
  obtain ⟨h1, h2, h3⟩ := hP.num
  have h := js_unamb (O := O) (fun x => (numText c x).getD []) c.typeO P h2 h3
  rw [← hs] at h
  refine unamb_serialize h ?_ h1 hv hw e
  rw [hs]
  rintro a t h
  simp [javascript] at h

/-- **C122** – PDF: the same, for values in which the parentheses of every string are balanced, no name has a blank or a line end, and no name of a
member has a blank. -/
theorem C122_pdf_partial (c : Cfg D O) (hs : c.style = pdf) {P : D → Prop} (hP : Told c P) {v w : Val D O}
    (hv : Every P (fun n => ' ' ∉ n ∧ '\n' ∉ n) (Balanced 0) (fun k => ' ' ∉ k) v)
    (hw : Every P (fun n => ' ' ∉ n ∧ '\n' ∉ n) (Balanced 0) (fun k => ' ' ∉ k) w) (e : serialize c v = serialize c w) : norm v = norm w := by
  obtain ⟨h1, h2, h3⟩ := hP.num
  have h := pdf_unamb (O := O) (fun x => (numText c x).getD []) c.typeO P h2 h3
  rw [← hs] at h
  refine unamb_serialize h ?_ h1 hv hw e
  rw [hs]
  have e : pdf.endF = '\n' :: lit "% end pdf" := by simp only [pdf, lit]; decide
  rw [e]
  rintro a t h
  simp only [List.cons.injEq] at h
  simp [← h.1]

/-- **C122** – integers of 64 bits are told by their texts. -/
theorem C122_integers (c : Cfg D O) (h : ∀ x x' i, c.eqInt x i = true → c.eqInt x' i = true → x = x') :
    Told c fun x => ∃ i, c.int64 x = some i ∧ c.eqInt x i = true := by
  constructor
  · rintro x ⟨i, hi, he⟩
    refine ⟨XmlOut.intText i, ?_, ?_, ?_⟩
    · unfold numText; rw [hi]; simp only [he, if_true]
    · unfold XmlOut.intText
      split
      · simp
      · exact Nat.toDigits_ne_nil
    · unfold XmlOut.intText
      intro a ha
      split at ha
      · rcases List.mem_cons.mp ha with rfl | ha
        · exact Or.inr (Or.inl rfl)
        · exact Or.inl (Nat.isDigit_of_mem_toDigits (by decide) (by decide) ha)
      · exact Or.inl (Nat.isDigit_of_mem_toDigits (by decide) (by decide) ha)
  · rintro x x' ⟨i, hi, he⟩ ⟨i', hi', he'⟩ e
    rw [C121_integer c hi he, C121_integer c hi' he', Option.some.injEq] at e
    have : i = i' := XmlOut.digits_inj e
    subst this
    exact h x x' i he he'

/-- **C122** – strings are not escaped: whatever is in the parameters, the array of the string `a', 'b` and the array of the strings `a` and `b` have
the same JavaScript text. -/
theorem C122_apostrophe_violated (c : Cfg D O) (hs : c.style = javascript) :
    serialize c (.arr [.str (lit "a', 'b")]) = serialize c (.arr [.str (lit "a"), .str (lit "b")]) := by
  have e : lit "a', 'b" = ['a', '\'', ',', ' ', '\'', 'b'] := by unfold lit; decide
  have ea : lit "a" = ['a'] := by unfold lit; decide
  have eb : lit "b" = ['b'] := by unfold lit; decide
  rw [C121_javascript c hs (num := fun _ => []) _ (by simp [Numbers, NumbersAll]), C121_javascript c hs (num := fun _ => []) _ (by simp [Numbers, NumbersAll])]
  simp [norm, normAll, js, jsMore, e, ea, eb]

/-- **C122** – nor in PDF: the string `a) (b` and the strings `a` and `b`. -/
theorem C122_parenthesis_violated (c : Cfg D O) (hs : c.style = pdf) :
    serialize c (.arr [.str (lit "a) (b")]) = serialize c (.arr [.str (lit "a"), .str (lit "b")]) := by
  have e : lit "a) (b" = ['a', ')', ' ', '(', 'b'] := by unfold lit; decide
  have ea : lit "a" = ['a'] := by unfold lit; decide
  have eb : lit "b" = ['b'] := by unfold lit; decide
  rw [C121_pdf c hs (num := fun _ => []) _ (by simp [Numbers, NumbersAll]), C121_pdf c hs (num := fun _ => []) _ (by simp [Numbers, NumbersAll])]
  simp [norm, normAll, pdfText, pdfMore, e, ea, eb]

/-- **C122** – a value of a foreign type has the same JavaScript text as a string. -/
theorem C122_foreign_violated (c : Cfg D O) (hs : c.style = javascript) (o : O) :
    serialize c (.other o) = serialize c (.str (lit "javascript_unknown: " ++ c.typeO o)) := by
  have e : lit "'javascript_unknown: " = '\'' :: lit "javascript_unknown: " := by unfold lit; decide
  rw [C121_javascript c hs (num := fun _ => []) _ (by simp [Numbers]), C121_javascript c hs (num := fun _ => []) _ (by simp [Numbers])]
  simp [norm, js, e]

end Verif.Script
