import Verif.Eve.Spec
/-! Placing the children of a container along its direction. -/
namespace Verif.Eve

/-- In order with the spacing that `adjust` has stored in the children. -/
def Packed : Int → Int → List Item → Prop
  | lo, hi, [] => lo ≤ hi
  | lo, hi, c :: cs =>
    lo + c.space ≤ c.place.position ∧ Packed (c.place.position + c.place.length) hi cs

theorem Packed.mono : ∀ {cs : List Item} {lo hi lo' hi' : Int}, Packed lo hi cs → lo' ≤ lo → hi ≤ hi' →
    Packed lo' hi' cs
  | [], _, _, _, _, h, h1, h2 => by simp only [Packed] at *; omega
  | c :: cs, _, _, _, _, h, h1, h2 => by
    simp only [Packed] at *
    exact ⟨by omega, Packed.mono h.2 (Int.le_refl _) h2⟩

theorem Packed.append : ∀ {xs ys : List Item} {lo mid hi : Int}, Packed lo mid xs → Packed mid hi ys →
    Packed lo hi (xs ++ ys)
  | [], ys, _, _, _, h, h' => by
    simp only [Packed] at h; exact h'.mono h (Int.le_refl _)
  | c :: cs, ys, _, _, _, h, h' => by
    simp only [Packed, List.cons_append] at *
    exact ⟨h.1, Packed.append h.2 h'⟩

/-- The sum of spacing and length. -/
def need (cs : List Item) : Int := (cs.map (fun c => c.space + c.clength)).sum

theorem need_cons (c : Item) (cs : List Item) : need (c :: cs) = c.space + c.clength + need cs := by
  simp [need]

theorem need_append (xs ys : List Item) : need (xs ++ ys) = need xs + need ys := by
  simp [need]

theorem need_reverse (xs : List Item) : need xs.reverse = need xs := by
  induction xs with
  | nil => rfl
  | cons c cs ih => rw [List.reverse_cons, need_append, need_cons, ih]; simp [need]; omega

theorem need_nonneg {cs : List Item} (h : ∀ c ∈ cs, 0 ≤ c.space ∧ 0 ≤ c.clength) : 0 ≤ need cs := by
  induction cs with
  | nil => simp [need]
  | cons c cs ih =>
    rw [need_cons]
    have := h c (by simp)
    have := ih (fun d hd => h d (by simp [hd]))
    omega

/-! ### the guides -/

theorem ok_bind {ε β γ : Type} {x : Except ε β} {f : β → Except ε γ} {y : γ}
    (h : (x >>= f) = .ok y) : ∃ z, x = .ok z ∧ f z = .ok y := by
  cases x with
  | error e => simp [bind, Except.bind] at h
  | ok z => exact ⟨z, rfl, h⟩

theorem raise_nil {off : Int} {base x y : List Int} (h : raise off [] base = .ok (x, y)) :
    x = [] ∧ y = base := by
  simp only [raise, Except.ok.injEq, Prod.mk.injEq] at h
  exact ⟨h.1.symm, h.2.symm⟩

theorem raise_cons {off g : Int} {gs base x y : List Int} (h : raise off (g :: gs) base = .ok (x, y)) :
    ∃ b base' x', base = b :: base' ∧ x = max b (g + off) :: x' ∧ raise off gs base' = .ok (x', y) := by
  cases base with
  | nil => simp [raise] at h
  | cons b base' =>
    simp only [raise] at h
    obtain ⟨⟨x', y'⟩, h1, h2⟩ := ok_bind h
    simp only [Except.ok.injEq, Prod.mk.injEq] at h2
    exact ⟨b, base', x', rfl, h2.1.symm, by rw [h1, h2.2]⟩

theorem raise_length : ∀ {gs base x y : List Int} {off : Int}, raise off gs base = .ok (x, y) →
    x.length = gs.length
  | [], base, x, y, off, h => by simp [raise_nil h]
  | g :: gs, base, x, y, off, h => by
    obtain ⟨b, base', x', rfl, rfl, h'⟩ := raise_cons h
    simp [raise_length h']

theorem snap_ge {c : Item} {off : Int} {gs base x y : List Int} (h : raise off gs base = .ok (x, y)) :
    off ≤ snap c x gs off := by
  cases gs with
  | nil => simp [snap]
  | cons g gs =>
    obtain ⟨b, base', x', rfl, rfl, h'⟩ := raise_cons h
    simp only [snap]
    split <;> omega

/-- The first case of the recursion of `upFwd`. -/
theorem upFwd_cons {len : Int} {rest : List Int} {c : Item} {cs : List Item} {l : Int} {gs : List Int}
    (h : upFwd len rest (c :: cs) = .ok (l, gs)) :
    (c.usesFwd = true ∧ ∃ x rest' gs', raise (len + c.space) c.fwd rest = .ok (x, rest') ∧
      upFwd (snap c x c.fwd (len + c.space) + c.clength) rest' cs = .ok (l, gs') ∧ gs = x ++ gs') ∨
    (c.usesFwd = false ∧ upFwd (len + c.space + c.clength) rest cs = .ok (l, gs)) := by
  simp only [upFwd] at h
  cases hu : c.usesFwd with
  | false => right; rw [hu] at h; simpa using h
  | true =>
    left
    rw [hu] at h
    simp only [if_true] at h
    obtain ⟨⟨x, rest'⟩, h1, h2⟩ := ok_bind h
    obtain ⟨⟨l', gs'⟩, h3, h4⟩ := ok_bind h2
    simp only [Except.ok.injEq, Prod.mk.injEq] at h4
    exact ⟨rfl, x, rest', gs', h1, by rw [h3, h4.1], h4.2.symm⟩

theorem upFwd_need : ∀ {cs : List Item} {len l : Int} {rest gs : List Int},
    upFwd len rest cs = .ok (l, gs) → len + need cs ≤ l
  | [], len, l, rest, gs, h => by
    simp only [upFwd, Except.ok.injEq, Prod.mk.injEq] at h
    simp [need]; omega
  | c :: cs, len, l, rest, gs, h => by
    rw [need_cons]
    rcases upFwd_cons h with ⟨_, x, rest', gs', h1, h2, _⟩ | ⟨_, h2⟩
    · have := upFwd_need h2
      have := snap_ge (c := c) h1
      omega
    · have := upFwd_need h2
      omega

theorem upRev_ge : ∀ {cs : List Item} {rlen add l : Int} {rest gs : List Int},
    upRev rlen add rest cs = .ok (l, gs) → add ≤ l
  | [], rlen, add, l, rest, gs, h => by
    simp only [upRev, Except.ok.injEq, Prod.mk.injEq] at h
    omega
  | c :: cs, rlen, add, l, rest, gs, h => by
    simp only [upRev] at h
    cases hu : c.usesRev with
    | false =>
      rw [hu] at h
      simp only [Bool.false_eq_true, if_false] at h
      exact upRev_ge h
    | true =>
      rw [hu] at h
      simp only [if_true] at h
      obtain ⟨⟨x, rest'⟩, h1, h2⟩ := ok_bind h
      obtain ⟨⟨l', gs'⟩, h3, h4⟩ := ok_bind h2
      simp only [Except.ok.injEq, Prod.mk.injEq] at h4
      have h5 := upRev_ge h3
      have := snap_ge (c := c) h1
      dsimp only at h5
      omega

/-! ### shares -/

theorem takeShare_ok {takes : Bool} {rem a : Int} {cnt cnt' : Nat}
    (h : takeShare takes rem cnt = .ok (a, cnt')) (h0 : 0 ≤ rem) :
    0 ≤ a ∧ a ≤ rem ∧ (takes = false → a = 0 ∧ cnt' = cnt) ∧
      (takes = true → 0 < cnt ∧ cnt' = cnt - 1 ∧ (cnt = 1 → a = rem)) := by
  unfold takeShare at h
  split at h
  · split at h
    · cases h
    · rename_i h1 h2
      simp only [Except.ok.injEq, Prod.mk.injEq] at h
      have hc : (0:Int) ≤ cnt := by omega
      have ha : 0 ≤ a := by rw [← h.1]; exact Int.tdiv_nonneg h0 hc
      have hb : a ≤ rem := by rw [← h.1]; exact Int.tdiv_le_self cnt h0
      refine ⟨ha, hb, by simp [h1], fun _ => ⟨by omega, h.2.symm, fun h3 => ?_⟩⟩
      rw [← h.1, h3]; simp
  · rename_i h1
    simp only [Except.ok.injEq, Prod.mk.injEq] at h
    refine ⟨by omega, by omega, fun _ => ⟨h.1.symm, h.2.symm⟩, fun h3 => absurd h3 h1⟩

/-- A child that is put on its first guide when the container is laid out forward. -/
def Item.snapsFwd (c : Item) : Prop := c.leaf = true ∧ c.suppress = false ∧ c.fwd ≠ []
def Item.snapsRev (c : Item) : Prop := c.leaf = true ∧ c.suppress = false ∧ c.rev ≠ []

theorem guideFwd_ok {c : Item} {len len' : Int} {guides guides' : List Int}
    (h : guideFwd c len guides = .ok (len', guides')) :
    (¬ c.snapsFwd → len' = len) ∧
    (c.suppress = false → guides' = guides.drop c.fwd.length) ∧
    (c.suppress = true → guides' = guides) ∧
    (c.snapsFwd → ∃ x xs g gs, guides = x :: xs ∧ c.fwd = g :: gs ∧ len' = x - g) := by
  unfold guideFwd at h
  unfold Item.snapsFwd
  split at h
  · rename_i h1
    simp only [Bool.and_eq_true, Bool.not_eq_true', bne_iff_ne, ne_eq, List.length_eq_zero_iff] at h1
    obtain ⟨g', h2, h3⟩ := ok_bind h
    have hadv : g' = guides.drop c.fwd.length := by
      unfold advance at h2
      split at h2
      · simpa using h2.symm
      · cases h2
    split at h3
    · cases guides with
      | nil => simp at h3
      | cons x xs =>
        cases hf : c.fwd with
        | nil => exact absurd hf h1.2
        | cons g gs =>
          rw [hf] at h3
          simp only [Except.ok.injEq, Prod.mk.injEq] at h3
          refine ⟨fun hn => absurd ⟨by assumption, h1.1, by simp⟩ hn, fun _ => by rw [← h3.2, hadv, hf],
            fun hs => by simp [h1.1] at hs, fun _ => ⟨x, xs, g, gs, rfl, rfl, h3.1.symm⟩⟩
    · rename_i hl
      simp only [Except.ok.injEq, Prod.mk.injEq] at h3
      refine ⟨fun _ => h3.1.symm, fun _ => by rw [← h3.2, hadv], fun hs => by simp [h1.1] at hs,
        fun hs => absurd hs.1 hl⟩
  · rename_i h1
    simp only [Bool.and_eq_true, Bool.not_eq_true', bne_iff_ne, ne_eq, List.length_eq_zero_iff] at h1
    simp only [Except.ok.injEq, Prod.mk.injEq] at h
    refine ⟨fun _ => h.1.symm, fun hs => ?_, fun _ => h.2.symm, fun hs => absurd hs.2 h1⟩
    have : c.fwd = [] := by
      by_contra hne; exact h1 ⟨hs, hne⟩
    simp [this, h.2]

/-- The place data of a view is new, the rest is as before. -/
def SameButPlace (a b : Item) : Prop := ∃ l q, b = a.putAt l q

theorem SameButPlace.padded {a b : Item} (h : SameButPlace a b) : b.align = a.align := by
  obtain ⟨l, q, rfl⟩ := h; rfl

theorem layFwd_cons {rnd : Int → Int → Int → Int} {z a L rem : Int} {gs : List Int} {cnt : Nat} {c : Item}
    {cs F' : List Item} (h : layFwd rnd z a L gs rem cnt (c :: cs) = .ok F') :
    c.align.isReverse = false ∧ ∃ add cnt' c' cs' L' gs',
      takeShare c.align.padded rem cnt = .ok (add, cnt') ∧ F' = c' :: cs' ∧
      layFwd rnd z a L' gs' (rem - add) cnt' cs = .ok cs' ∧
      ((c.align = .forward ∧ ∃ pos, guideFwd c (L + c.space) gs = .ok (pos, gs') ∧
          c' = c.putAt c.clength pos ∧ L' = pos + c.clength) ∨
       (c.align = .forwardFill ∧ ∃ pos, guideFwd c (L + c.space) gs = .ok (pos, gs') ∧
          c' = c.putAt (c.clength + add) pos ∧ L' = pos + (c.clength + add)) ∨
       (c.align = .center ∧ gs' = gs ∧ c' = c.putAt c.clength (L + c.space + add.tdiv 2) ∧
          L' = L + c.space + add + c.clength) ∨
       (c.align = .proportional ∧ gs' = gs ∧ a - (c.clength + add) ≠ 0 ∧
          c' = c.putAt c.clength (L + c.space + rnd (L + c.space - z) (a - (c.clength + add)) add) ∧
          L' = L + c.space + add + c.clength) ∨
       (c.align = .default ∧ gs' = gs ∧ c' = c.putAt c.clength c.place.position ∧
          L' = L + c.space + c.clength)) := by
  simp only [layFwd] at h
  split at h
  · cases h
  · rename_i hr
    refine ⟨by simpa using hr, ?_⟩
    obtain ⟨⟨add, cnt'⟩, h1, h2⟩ := ok_bind h
    dsimp only at h2
    cases ha : c.align <;> rw [ha] at h2 <;> dsimp only at h2
    · obtain ⟨⟨pos, gs'⟩, h3, h4⟩ := ok_bind h2
      dsimp only at h4
      rw [if_neg (by simp)] at h4
      obtain ⟨cs', h5, h6⟩ := ok_bind h4
      simp only [Except.ok.injEq] at h6
      exact ⟨add, cnt', _, cs', _, gs', by rw [← ha]; exact h1, h6.symm, h5, Or.inl ⟨rfl, pos, h3, rfl, rfl⟩⟩
    · rw [ha] at hr; simp [Align.isReverse] at hr
    · obtain ⟨cs', h5, h6⟩ := ok_bind h2
      simp only [Except.ok.injEq] at h6
      refine ⟨add, cnt', _, cs', _, gs, by rw [← ha]; exact h1, h6.symm, h5, Or.inr (Or.inr (Or.inl ⟨rfl, rfl, ?_, rfl⟩))⟩
      congr 3; omega
    · split at h2
      · cases h2
      · rename_i hne
        obtain ⟨cs', h5, h6⟩ := ok_bind h2
        simp only [Except.ok.injEq] at h6
        exact ⟨add, cnt', _, cs', _, gs, by rw [← ha]; exact h1, h6.symm, h5,
          Or.inr (Or.inr (Or.inr (Or.inl ⟨rfl, rfl, hne, rfl, rfl⟩)))⟩
    · obtain ⟨⟨pos, gs'⟩, h3, h4⟩ := ok_bind h2
      dsimp only at h4
      rw [if_pos rfl] at h4
      obtain ⟨cs', h5, h6⟩ := ok_bind h4
      simp only [Except.ok.injEq] at h6
      exact ⟨add, cnt', _, cs', _, gs', by rw [← ha]; exact h1, h6.symm, h5,
        Or.inr (Or.inl ⟨rfl, pos, h3, rfl, rfl⟩)⟩
    · rw [ha] at hr; simp [Align.isReverse] at hr
    · obtain ⟨cs', h5, h6⟩ := ok_bind h2
      simp only [Except.ok.injEq] at h6
      exact ⟨add, cnt', _, cs', _, gs, by rw [← ha]; exact h1, h6.symm, h5,
        Or.inr (Or.inr (Or.inr (Or.inr ⟨rfl, rfl, rfl, rfl⟩)))⟩

/-- As `RowSane`, with the guides that the engine looks at. -/
def FwdSane (padded : Bool) : List Item → Prop
  | [] => True
  | c :: cs => (c.align.isReverse = false → c.snapsFwd → padded = false) ∧ c.align ≠ .default ∧ FwdSane (padded || c.align.padded) cs

def numPadded (cs : List Item) : Nat := (cs.filter (fun c => c.align.padded)).length

theorem numPadded_cons (c : Item) (cs : List Item) :
    numPadded (c :: cs) = (if c.align.padded then 1 else 0) + numPadded cs := by
  unfold numPadded
  rw [List.filter_cons]
  split <;> simp <;> omega

/-- What is needed of the rounding of the position of a proportional item. -/
def GoodRnd (rnd : Int → Int → Int → Int) : Prop :=
  ∀ n d a, 0 ≤ n → n ≤ d → 0 < d → 0 ≤ a → 0 ≤ rnd n d a ∧ rnd n d a ≤ a

theorem guides_step {c : Item} {len : Int} {x gs' : List Int} {rest rest' : List Int} {pos : Int} {gd : List Int}
    (hu : c.usesFwd = true) (h1 : raise (len + c.space) c.fwd rest = .ok (x, rest'))
    {L : Int} (hg : guideFwd c L (x ++ gs') = .ok (pos, gd)) :
    gd = gs' ∧ (c.snapsFwd → pos = snap c x c.fwd (len + c.space)) := by
  have hs : c.suppress = false := by
    unfold Item.usesFwd at hu
    simp at hu; exact hu.2
  obtain ⟨g1, g2, g3, g4⟩ := guideFwd_ok hg
  constructor
  · rw [g2 hs, ← raise_length h1]; simp
  · intro hsn
    obtain ⟨y, ys, g, gg, e1, e2, e3⟩ := g4 hsn
    rw [e2] at h1
    obtain ⟨b, base', x', rfl, rfl, h'⟩ := raise_cons h1
    simp only [List.cons_append, List.cons.injEq] at e1
    rw [e3, e2]
    simp [snap, hsn.1, e1.1]

theorem snap_not {c : Item} {x : List Int} {len : Int} (h : ¬ c.snapsFwd) (hu : c.usesFwd = true) :
    snap c x c.fwd len = len := by
  have hs : c.suppress = false := by
    unfold Item.usesFwd at hu
    simp at hu; exact hu.2
  unfold snap
  cases x with
  | nil => rfl
  | cons y ys =>
    cases hf : c.fwd with
    | nil => rfl
    | cons g gs =>
      have : ¬ c.leaf = true := fun hl => h ⟨hl, hs, by simp [hf]⟩
      simp [this]

/-- The forward part of the layout along the direction of a container. -/
theorem layFwd_pack {rnd : Int → Int → Int → Int} (hrnd : GoodRnd rnd) {z hi : Int} {R : List Item} :
    ∀ (F : List Item) (len l L rem : Int) (rest gs : List Int) (cnt : Nat) (F' : List Item) (seen : Bool),
    upFwd len rest (F ++ R) = .ok (l, gs) →
    layFwd rnd z (hi - z) L gs rem cnt F = .ok F' →
    FwdSane seen F → len ≤ L → (seen = false → L = len) → 0 ≤ rem → numPadded F ≤ cnt →
    (∀ c ∈ F ++ R, 0 ≤ c.space ∧ 0 ≤ c.clength) → z ≤ L → L + rem + (l - len) ≤ hi →
    List.Forall₂ SameButPlace F F' ∧
    (∀ c ∈ F', c.clength ≤ c.place.length) ∧
    Packed L (l - need R + (L - len) + rem) F'
  | [], len, l, L, rem, rest, gs, cnt, F', seen, hup, hlay, _, hle, _, hrem, _, _, _, _ => by
    simp only [layFwd, Except.ok.injEq] at hlay
    subst hlay
    simp only [List.nil_append] at hup
    have := upFwd_need hup
    simp [Packed]
    omega
  | c :: cs, len, l, L, rem, rest, gs, cnt, F', seen, hup, hlay, hsane, hle, hseen, hrem, hcnt, hnn, hz, hbud => by
    obtain ⟨hnr, add, cnt', c', cs', L', gs', hsh, rfl, hrec, hcase⟩ := layFwd_cons hlay
    obtain ⟨a0, a1, a2, a3⟩ := takeShare_ok hsh hrem
    have hc := hnn c (by simp)
    have hnn' : ∀ d ∈ cs ++ R, 0 ≤ d.space ∧ 0 ≤ d.clength := fun d hd => hnn d (by
      simp only [List.cons_append, List.mem_cons]; exact Or.inr hd)
    have hnd : 0 ≤ need (cs ++ R) := need_nonneg hnn'
    obtain ⟨s1, s2, s3⟩ := hsane
    replace s1 := s1 hnr
    rw [numPadded_cons] at hcnt
    have hcnt' : numPadded cs ≤ cnt' := by
      cases hp : c.align.padded with
      | true => have := a3 hp; simp [hp] at hcnt; omega
      | false => have := a2 hp; simp [hp] at hcnt; omega
    -- the state of `upFwd` after `c`
    obtain ⟨len1, rest1, gs1, hup1, hlen1, hgs1⟩ :
        ∃ len1 rest1 gs1, upFwd len1 rest1 (cs ++ R) = .ok (l, gs1) ∧
          len + c.space + c.clength ≤ len1 ∧
          ((c.usesFwd = true ∧ ∃ x, raise (len + c.space) c.fwd rest = .ok (x, rest1) ∧ gs = x ++ gs1 ∧
            len1 = snap c x c.fwd (len + c.space) + c.clength) ∨
           (c.usesFwd = false ∧ gs1 = gs ∧ len1 = len + c.space + c.clength)) := by
      rw [List.cons_append] at hup
      rcases upFwd_cons hup with ⟨hu, x, rest', gs'', h1, h2, h3⟩ | ⟨hu, h2⟩
      · have := snap_ge (c := c) h1
        exact ⟨_, rest', gs'', h2, by omega, Or.inl ⟨hu, x, h1, h3, rfl⟩⟩
      · exact ⟨_, rest, gs, h2, by omega, Or.inr ⟨hu, rfl, rfl⟩⟩
    have hl1 := upFwd_need hup1
    -- where a forward item goes
    have key : ∀ pos, (c.align = .forward ∨ c.align = .forwardFill) →
        guideFwd c (L + c.space) gs = .ok (pos, gs') →
        gs' = gs1 ∧ L + c.space ≤ pos ∧ pos + c.clength - len1 = L - len := by
      intro pos hal hg
      rcases hgs1 with ⟨hu, x, h1, h3, h4⟩ | ⟨hu, h3, h4⟩
      · subst h3
        obtain ⟨k1, k2⟩ := guides_step hu h1 hg
        refine ⟨k1, ?_⟩
        by_cases hsn : c.snapsFwd
        · have e1 := k2 hsn
          have e2 := hseen (s1 hsn)
          have := snap_ge (c := c) h1
          subst e2
          omega
        · have e1 := (guideFwd_ok hg).1 hsn
          have e2 := snap_not (x := x) (len := len + c.space) hsn hu
          omega
      · have hs : c.suppress = true := by
          unfold Item.usesFwd at hu
          rcases hal with h | h <;> rw [h] at hu <;> simpa [Align.fwdSide] using hu
        obtain ⟨g1, g2, g3, g4⟩ := guideFwd_ok hg
        have hsn : ¬ c.snapsFwd := fun h => by rw [h.2.1] at hs; cases hs
        refine ⟨by rw [g3 hs, h3], ?_⟩
        have := g1 hsn
        omega
    have other : c.align.fwdSide = false → gs1 = gs ∧ len1 = len + c.space + c.clength := by
      intro hf
      rcases hgs1 with ⟨hu, _⟩ | ⟨_, h3, h4⟩
      · unfold Item.usesFwd at hu; rw [hf] at hu; simp at hu
      · exact ⟨h3, h4⟩
    rcases hcase with ⟨hal, pos, hg, rfl, rfl⟩ | ⟨hal, pos, hg, rfl, rfl⟩ | ⟨hal, rfl, rfl, rfl⟩ |
      ⟨hal, rfl, hne, rfl, rfl⟩ | ⟨hal, rfl, rfl, rfl⟩
    · obtain ⟨k1, k2, k3⟩ := key pos (Or.inl hal) hg
      subst k1
      have hadd : add = 0 := (a2 (by rw [hal]; rfl)).1
      subst hadd
      obtain ⟨r1, r2, r3⟩ := layFwd_pack hrnd cs len1 l (pos + c.clength) (rem - 0) rest1 gs' cnt' cs'
        (seen || c.align.padded) hup1 hrec s3 (by omega)
        (fun h => by have := hseen (by simp at h; exact h.1); omega) (by omega) hcnt' hnn' (by omega) (by omega)
      refine ⟨List.Forall₂.cons ⟨_, _, rfl⟩ r1, ?_, ?_⟩
      · intro d hd
        rcases List.mem_cons.1 hd with rfl | hd
        · simp [Item.putAt]
        · exact r2 d hd
      · simp only [Packed, Item.putAt]
        exact ⟨k2, r3.mono (Int.le_refl _) (by omega)⟩
    · obtain ⟨k1, k2, k3⟩ := key pos (Or.inr hal) hg
      subst k1
      obtain ⟨r1, r2, r3⟩ := layFwd_pack hrnd cs len1 l (pos + (c.clength + add)) (rem - add) rest1 gs' cnt' cs'
        (seen || c.align.padded) hup1 hrec s3 (by omega)
        (fun h => by rw [hal] at h; simp [Align.padded] at h) (by omega) hcnt' hnn' (by omega) (by omega)
      refine ⟨List.Forall₂.cons ⟨_, _, rfl⟩ r1, ?_, ?_⟩
      · intro d hd
        rcases List.mem_cons.1 hd with rfl | hd
        · simp [Item.putAt]; omega
        · exact r2 d hd
      · simp only [Packed, Item.putAt]
        exact ⟨k2, r3.mono (Int.le_refl _) (by omega)⟩
    · obtain ⟨o1, o2⟩ := other (by rw [hal]; rfl)
      subst o1
      obtain ⟨r1, r2, r3⟩ := layFwd_pack hrnd cs len1 l (L + c.space + add + c.clength) (rem - add) rest1 gs1 cnt' cs'
        (seen || c.align.padded) hup1 hrec s3 (by omega)
        (fun h => by rw [hal] at h; simp [Align.padded] at h) (by omega) hcnt' hnn' (by omega) (by omega)
      have h1 : 0 ≤ add.tdiv 2 := Int.tdiv_nonneg a0 (by omega)
      have h2 : add.tdiv 2 ≤ add := Int.tdiv_le_self 2 a0
      refine ⟨List.Forall₂.cons ⟨_, _, rfl⟩ r1, ?_, ?_⟩
      · intro d hd
        rcases List.mem_cons.1 hd with rfl | hd
        · simp [Item.putAt]
        · exact r2 d hd
      · simp only [Packed, Item.putAt]
        exact ⟨by omega, r3.mono (by omega) (by omega)⟩
    · obtain ⟨o1, o2⟩ := other (by rw [hal]; rfl)
      subst o1
      obtain ⟨r1, r2, r3⟩ := layFwd_pack hrnd cs len1 l (L + c.space + add + c.clength) (rem - add) rest1 gs1 cnt' cs'
        (seen || c.align.padded) hup1 hrec s3 (by omega)
        (fun h => by rw [hal] at h; simp [Align.padded] at h) (by omega) hcnt' hnn' (by omega) (by omega)
      obtain ⟨q1, q2⟩ := hrnd (L + c.space - z) (hi - z - (c.clength + add)) add (by omega)
        (by omega) (by omega) a0
      refine ⟨List.Forall₂.cons ⟨_, _, rfl⟩ r1, ?_, ?_⟩
      · intro d hd
        rcases List.mem_cons.1 hd with rfl | hd
        · simp [Item.putAt]
        · exact r2 d hd
      · simp only [Packed, Item.putAt]
        exact ⟨by omega, r3.mono (by omega) (by omega)⟩
    · exact absurd hal s2

theorem guideRev_ok {c : Item} {len len' : Int} {guides guides' : List Int}
    (h : guideRev c len guides = .ok (len', guides')) (hs : ¬ c.snapsRev) : len' = len := by
  unfold guideRev at h
  unfold Item.snapsRev at hs
  split at h
  · rename_i h1
    simp only [Bool.and_eq_true, Bool.not_eq_true', bne_iff_ne, ne_eq, List.length_eq_zero_iff] at h1
    obtain ⟨g', h2, h3⟩ := ok_bind h
    split at h3
    · exact absurd ⟨by assumption, h1.1, h1.2⟩ hs
    · simp only [Except.ok.injEq, Prod.mk.injEq] at h3
      exact h3.1.symm
  · simp only [Except.ok.injEq, Prod.mk.injEq] at h
    exact h.1.symm

/-- The reverse part of the layout along the direction of a container. -/
theorem layRev_pack :
    ∀ (K : List Item) (rlen rem : Int) (guides : List Int) (cnt : Nat) (done others : List Item) (rem' : Int)
      (cnt' : Nat),
    layRev rlen guides rem cnt K = .ok (done, others, rem', cnt') →
    (∀ c ∈ K, c.align.isReverse = true → ¬ c.snapsRev) → 0 ≤ rem → numPadded K ≤ cnt →
    ∃ R, K = R ++ others ∧ List.Forall₂ SameButPlace R done ∧ (∀ c ∈ done, c.clength ≤ c.place.length) ∧
      0 ≤ rem' ∧ rem' ≤ rem ∧ numPadded others ≤ cnt' ∧ (∀ c ∈ R, c.align.isReverse = true) ∧
      Packed (rlen - need R - (rem - rem')) rlen done.reverse
  | [], rlen, rem, guides, cnt, done, others, rem', cnt', h, _, hrem, hcnt => by
    simp only [layRev, Except.ok.injEq, Prod.mk.injEq] at h
    obtain ⟨rfl, rfl, rfl, rfl⟩ := h
    exact ⟨[], rfl, .nil, by simp, hrem, Int.le_refl _, hcnt, by simp, by simp [Packed, need]⟩
  | c :: cs, rlen, rem, guides, cnt, done, others, rem', cnt', h, hs, hrem, hcnt => by
    simp only [layRev] at h
    split at h
    · rename_i hr
      obtain ⟨⟨rlen1, guides1⟩, h1, h⟩ := ok_bind h
      obtain ⟨⟨a, cnt1⟩, h2, h⟩ := ok_bind h
      obtain ⟨⟨done1, others1, rem1, cnt1'⟩, h3, h⟩ := ok_bind h
      dsimp only at h3 h
      simp only [Except.ok.injEq, Prod.mk.injEq] at h
      obtain ⟨rfl, rfl, rfl, rfl⟩ := h
      have e := guideRev_ok h1 (hs c (by simp) hr)
      subst e
      obtain ⟨a0, a1, a2, a3⟩ := takeShare_ok h2 hrem
      rw [numPadded_cons] at hcnt
      have hcnt1 : numPadded cs ≤ cnt1 := by
        cases hp : (c.align == .reverseFill) with
        | true =>
          have := a3 hp
          have hp' : c.align = .reverseFill := by simpa using hp
          simp [hp', Align.padded] at hcnt; omega
        | false => have := a2 hp; omega
      obtain ⟨R, e1, r1, r2, r3, r4, r5, r6, r7⟩ := layRev_pack cs _ _ _ _ _ _ _ _ h3
        (fun d hd => hs d (by simp [hd])) (by omega) hcnt1
      refine ⟨c :: R, by rw [e1]; rfl, List.Forall₂.cons ⟨_, _, rfl⟩ r1, ?_, r3, by omega, r5, ?_, ?_⟩
      · intro d hd
        rcases List.mem_cons.1 hd with rfl | hd
        · simp [Item.putAt]; omega
        · exact r2 d hd
      · intro d hd
        rcases List.mem_cons.1 hd with rfl | hd
        · exact hr
        · exact r6 d hd
      · rw [List.reverse_cons]
        refine Packed.append (mid := rlen1 - (c.clength + a + c.space)) (r7.mono ?_ (Int.le_refl _)) ?_
        · rw [need_cons]; omega
        · simp only [Packed, Item.putAt]; omega
    · simp only [Except.ok.injEq, Prod.mk.injEq] at h
      obtain ⟨rfl, rfl, rfl, rfl⟩ := h
      exact ⟨[], rfl, .nil, by simp, hrem, Int.le_refl _, hcnt, by simp, by simp [Packed, need]⟩

theorem numPadded_append (xs ys : List Item) : numPadded (xs ++ ys) = numPadded xs + numPadded ys := by
  simp [numPadded]

theorem numPadded_reverse (xs : List Item) : numPadded xs.reverse = numPadded xs := by
  simp [numPadded, List.filter_reverse]

theorem FwdSane.prefix : ∀ {xs ys : List Item} {b : Bool}, FwdSane b (xs ++ ys) → FwdSane b xs
  | [], _, _, _ => trivial
  | c :: cs, ys, b, h => by
    simp only [List.cons_append, FwdSane] at *
    exact ⟨h.1, h.2.1, FwdSane.prefix h.2.2⟩

/-- Layout along the direction of a container that is at least as long as it was measured. -/
theorem layoutWith_pack {rnd : Int → Int → Int → Int} (hrnd : GoodRnd rnd) {p0 p : Item} {kids kids' : List Item}
    {add len : Int}
    (hrev : upRev p.far p.far p0.rev kids.reverse = .ok (add, p.rev))
    (hfwd : upFwd p.near p0.fwd kids = .ok (len, p.fwd))
    (hm : p.mlength = len + add) (hl : p.mlength ≤ p.place.length)
    (hlay : layoutWith rnd p kids = .ok kids')
    (hsane : FwdSane false kids) (hsr : ∀ c ∈ kids, c.align.isReverse = true → ¬ c.snapsRev)
    (hnn : ∀ c ∈ kids, 0 ≤ c.space ∧ 0 ≤ c.clength) :
    List.Forall₂ SameButPlace kids kids' ∧ (∀ c ∈ kids', c.clength ≤ c.place.length) ∧
      Packed p.near (p.place.length - p.far) kids' := by
  unfold layoutWith at hlay
  obtain ⟨⟨done, others, rem, cnt⟩, h1, h2⟩ := ok_bind hlay
  obtain ⟨placed, h3, h4⟩ := ok_bind h2
  simp only [Except.ok.injEq] at h4
  obtain ⟨R, e, r1, r2, r3, r4, r5, r6, r7⟩ := layRev_pack _ _ _ _ _ _ _ _ _ h1
    (fun c hc => hsr c (by simpa using hc)) (by omega) (by
      rw [numPadded_reverse]; unfold numPadded; exact Nat.le_refl _)
  have ek : kids = others.reverse ++ R.reverse := by
    have := congrArg List.reverse e
    simpa using this
  have hra := upRev_ge hrev
  rw [ek] at hfwd hsane hnn
  obtain ⟨q1, q2, q3⟩ := layFwd_pack hrnd (z := p.near) (hi := p.place.length - p.far) (R := R.reverse)
    others.reverse p.near len p.near rem p0.fwd p.fwd cnt placed false hfwd
    (by rw [← h3]; congr 1; omega)
    hsane.prefix (Int.le_refl _) (fun _ => rfl) r3 (by rw [numPadded_reverse]; exact r5) hnn (Int.le_refl _) (by omega)
  subst h4
  refine ⟨?_, ?_, ?_⟩
  · rw [ek]
    exact List.rel_append q1 (List.rel_reverse r1)
  · intro c hc
    rcases List.mem_append.1 hc with hc | hc
    · exact q2 c hc
    · exact r2 c (by simpa using hc)
  · refine Packed.append q3 (r7.mono ?_ (Int.le_refl _))
    rw [need_reverse]
    omega

end Verif.Eve
