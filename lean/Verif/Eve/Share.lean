import Verif.Eve.Guides
/-! How additional space is shared along the direction of a container. -/
namespace Verif.Eve

theorem plain_leafGuides {p c : Item} (h : Plain c) : Plain (leafGuides (resolve p c)) := by
  have h' : Plain (resolve p c) := by unfold resolve; split <;> exact h
  generalize resolve p c = d at h'
  unfold leafGuides
  split
  · rename_i hl
    have := h' hl
    split <;> intro _ <;> simp [this]
  · exact h'

theorem plain_mark {c : Item} (h : Plain c) : Plain (mark c) := by
  unfold mark; split <;> exact h

theorem plain_setSpaces : ∀ (ks : List Item) (ss : List Int) (l : Int), (∀ c ∈ ks, Plain c) →
    ∀ c ∈ setSpaces ss l ks, Plain c
  | [], ss, l, _ => by cases ss <;> simp [setSpaces]
  | d :: ds, [], l, h => by
    intro c hc
    rcases List.mem_cons.1 hc with rfl | hc
    · exact h d (by simp)
    · exact plain_setSpaces ds [] l (fun e he => h e (by simp [he])) c hc
  | d :: ds, x :: xs, l, h => by
    intro c hc
    rcases List.mem_cons.1 hc with rfl | hc
    · exact h d (by simp)
    · exact plain_setSpaces ds xs l (fun e he => h e (by simp [he])) c hc

theorem adjustStep_plain {s : Slice} {p p' : Item} {kids kids' : List Item}
    (h : adjustStep s p kids = .ok (p', kids')) (hp : ∀ c ∈ kids, Plain c) : ∀ c ∈ kids', Plain c := by
  have h0 : ∀ c ∈ kids.map (fun c => leafGuides (resolve p c)), Plain c := by
    intro c hc
    obtain ⟨d, hd, rfl⟩ := List.mem_map.1 hc
    exact plain_leafGuides (hp d hd)
  unfold adjustStep at h
  split at h
  · simp only [Except.ok.injEq, Prod.mk.injEq] at h
    rw [← h.2]; exact hp
  · split at h
    · unfold adjustWith at h
      cases hs : p.spacing.getLast? with
      | none => rw [hs] at h; simp at h
      | some last =>
        rw [hs] at h
        simp only [Except.ok.injEq, Prod.mk.injEq] at h
        rw [← h.2]
        intro c hc
        obtain ⟨d, hd, rfl⟩ := List.mem_map.1 hc
        exact plain_mark (plain_setSpaces _ _ _ h0 d hd)
    · simp only [adjustCross, Except.ok.injEq, Prod.mk.injEq] at h
      rw [← h.2]
      intro c hc
      obtain ⟨d, hd, rfl⟩ := List.mem_map.1 hc
      exact plain_mark (h0 d hd)

theorem adjust_plain {s : Slice} {t t' : Tree Item} (h : t.post (adjustStep s) = .ok t') (hp : t.Forall PlainKids) :
    t'.Forall PlainKids := by
  refine (Tree.post_gen (T := OwnAdj) (S := ByParent) (P0 := PlainKids) (fun a ks a' ks' e => (adjustStep_ok e).1)
    ?_ ?_ ?_ h hp).2
  · intro a ks ks' h1 h2 d hd hl
    obtain ⟨c, hc, hcd⟩ := forall₂_mem h2 d hd
    have hcl : c.leaf = true := by rw [attr_leaf hcd.attr]; exact hl
    rw [hcd.leaf hcl]
    exact h1 c hc hcl
  · intro a ks a' ks' h1 e
    refine ⟨adjustStep_plain e h1, ?_⟩
    obtain ⟨ho, he⟩ := adjustStep_ok e
    rcases he with ⟨hl, rfl⟩ | ⟨hl, hr, hw⟩
    · exact forall₂_refl (fun a => ⟨_, _, _, _, _, rfl, fun _ => ⟨rfl, rfl⟩⟩) _
    · exact hr.imp (fun _ _ h => h.1)
  · intro a a' ks h _
    exact h

theorem PlainKids_stable : GrowStable PlainKids := by
  intro a ks a' ks' h hg hk d hd hl
  obtain ⟨c, hc, g⟩ := forall₂_mem hk d hd
  obtain ⟨h1, h2, h3⟩ := h c hc (by rw [attr_leaf g.attr]; exact hl)
  have e1 := g.fwd
  have e2 := g.rev
  rw [h2] at e1
  rw [h3] at e2
  rw [← attr_ext g.attr]
  exact ⟨h1, List.length_eq_zero_iff.1 e1.symm, List.length_eq_zero_iff.1 e2.symm⟩

/-! ### without guides, the measure is the sum -/

theorem plain_snapsFwd {c : Item} (h : Plain c) : ¬ c.snapsFwd := fun hs => hs.2.2 (h hs.1).2.1
theorem plain_snapsRev {c : Item} (h : Plain c) : ¬ c.snapsRev := fun hs => hs.2.2 (h hs.1).2.2

theorem plain_snap {c : Item} (h : Plain c) {x : List Int} {len : Int} :
    snap c x c.fwd len = len ∧ snap c x c.rev len = len := by
  unfold snap
  by_cases hl : c.leaf = true
  · obtain ⟨_, h2, h3⟩ := h hl
    rw [h2, h3]
    cases x <;> simp
  · cases x with
    | nil => simp
    | cons y ys =>
      cases c.fwd <;> cases c.rev <;> simp [hl]

theorem upFwd_plain : ∀ {cs : List Item} {len l : Int} {rest gs : List Int}, (∀ c ∈ cs, Plain c) →
    upFwd len rest cs = .ok (l, gs) → l = len + need cs
  | [], len, l, rest, gs, _, h => by
    simp only [upFwd, Except.ok.injEq, Prod.mk.injEq] at h
    simp [need]; omega
  | c :: cs, len, l, rest, gs, hp, h => by
    rw [need_cons]
    rcases upFwd_cons h with ⟨_, x, rest', gs', h1, h2, _⟩ | ⟨_, h2⟩
    · rw [(plain_snap (hp c (by simp))).1] at h2
      have := upFwd_plain (fun d hd => hp d (by simp [hd])) h2
      omega
    · have := upFwd_plain (fun d hd => hp d (by simp [hd])) h2
      omega

theorem upRev_plain : ∀ {cs : List Item} {rlen add l : Int} {rest gs : List Int}, (∀ c ∈ cs, Plain c) →
    upRev rlen add rest cs = .ok (l, gs) → l = add
  | [], rlen, add, l, rest, gs, _, h => by
    simp only [upRev, Except.ok.injEq, Prod.mk.injEq] at h
    omega
  | c :: cs, rlen, add, l, rest, gs, hp, h => by
    rcases upRev_cons h with ⟨_, x, rest', gs', h1, h2, _⟩ | ⟨_, h2⟩
    · rw [(plain_snap (hp c (by simp))).2] at h2
      have := upRev_plain (fun d hd => hp d (by simp [hd])) h2
      omega
    · exact upRev_plain (fun d hd => hp d (by simp [hd])) h2

/-! ### the shares -/

/-- What is left can be given in shares of `q` and `q + 1`. -/
def Even (q rem : Int) (cnt : Nat) : Prop := cnt * q ≤ rem ∧ rem ≤ cnt * (q + 1)

theorem even_start {rem : Int} {cnt : Nat} (h : cnt ≠ 0) (_h0 : 0 ≤ rem) : Even (rem / cnt) rem cnt := by
  have hc : (0 : Int) < cnt := by omega
  unfold Even
  have h1 := Int.mul_ediv_self_le (x := rem) (k := (cnt : Int)) (by omega)
  have h2 := Int.lt_mul_ediv_self_add (x := rem) (k := (cnt : Int)) hc
  rw [Int.mul_add]
  omega

theorem even_take {q rem a : Int} {cnt cnt' : Nat} (h : Even q rem cnt) (h0 : 0 ≤ q)
    (ht : takeShare true rem cnt = .ok (a, cnt')) :
    (a = q ∨ a = q + 1) ∧ Even q (rem - a) cnt' ∧ cnt = cnt' + 1 := by
  unfold takeShare at ht
  simp only [if_true] at ht
  split at ht
  · cases ht
  · rename_i hc
    simp only [Except.ok.injEq, Prod.mk.injEq] at ht
    obtain ⟨rfl, rfl⟩ := ht
    obtain ⟨k, rfl⟩ : ∃ k, cnt = k + 1 := ⟨cnt - 1, by omega⟩
    obtain ⟨h1, h2⟩ := h
    have hr : 0 ≤ rem := by
      have : 0 ≤ ((k + 1 : Nat) : Int) * q := Int.mul_nonneg (by omega) h0
      omega
    rw [Int.tdiv_eq_ediv_of_nonneg hr]
    have hk : (0 : Int) < ((k + 1 : Nat) : Int) := by omega
    have a1 : q ≤ rem / ((k + 1 : Nat) : Int) := by
      rw [Int.le_ediv_iff_mul_le hk, Int.mul_comm]; exact h1
    have a2 : rem / ((k + 1 : Nat) : Int) ≤ q + 1 := by
      apply Int.le_of_lt_add_one
      rw [Int.ediv_lt_iff_lt_mul hk]
      have : (q + 1 + 1) * ((k + 1 : Nat) : Int) = ((k + 1 : Nat) : Int) * (q + 1) + ((k + 1 : Nat) : Int) := by
        rw [Int.add_mul (q + 1) 1, Int.one_mul, Int.mul_comm]
      omega
    have hcases : rem / ((k + 1 : Nat) : Int) = q ∨ rem / ((k + 1 : Nat) : Int) = q + 1 := by omega
    refine ⟨hcases, ?_, by omega⟩
    have e1 : ((k + 1 : Nat) : Int) * q = (k : Int) * q + q := by
      rw [Int.natCast_add, Int.add_mul]; simp
    have e2 : ((k + 1 : Nat) : Int) * (q + 1) = (k : Int) * (q + 1) + (q + 1) := by
      rw [Int.natCast_add, Int.add_mul]; simp
    have e3 : (k : Int) * (q + 1) = k * q + k := by rw [Int.mul_add]; simp
    unfold Even
    simp only [Nat.add_sub_cancel]
    rcases hcases with h | h
    · rw [h]
      have hlt : rem < ((k + 1 : Nat) : Int) * (q + 1) := by
        have := Int.lt_mul_ediv_self_add (x := rem) (k := ((k + 1 : Nat) : Int)) hk
        rw [h] at this
        rw [Int.mul_add]
        omega
      omega
    · rw [h]
      have hge : ((k + 1 : Nat) : Int) * (q + 1) ≤ rem := by
        have := Int.mul_ediv_self_le (x := rem) (k := ((k + 1 : Nat) : Int)) (by omega)
        rw [h] at this; exact this
      omega

theorem even_zero {q rem : Int} (h : Even q rem 0) : rem = 0 := by
  unfold Even at h; simp at h; omega

/-- A placed child that fills got the share `q` or `q + 1`; another one keeps its measure. -/
def Shared (q : Int) (c : Item) : Prop :=
  (c.align = .forwardFill ∨ c.align = .reverseFill →
    c.place.length = c.clength + q ∨ c.place.length = c.clength + (q + 1)) ∧
  (¬ (c.align = .forwardFill ∨ c.align = .reverseFill) → c.place.length = c.clength)

theorem layRev_share {q : Int} (hq : 0 ≤ q) :
    ∀ (K : List Item) (rlen rem : Int) (guides : List Int) (cnt : Nat) (done others : List Item) (rem' : Int)
      (cnt' : Nat),
    layRev rlen guides rem cnt K = .ok (done, others, rem', cnt') → Even q rem cnt → cnt = numPadded K →
    Even q rem' cnt' ∧ cnt' = numPadded others ∧ ∀ c ∈ done, Shared q c
  | [], rlen, rem, guides, cnt, done, others, rem', cnt', h, he, hc => by
    simp only [layRev, Except.ok.injEq, Prod.mk.injEq] at h
    obtain ⟨rfl, rfl, rfl, rfl⟩ := h
    exact ⟨he, hc, by simp⟩
  | c :: cs, rlen, rem, guides, cnt, done, others, rem', cnt', h, he, hc => by
    simp only [layRev] at h
    split at h
    · rename_i hr
      obtain ⟨⟨rlen1, guides1⟩, h1, h⟩ := ok_bind h
      obtain ⟨⟨a, cnt1⟩, h2, h⟩ := ok_bind h
      obtain ⟨⟨done1, others1, rem1, cnt1'⟩, h3, h⟩ := ok_bind h
      dsimp only at h3 h
      simp only [Except.ok.injEq, Prod.mk.injEq] at h
      obtain ⟨rfl, rfl, rfl, rfl⟩ := h
      rw [numPadded_cons] at hc
      by_cases hp : c.align = .reverseFill
      · rw [show (c.align == Align.reverseFill) = true by simp [hp]] at h2
        obtain ⟨e1, e2, e3⟩ := even_take he hq h2
        have hcnt : cnt1 = numPadded cs := by simp [hp, Align.padded] at hc; omega
        obtain ⟨k1, k2, k3⟩ := layRev_share hq cs _ _ _ _ _ _ _ _ h3 e2 hcnt
        refine ⟨k1, k2, ?_⟩
        intro d hd
        rcases List.mem_cons.1 hd with rfl | hd
        · refine ⟨fun _ => ?_, fun hn => absurd (Or.inr hp) hn⟩
          simp only [Item.putAt]
          omega
        · exact k3 d hd
      · rw [show (c.align == Align.reverseFill) = false by simp [hp]] at h2
        unfold takeShare at h2
        simp only [Bool.false_eq_true, if_false, Except.ok.injEq, Prod.mk.injEq] at h2
        obtain ⟨rfl, rfl⟩ := h2
        have hpad : c.align.padded = false := by
          cases ha : c.align <;> simp_all [Align.isReverse, Align.padded]
        have hnf : ¬ (c.align = .forwardFill ∨ c.align = .reverseFill) := by
          rintro (h | h)
          · rw [h] at hr; simp [Align.isReverse] at hr
          · exact hp h
        have hcnt : cnt = numPadded cs := by simp [hpad] at hc; omega
        obtain ⟨k1, k2, k3⟩ := layRev_share hq cs _ _ _ _ _ _ _ _ h3 (by simpa using he) hcnt
        refine ⟨k1, k2, ?_⟩
        intro d hd
        rcases List.mem_cons.1 hd with rfl | hd
        · refine ⟨fun hn => absurd hn hnf, fun _ => ?_⟩
          simp [Item.putAt]
        · exact k3 d hd
    · simp only [Except.ok.injEq, Prod.mk.injEq] at h
      obtain ⟨rfl, rfl, rfl, rfl⟩ := h
      exact ⟨he, hc, by simp⟩

theorem layFwd_share {rnd : Int → Int → Int → Int} {z a q : Int} (hq : 0 ≤ q) :
    ∀ (F F' : List Item) (L rem : Int) (gs : List Int) (cnt : Nat),
    layFwd rnd z a L gs rem cnt F = .ok F' → Even q rem cnt → cnt = numPadded F → ∀ c ∈ F', Shared q c
  | [], F', L, rem, gs, cnt, h, _, _ => by
    simp only [layFwd, Except.ok.injEq] at h
    rw [← h]; simp
  | c :: cs, F', L, rem, gs, cnt, h, he, hc => by
    obtain ⟨hr, add, cnt', c', cs', L', gs', hsh, rfl, hrec, hcase⟩ := layFwd_cons h
    rw [numPadded_cons] at hc
    have hstep : (c.align.padded = true → add = q ∨ add = q + 1) ∧ Even q (rem - add) cnt' ∧ cnt' = numPadded cs := by
      cases hp : c.align.padded with
      | true =>
        rw [hp] at hsh hc
        obtain ⟨e1, e2, e3⟩ := even_take he hq hsh
        exact ⟨fun _ => e1, e2, by simp at hc; omega⟩
      | false =>
        rw [hp] at hsh hc
        unfold takeShare at hsh
        simp only [Bool.false_eq_true, if_false, Except.ok.injEq, Prod.mk.injEq] at hsh
        obtain ⟨rfl, rfl⟩ := hsh
        exact ⟨by simp, by simpa using he, by simpa using hc⟩
    intro d hd
    rcases List.mem_cons.1 hd with rfl | hd
    · rcases hcase with ⟨ha, pos, _, rfl, _⟩ | ⟨ha, pos, _, rfl, _⟩ | ⟨ha, _, rfl, _⟩ | ⟨ha, _, _, rfl, _⟩ | ⟨ha, _, rfl, _⟩
      · simp [Shared, Item.putAt, ha]
      · have := hstep.1 (by rw [ha]; rfl)
        refine ⟨fun _ => ?_, fun hn => absurd (Or.inl ha) hn⟩
        simp only [Item.putAt]
        omega
      · simp [Shared, Item.putAt, ha]
      · simp [Shared, Item.putAt, ha]
      · simp [Shared, Item.putAt, ha]
    · exact layFwd_share hq cs cs' _ _ _ _ hrec hstep.2.1 hstep.2.2 d hd

/-- Every child that fills gets the share of the additional space, give or take one unit. -/
theorem layoutWith_share {rnd : Int → Int → Int → Int} {p : Item} {kids kids' : List Item}
    (hl : p.mlength ≤ p.place.length) (h : layoutWith rnd p kids = .ok kids') (hn : numPadded kids ≠ 0) :
    ∀ c ∈ kids', Shared ((p.place.length - p.mlength) / numPadded kids) c := by
  have hq : 0 ≤ (p.place.length - p.mlength) / numPadded kids := Int.ediv_nonneg (by omega) (by omega)
  obtain ⟨F, R, F', R', rem, cnt, hk, hk', _, _, _, _, h1, h2⟩ := layoutWith_split h
  obtain ⟨k1, k2, k3⟩ := layRev_share hq _ _ _ _ _ _ _ _ _ h1 (even_start hn (by omega))
    (numPadded_reverse kids).symm
  intro c hc
  rw [hk'] at hc
  rcases List.mem_append.1 hc with hc | hc
  · exact layFwd_share hq F F' _ _ _ _ h2 k1 (by rw [k2, numPadded_reverse]) c hc
  · exact k3 c (by simpa using hc)

theorem layRev_keep :
    ∀ (K : List Item) (rlen rem : Int) (guides : List Int) (cnt : Nat) (done others : List Item) (rem' : Int)
      (cnt' : Nat),
    layRev rlen guides rem cnt K = .ok (done, others, rem', cnt') →
    ∀ c ∈ done, c.align ≠ .reverseFill → c.place.length = c.clength
  | [], rlen, rem, guides, cnt, done, others, rem', cnt', h => by
    simp only [layRev, Except.ok.injEq, Prod.mk.injEq] at h
    rw [← h.1]; simp
  | c :: cs, rlen, rem, guides, cnt, done, others, rem', cnt', h => by
    simp only [layRev] at h
    split at h
    · obtain ⟨⟨rlen1, guides1⟩, h1, h⟩ := ok_bind h
      obtain ⟨⟨a, cnt1⟩, h2, h⟩ := ok_bind h
      obtain ⟨⟨done1, others1, rem1, cnt1'⟩, h3, h⟩ := ok_bind h
      dsimp only at h3 h
      simp only [Except.ok.injEq, Prod.mk.injEq] at h
      obtain ⟨rfl, rfl, rfl, rfl⟩ := h
      intro d hd
      rcases List.mem_cons.1 hd with rfl | hd
      · intro hne
        have hne : c.align ≠ .reverseFill := hne
        rw [show (c.align == Align.reverseFill) = false by simp [hne]] at h2
        unfold takeShare at h2
        simp only [Bool.false_eq_true, if_false, Except.ok.injEq, Prod.mk.injEq] at h2
        obtain ⟨rfl, rfl⟩ := h2
        simp [Item.putAt]
      · exact layRev_keep cs _ _ _ _ _ _ _ _ h3 d hd
    · simp only [Except.ok.injEq, Prod.mk.injEq] at h
      rw [← h.1]; simp

theorem layFwd_keep {rnd : Int → Int → Int → Int} {z a : Int} :
    ∀ (F F' : List Item) (L rem : Int) (gs : List Int) (cnt : Nat),
    layFwd rnd z a L gs rem cnt F = .ok F' → ∀ c ∈ F', c.align ≠ .forwardFill → c.place.length = c.clength
  | [], F', L, rem, gs, cnt, h => by
    simp only [layFwd, Except.ok.injEq] at h
    rw [← h]; simp
  | c :: cs, F', L, rem, gs, cnt, h => by
    obtain ⟨hr, add, cnt', c', cs', L', gs', hsh, rfl, hrec, hcase⟩ := layFwd_cons h
    intro d hd
    rcases List.mem_cons.1 hd with rfl | hd
    · intro hne
      rcases hcase with ⟨ha, pos, _, rfl, _⟩ | ⟨ha, pos, _, rfl, _⟩ | ⟨ha, _, rfl, _⟩ | ⟨ha, _, _, rfl, _⟩ | ⟨ha, _, rfl, _⟩
      · simp [Item.putAt]
      · exact absurd ha hne
      · simp [Item.putAt]
      · simp [Item.putAt]
      · simp [Item.putAt]
    · exact layFwd_keep cs cs' _ _ _ _ hrec d hd

/-- A child that does not fill has the length it was measured with. -/
theorem layoutWith_keep {rnd : Int → Int → Int → Int} {p : Item} {kids kids' : List Item}
    (h : layoutWith rnd p kids = .ok kids') :
    ∀ c ∈ kids', ¬ (c.align = .forwardFill ∨ c.align = .reverseFill) → c.place.length = c.clength := by
  obtain ⟨F, R, F', R', rem, cnt, hk, hk', _, _, _, _, h1, h2⟩ := layoutWith_split h
  intro c hc hn
  rw [hk'] at hc
  rcases List.mem_append.1 hc with hc | hc
  · exact layFwd_keep _ _ _ _ _ _ h2 c hc (fun h => hn (Or.inl h))
  · exact layRev_keep _ _ _ _ _ _ _ _ _ h1 c (by simpa using hc) (fun h => hn (Or.inr h))

/-! ### no gap -/

/-- The children touch: each one starts where the previous ends, after the spacing, from `lo` to `hi`. -/
def Tiled : Int → Int → List Item → Prop
  | lo, hi, [] => lo = hi
  | lo, hi, c :: cs => c.place.position = lo + c.space ∧ Tiled (c.place.position + c.place.length) hi cs

theorem Tiled.append : ∀ {xs ys : List Item} {lo mid hi : Int}, Tiled lo mid xs → Tiled mid hi ys → Tiled lo hi (xs ++ ys)
  | [], ys, _, _, _, h, h' => by simp only [Tiled] at h; subst h; exact h'
  | c :: cs, ys, _, _, _, h, h' => ⟨h.1, Tiled.append h.2 h'⟩

/-- The alignments that leave no gap. -/
def Align.tight : Align → Bool
  | .forward | .reverse | .forwardFill | .reverseFill => true
  | _ => false

theorem layRev_tiled :
    ∀ (K : List Item) (rlen rem : Int) (guides : List Int) (cnt : Nat) (done others : List Item) (rem' : Int)
      (cnt' : Nat),
    layRev rlen guides rem cnt K = .ok (done, others, rem', cnt') → (∀ c ∈ K, Plain c) →
    Tiled (rlen - (need K - need others) - (rem - rem')) rlen done.reverse
  | [], rlen, rem, guides, cnt, done, others, rem', cnt', h, hp => by
    simp only [layRev, Except.ok.injEq, Prod.mk.injEq] at h
    obtain ⟨rfl, rfl, rfl, rfl⟩ := h
    simp [Tiled]
  | c :: cs, rlen, rem, guides, cnt, done, others, rem', cnt', h, hp => by
    simp only [layRev] at h
    split at h
    · obtain ⟨⟨rlen1, guides1⟩, h1, h⟩ := ok_bind h
      obtain ⟨⟨a, cnt1⟩, h2, h⟩ := ok_bind h
      obtain ⟨⟨done1, others1, rem1, cnt1'⟩, h3, h⟩ := ok_bind h
      dsimp only at h3 h
      simp only [Except.ok.injEq, Prod.mk.injEq] at h
      obtain ⟨rfl, rfl, rfl, rfl⟩ := h
      have e := guideRev_ok h1 (plain_snapsRev (hp c (by simp)))
      subst e
      have := layRev_tiled cs _ _ _ _ _ _ _ _ h3 (fun d hd => hp d (by simp [hd]))
      rw [List.reverse_cons, need_cons]
      refine Tiled.append (mid := rlen1 - (c.clength + a + c.space)) ?_ ?_
      · rw [show rlen1 - (c.space + c.clength + need cs - need others1) - (rem - rem1)
          = rlen1 - (c.clength + a + c.space) - (need cs - need others1) - (rem - a - rem1) by omega]
        exact this
      · simp only [Tiled, Item.putAt]; omega
    · simp only [Except.ok.injEq, Prod.mk.injEq] at h
      obtain ⟨rfl, rfl, rfl, rfl⟩ := h
      simp [Tiled]

theorem layFwd_tiled {rnd : Int → Int → Int → Int} {z a q : Int} (hq : 0 ≤ q) :
    ∀ (F F' : List Item) (L rem : Int) (gs : List Int) (cnt : Nat),
    layFwd rnd z a L gs rem cnt F = .ok F' → Even q rem cnt → cnt = numPadded F → (∀ c ∈ F, Plain c ∧ c.align.tight = true) →
    Tiled L (L + need F + rem) F'
  | [], F', L, rem, gs, cnt, h, he, hc, hp => by
    simp only [layFwd, Except.ok.injEq] at h
    have : cnt = 0 := by rw [hc]; rfl
    subst this
    have := even_zero he
    rw [← h]; simp [Tiled, need]; omega
  | c :: cs, F', L, rem, gs, cnt, h, he, hc, hp => by
    obtain ⟨hr, add, cnt', c', cs', L', gs', hsh, rfl, hrec, hcase⟩ := layFwd_cons h
    rw [numPadded_cons] at hc
    obtain ⟨hpc, htc⟩ := hp c (by simp)
    have hstep : (c.align.padded = false → add = 0) ∧ Even q (rem - add) cnt' ∧ cnt' = numPadded cs := by
      cases hp : c.align.padded with
      | true =>
        rw [hp] at hsh hc
        obtain ⟨e1, e2, e3⟩ := even_take he hq hsh
        exact ⟨by simp, e2, by simp at hc; omega⟩
      | false =>
        rw [hp] at hsh hc
        unfold takeShare at hsh
        simp only [Bool.false_eq_true, if_false, Except.ok.injEq, Prod.mk.injEq] at hsh
        obtain ⟨rfl, rfl⟩ := hsh
        exact ⟨by simp, by simpa using he, by simpa using hc⟩
    have ih := layFwd_tiled hq cs cs' _ _ _ _ hrec hstep.2.1 hstep.2.2 (fun d hd => hp d (by simp [hd]))
    have hns := plain_snapsFwd hpc
    rw [need_cons]
    rcases hcase with ⟨ha, pos, hg, rfl, rfl⟩ | ⟨ha, pos, hg, rfl, rfl⟩ | ⟨ha, _, rfl, _⟩ | ⟨ha, _, _, rfl, _⟩ | ⟨ha, _, rfl, _⟩
    · have e := (guideFwd_ok hg).1 hns
      subst e
      have ha0 := hstep.1 (by rw [ha]; rfl)
      subst ha0
      refine ⟨rfl, ?_⟩
      simp only [Item.putAt]
      rw [show L + (c.space + c.clength + need cs) + rem = L + c.space + c.clength + need cs + (rem - 0) by omega]
      exact ih
    · have e := (guideFwd_ok hg).1 hns
      subst e
      refine ⟨rfl, ?_⟩
      simp only [Item.putAt]
      rw [show L + (c.space + c.clength + need cs) + rem = L + c.space + (c.clength + add) + need cs + (rem - add) by omega]
      exact ih
    · rw [ha] at htc; simp [Align.tight] at htc
    · rw [ha] at htc; simp [Align.tight] at htc
    · rw [ha] at htc; simp [Align.tight] at htc

/-- Without guides and with a child that fills, there is no gap. -/
theorem layoutWith_tiled {rnd : Int → Int → Int → Int} {p : Item} {kids kids' : List Item}
    (hm : p.mlength = p.near + p.far + need kids)
    (hl : p.mlength ≤ p.place.length) (h : layoutWith rnd p kids = .ok kids') (hn : numPadded kids ≠ 0)
    (hp : ∀ c ∈ kids, Plain c ∧ c.align.tight = true) :
    Tiled p.near (p.place.length - p.far) kids' := by
  have hq : 0 ≤ (p.place.length - p.mlength) / numPadded kids := Int.ediv_nonneg (by omega) (by omega)
  obtain ⟨F, R, F', R', rem, cnt, hk, hk', _, _, _, _, h1, h2⟩ := layoutWith_split h
  obtain ⟨k1, k2, k3⟩ := layRev_share hq _ _ _ _ _ _ _ _ _ h1 (even_start hn (by omega))
    (numPadded_reverse kids).symm
  have t1 := layRev_tiled _ _ _ _ _ _ _ _ _ h1 (fun c hc => (hp c (by simpa using hc)).1)
  have t2 := layFwd_tiled hq F F' _ _ _ _ h2 k1 (by rw [k2, numPadded_reverse])
    (fun c hc => hp c (by rw [hk]; simp [hc]))
  rw [need_reverse, need_reverse, List.reverse_reverse] at t1
  rw [hk']
  refine Tiled.append (mid := p.near + need F + rem) t2 ?_
  rw [show p.near + need F + rem
    = p.place.length - p.far - (need kids - need F) - (p.place.length - p.mlength - rem) by omega]
  exact t1

end Verif.Eve
