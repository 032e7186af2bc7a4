import Verif.Iter.Spec
namespace Verif.Iter
variable {α : Type}

/-- The iterator is at position `k` of the elements of the segments before number `e`. -/
def At (segs : List (List α)) (e : Nat) (i : Seg) (k : Nat) : Prop :=
  i.endB = e ∧
    ((i.bucket = e ∧ k = elementsBefore segs e ∧
        (i.cur = none ∨ ∃ s l, i.cur = some (s, l.length) ∧ segs[s]? = some l)) ∨
      (i.bucket < e ∧ ∃ l o, segs[i.bucket]? = some l ∧ o < l.length ∧ i.cur = some (i.bucket, o) ∧
        k = elementsBefore segs i.bucket + o))

theorem before_succ {segs : List (List α)} {b : Nat} {l : List α} (h : segs[b]? = some l) :
    elementsBefore segs (b + 1) = elementsBefore segs b + l.length := by
  unfold elementsBefore
  rw [List.take_add_one, h]
  simp

theorem before_mono {segs : List (List α)} {b c : Nat} (h : b ≤ c) :
    elementsBefore segs b ≤ elementsBefore segs c := by
  unfold elementsBefore
  obtain ⟨d, rfl⟩ := Nat.exists_eq_add_of_le h
  rw [List.take_add]
  simp

theorem segLen_of {segs : List (List α)} {b : Nat} {l : List α} (h : segs[b]? = some l) :
    segLen segs b = some l.length := by simp [segLen, h]

theorem get_some {segs : List (List α)} {b : Nat} (h : b < segs.length) : ∃ l, segs[b]? = some l :=
  ⟨segs[b], by simp [h]⟩

theorem skipEmpty_spec {segs : List (List α)} {e : Nat} (he : e ≤ segs.length) :
    ∀ n b, b ≤ e → e - b ≤ n → ∃ b', skipEmpty segs e b n = some b' ∧ b' ≤ e ∧
      elementsBefore segs b' = elementsBefore segs b ∧
      (b' = e ∨ (b' < e ∧ ∃ l, segs[b']? = some l ∧ 0 < l.length)) := by
  intro n
  induction n with
  | zero =>
    intro b hb hn
    have : b = e := by omega
    subst this
    exact ⟨b, by simp [skipEmpty], Nat.le_refl _, rfl, .inl rfl⟩
  | succ n ih =>
    intro b hb hn
    by_cases hbe : b = e
    · subst hbe
      exact ⟨b, by simp [skipEmpty], Nat.le_refl _, rfl, .inl rfl⟩
    · obtain ⟨l, hl⟩ := get_some (segs := segs) (b := b) (by omega)
      have hs := segLen_of hl
      cases hlen : l.length with
      | zero =>
        obtain ⟨b', h1, h2, h3, h4⟩ := ih (b + 1) (by omega) (by omega)
        refine ⟨b', ?_, h2, ?_, h4⟩
        · rw [hlen] at hs
          simp [skipEmpty, hbe, hs, h1]
        · rw [h3, before_succ hl, hlen]; rfl
      | succ m =>
        refine ⟨b, ?_, hb, rfl, .inr ⟨by omega, l, hl, by omega⟩⟩
        rw [hlen] at hs
        simp [skipEmpty, hbe, hs]

theorem mk_at {segs : List (List α)} {f e : Nat} (hf : f ≤ e) (he : e ≤ segs.length) :
    ∃ i, mk segs f e = some i ∧ At segs e i (elementsBefore segs f) := by
  obtain ⟨b, h1, h2, h3, h4⟩ := skipEmpty_spec he (e - f) f hf (Nat.le_refl _)
  unfold mk
  rw [h1]
  rcases h4 with rfl | ⟨hlt, l, hl, hpos⟩
  · refine ⟨⟨b, b, none⟩, by simp, rfl, .inl ⟨rfl, h3.symm, .inl rfl⟩⟩
  · have hne : b ≠ e := by omega
    refine ⟨⟨b, e, some (b, 0)⟩, by simp [hne], rfl, .inr ⟨hlt, l, 0, hl, hpos, rfl, ?_⟩⟩
    simp [h3]

theorem incLoop_spec {segs : List (List α)} {e : Nat} (he : e ≤ segs.length) :
    ∀ n b l o, b < e → e - b ≤ n → segs[b]? = some l → o ≤ l.length →
      ∃ j, incLoop segs e n b (b, o) = some j ∧ At segs e j (elementsBefore segs b + o) := by
  intro n
  induction n with
  | zero => intro b l o hb hn; omega
  | succ n ih =>
    intro b l o hb hn hl ho
    unfold incLoop
    rw [segLen_of hl]
    by_cases hol : o = l.length
    · subst hol
      by_cases hbe : b + 1 = e
      · refine ⟨⟨b + 1, e, some (b, l.length)⟩, by simp [hbe], rfl, .inl ⟨hbe, ?_, .inr ⟨b, l, rfl, hl⟩⟩⟩
        rw [← hbe, before_succ hl]
      · obtain ⟨l', hl'⟩ := get_some (segs := segs) (b := b + 1) (by omega)
        obtain ⟨j, h1, h2⟩ := ih (b + 1) l' 0 (by omega) (by omega) hl' (Nat.zero_le _)
        refine ⟨j, by simp [hbe, h1], ?_⟩
        rw [before_succ hl] at h2
        exact h2
    · refine ⟨⟨b, e, some (b, o)⟩, by simp [hol], rfl, .inr ⟨hb, l, o, hl, by omega, rfl, rfl⟩⟩

theorem decLoop_spec {segs : List (List α)} {e : Nat} (he : e ≤ segs.length) :
    ∀ b c k, (b = e ∧ k = elementsBefore segs e) ∨
        (b < e ∧ ∃ l o, segs[b]? = some l ∧ o ≤ l.length ∧ c = some (b, o) ∧ k = elementsBefore segs b + o) →
      (k = 0 → decLoop segs e b b c = none) ∧
      (0 < k → ∃ j, decLoop segs e b b c = some j ∧ At segs e j (k - 1)) := by
  intro b
  induction b with
  | zero =>
    intro c k h
    rcases h with ⟨rfl, hk⟩ | ⟨hlt, l, o, hl, ho, rfl, hk⟩
    · have : k = 0 := by simpa [elementsBefore] using hk
      subst this
      exact ⟨fun _ => by simp [decLoop, decCond], fun h => absurd h (by omega)⟩
    · have hk' : k = o := by simpa [elementsBefore] using hk
      subst hk'
      clear hk
      have hne : (0 : Nat) ≠ e := by omega
      constructor
      · intro h
        subst h
        simp [decLoop, decCond, hne]
      · intro hpos
        obtain ⟨m, rfl⟩ := Nat.exists_eq_succ_of_ne_zero (by omega : k ≠ 0)
        refine ⟨⟨0, e, some (0, m)⟩, by simp [decLoop, decCond, decLast, hne], rfl,
          .inr ⟨hlt, l, m, hl, by omega, rfl, by simp [elementsBefore]⟩⟩
  | succ b ih =>
    intro c k h
    have hbe : b < e := by omega
    obtain ⟨l', hl'⟩ := get_some (segs := segs) (b := b) (by omega)
    have hsl := segLen_of hl'
    have step : k = elementsBefore segs (b + 1) → _ := fun hk =>
      ih (some (b, l'.length)) k (.inr ⟨hbe, l', l'.length, hl', Nat.le_refl _, rfl, by rw [hk, before_succ hl']⟩)
    rcases h with ⟨hb, hk⟩ | ⟨hlt, l, o, hl, ho, rfl, hk⟩
    · have hs := step (by rw [hk, hb])
      have hu : decLoop segs e (b + 1) (b + 1) c = decLoop segs e b b (some (b, l'.length)) := by
        have : decCond e (b + 1) c = some true := by simp [decCond, hb]
        simp [decLoop, this, hsl]
      rw [hu]
      exact hs
    · have hne : b + 1 ≠ e := by omega
      cases o with
      | zero =>
        have hs := step (by simpa using hk)
        have hu : decLoop segs e (b + 1) (b + 1) (some (b + 1, 0)) = decLoop segs e b b (some (b, l'.length)) := by
          have : decCond e (b + 1) (some (b + 1, 0)) = some true := by simp [decCond]
          simp [decLoop, this, hsl]
        rw [hu]
        exact hs
      | succ o =>
        refine ⟨fun h => by omega, fun _ => ⟨⟨b + 1, e, some (b + 1, o)⟩, ?_, rfl,
          .inr ⟨hlt, l, o, hl, by omega, rfl, by simp only []; omega⟩⟩⟩
        have : decCond e (b + 1) (some (b + 1, o + 1)) = some false := by simp [decCond, hne]
        simp [decLoop, this, decLast]

theorem at_le {segs : List (List α)} {e : Nat} {i : Seg} {k : Nat} (h : At segs e i k) : k ≤ elementsBefore segs e := by
  obtain ⟨_, ⟨_, rfl, _⟩ | ⟨hb, l, o, hl, ho, _, rfl⟩⟩ := h
  · exact Nat.le_refl _
  · have := before_succ hl
    have := before_mono (segs := segs) (b := i.bucket + 1) (c := e) (by omega)
    omega

theorem at_inc {segs : List (List α)} {e : Nat} (he : e ≤ segs.length) {i : Seg} {k : Nat} (h : At segs e i k) :
    (k = elementsBefore segs e → increment segs i = none) ∧
    (k < elementsBefore segs e → ∃ j, increment segs i = some j ∧ At segs e j (k + 1)) := by
  obtain ⟨hend, ⟨hb, rfl, hc⟩ | ⟨hb, l, o, hl, ho, hc, hk⟩⟩ := h
  · refine ⟨fun _ => ?_, fun h => by omega⟩
    unfold increment
    rcases hc with hc | ⟨s, l, hc, hl⟩
    · rw [hc]
    · rw [hc]; simp [segLen_of hl]
  · constructor
    · intro h
      have := before_succ hl
      have := before_mono (segs := segs) (b := i.bucket + 1) (c := e) (by omega)
      omega
    · intro _
      obtain ⟨j, h1, h2⟩ := incLoop_spec he (e - i.bucket) i.bucket l (o + 1) hb (Nat.le_refl _) hl (by omega)
      refine ⟨j, ?_, by rw [hk]; exact h2⟩
      unfold increment
      rw [hc]
      simp [segLen_of hl, ho, hend, h1]

theorem at_dec {segs : List (List α)} {e : Nat} (he : e ≤ segs.length) {i : Seg} {k : Nat} (h : At segs e i k) :
    (k = 0 → decrement segs i = none) ∧
    (0 < k → ∃ j, decrement segs i = some j ∧ At segs e j (k - 1)) := by
  unfold decrement
  obtain ⟨hend, h⟩ := h
  rw [hend]
  refine decLoop_spec he i.bucket i.cur k ?_
  rcases h with ⟨hb, hk, _⟩ | ⟨hb, l, o, hl, ho, hc, hk⟩
  · exact .inl ⟨hb, hk⟩
  · exact .inr ⟨hb, l, o, hl, by omega, hc, hk⟩

theorem flat_get {segs : List (List α)} {e b : Nat} {l : List α} {o : Nat} (hb : b < e) (hl : segs[b]? = some l)
    (ho : o < l.length) : (segs.take e).flatten[elementsBefore segs b + o]? = l[o]? := by
  obtain ⟨d, rfl⟩ := Nat.exists_eq_add_of_lt hb
  have : b + d + 1 = b + (1 + d) := by omega
  rw [this, List.take_add, List.take_add]
  unfold elementsBefore
  have hd : (segs.drop b).take 1 = [l] := by
    rw [List.take_one, List.head?_drop, hl]; rfl
  rw [hd]
  simp [List.getElem?_append_right, List.getElem?_append_left, ho]

theorem at_deref {segs : List (List α)} {e : Nat} {i : Seg} {k : Nat} (h : At segs e i k) :
    deref segs i = (segs.take e).flatten[k]? := by
  obtain ⟨hend, ⟨hb, rfl, hc⟩ | ⟨hb, l, o, hl, ho, hc, rfl⟩⟩ := h
  · have : (segs.take e).flatten[elementsBefore segs e]? = none := by
      rw [List.getElem?_eq_none_iff]; exact Nat.le_refl _
    rw [this]
    unfold deref
    rcases hc with hc | ⟨s, l, hc, hl⟩
    · rw [hc]
    · rw [hc]; simp [hl]
  · rw [flat_get hb hl ho]
    unfold deref
    rw [hc]
    simp [hl]

theorem at_equal {segs : List (List α)} {e : Nat} {i j : Seg} {k m : Nat} (h : At segs e i k) (g : At segs e j m) :
    equal i j = some (k == m) := by
  have key : ∀ {i : Seg} {k : Nat}, i.bucket < e → (∃ l o, segs[i.bucket]? = some l ∧ o < l.length ∧
      i.cur = some (i.bucket, o) ∧ k = elementsBefore segs i.bucket + o) →
      elementsBefore segs i.bucket ≤ k ∧ k < elementsBefore segs (i.bucket + 1) := by
    rintro i k hb ⟨l, o, hl, ho, _, rfl⟩
    rw [before_succ hl]; omega
  obtain ⟨hie, hi⟩ := h
  obtain ⟨hje, hj⟩ := g
  unfold equal
  rcases hi with ⟨hb, rfl, _⟩ | ⟨hb, hi⟩ <;> rcases hj with ⟨gb, rfl, _⟩ | ⟨gb, hj⟩
  · simp [hie, hje, hb, gb]
  · have := key gb hj
    have := before_mono (segs := segs) (b := j.bucket + 1) (c := e) (by omega)
    have h1 : e ≠ j.bucket := by omega
    have h2 : elementsBefore segs e ≠ m := by omega
    simp [hie, hje, hb, h1, h2]
  · have := key hb hi
    have := before_mono (segs := segs) (b := i.bucket + 1) (c := e) (by omega)
    have h1 : i.bucket ≠ e := by omega
    have h2 : k ≠ elementsBefore segs e := by omega
    simp [hie, hje, gb, h1, h2]
  · by_cases hbb : i.bucket = j.bucket
    · obtain ⟨l, o, hl, ho, hc, rfl⟩ := hi
      obtain ⟨l', o', hl', ho', hc', rfl⟩ := hj
      have h1 : j.bucket ≠ e := by omega
      rw [hc, hc']
      simp [hie, hje, hbb, h1]
      by_cases hoo : o = o'
      · simp [hoo]
      · have : elementsBefore segs j.bucket + o ≠ elementsBefore segs j.bucket + o' := by omega
        rw [beq_eq_false_iff_ne.2 hoo, beq_eq_false_iff_ne.2 this]
    · have a := key hb hi
      have b := key gb hj
      have : k ≠ m := by
        rcases Nat.lt_or_gt_of_ne hbb with h | h
        · have := before_mono (segs := segs) (b := i.bucket + 1) (c := j.bucket) (by omega); omega
        · have := before_mono (segs := segs) (b := j.bucket + 1) (c := i.bucket) (by omega); omega
      simp [hie, hje, hbb, this]

theorem run_at {segs : List (List α)} {e : Nat} (he : e ≤ segs.length) :
    ∀ ms i k, At segs e i k →
      (walk (elementsBefore segs e) ms k = none → run segs ms i = none) ∧
      (∀ m, walk (elementsBefore segs e) ms k = some m → ∃ j, run segs ms i = some j ∧ At segs e j m) := by
  intro ms
  induction ms with
  | nil => intro i k h; exact ⟨fun h => by simp [walk] at h, fun m hm => ⟨i, rfl, by simp [walk] at hm; subst hm; exact h⟩⟩
  | cons a ms ih =>
    intro i k h
    cases a with
    | next =>
      have hi := at_inc he h
      have := at_le h
      by_cases hk : k < elementsBefore segs e
      · obtain ⟨j, h1, h2⟩ := hi.2 hk
        simpa [walk, run, hk, h1] using ih j _ h2
      · simp [walk, run, hk, hi.1 (by omega)]
    | prev =>
      have hi := at_dec he h
      by_cases hk : 0 < k
      · obtain ⟨j, h1, h2⟩ := hi.2 hk
        simpa [walk, run, hk, h1] using ih j _ h2
      · simp [walk, run, hk, hi.1 (by omega)]

end Verif.Iter
