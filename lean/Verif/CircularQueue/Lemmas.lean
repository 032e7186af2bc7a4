import Verif.CircularQueue.Model
import Verif.CircularQueue.Spec
/-
Representation invariant linking the circular buffer to the specification.
-/
namespace Verif.CircularQueue

variable {α : Type}

/-- wrap-around addition of an offset below the capacity -/
def wrap (cap p : Nat) : Nat := if p < cap then p else p - cap

structure Rep (q : CQ α) (s : Spec α) : Prop where
  hcap : q.buf.length = s.cap
  hpos : 0 < s.cap
  hb : q.b < s.cap
  hlen : s.items.length + s.popped.length ≤ s.cap
  he : q.e = wrap s.cap (q.b + s.items.length)
  hempty : q.isEmpty = s.items.isEmpty
  hitems : ∀ i, i < s.items.length → q.buf[wrap s.cap (q.b + i)]? = s.items[i]?
  hpopped : ∀ i, i < s.popped.length → q.buf[wrap s.cap (q.b + (s.cap - 1 - i))]? = s.popped[i]?

theorem isEmpty_eq_len (l : List α) : l.isEmpty = (l.length == 0) := by cases l <;> rfl

theorem wrap_lt {cap b i : Nat} (hb : b < cap) (hi : i ≤ cap) : wrap cap (b + i) < cap := by
  unfold wrap; split <;> omega

theorem wrap_inj {cap b i j : Nat} (hb : b < cap) (hi : i < cap) (hj : j < cap)
    (h : wrap cap (b + i) = wrap cap (b + j)) : i = j := by
  unfold wrap at h; split at h <;> split at h <;> omega

theorem Rep.he_lt {q : CQ α} {s : Spec α} (h : Rep q s) : q.e < s.cap := by
  rw [h.he]; exact wrap_lt h.hb (by have := h.hlen; omega)

theorem Rep.full_eq {q : CQ α} {s : Spec α} (h : Rep q s) :
    q.full = (s.items.length == s.cap) := by
  have h1 := h.he; have h2 := h.hb; have h3 := h.hlen; have h4 := h.hempty; have h5 := h.hpos
  unfold CQ.full
  rw [h4, isEmpty_eq_len, h1]
  unfold wrap
  by_cases h0 : s.items.length = 0
  · have : ¬ (s.items.length = s.cap) := by omega
    have e2 : (s.items.length == s.cap) = false := by simp [this]
    rw [e2]; simp [h0]
  · by_cases hc : s.items.length = s.cap
    · have : ¬ (q.b + s.items.length < s.cap) := by omega
      rw [if_neg this]
      simp [hc]
      omega
    · have e2 : (s.items.length == s.cap) = false := by simp [hc]
      rw [e2]
      simp [h0]
      split <;> omega

theorem Rep.obs {q : CQ α} {s : Spec α} (h : Rep q s) : CircularQueue.obs q = s.obs := by
  have h1 := h.he; have h2 := h.hb; have h3 := h.hlen; have h4 := h.hempty; have h5 := h.hpos
  unfold CircularQueue.obs Spec.obs
  have hf : q.front = s.items.head? := by
    unfold CQ.front
    rw [h4, isEmpty_eq_len]
    cases hi : s.items with
    | nil => simp
    | cons x xs =>
      have := h.hitems 0 (by rw [hi]; simp)
      rw [hi] at this
      simp only [Nat.add_zero, wrap, h2, if_true] at this
      simp [this]
  have hs : q.size = s.items.length := by
    unfold CQ.size CQ.capacity
    rw [h4, isEmpty_eq_len, h.hcap, h1]
    unfold wrap
    by_cases h0 : s.items.length = 0
    · simp [h0, h2]
    · simp only [beq_iff_eq, h0, if_false]
      split <;> split <;> omega
  rw [hf, hs, h.full_eq]
  simp only [CQ.empty, CQ.capacity, h4, h.hcap]

theorem rep_mk (d : α) {cap : Nat} (h : 0 < cap) : Rep (mk d cap) (Spec.init cap) := by
  constructor <;> simp [mk, Spec.init, h, wrap]

theorem Rep.push {q : CQ α} {s : Spec α} (h : Rep q s) (x : α) :
    ∃ q', q.push x = some q' ∧ Rep q' (s.push x) := by
  have he := h.he_lt
  have h1 := h.he; have h2 := h.hb; have h3 := h.hlen; have h4 := h.hempty; have h5 := h.hpos
  have hc := h.hcap
  unfold CQ.push
  rw [if_pos (by omega)]
  refine ⟨_, rfl, ?_⟩
  rw [h.full_eq]
  unfold Spec.push
  by_cases hf : s.items.length < s.cap
  · rw [if_pos hf]
    have : (s.items.length == s.cap) = false := by simp; omega
    rw [this]
    constructor
    · simp [hc]
    · exact h5
    · simpa using h2
    · simp; omega
    · simp only [List.length_set, hc, h1, wrap, List.length_append, List.length_cons, List.length_nil,
        Bool.false_eq_true, if_false]
      repeat' split
      all_goals omega
    · simp
    · simp only [List.length_append, List.length_cons, List.length_nil, List.getElem?_append]
      intro i hi
      by_cases hin : i < s.items.length
      · rw [if_pos hin, ← h.hitems i hin]
        simp only [Bool.false_eq_true, if_false]
        rw [List.getElem?_set_ne]
        intro hh
        rw [h1] at hh
        have := wrap_inj h2 hf (by omega) hh
        omega
      · have : i = s.items.length := by omega
        subst this
        simp only [Bool.false_eq_true, if_false]
        rw [← h1, List.getElem?_set_self (by omega)]
        simp
    · simp only [List.length_take]
      intro i hi
      rw [List.getElem?_take_of_lt (by omega), ← h.hpopped i (by omega)]
      simp only [Bool.false_eq_true, if_false]
      rw [List.getElem?_set_ne]
      intro hh
      rw [h1] at hh
      have := wrap_inj h2 hf (by omega) hh
      omega
  · rw [if_neg hf]
    have hfull : s.items.length = s.cap := by omega
    have : (s.items.length == s.cap) = true := by simp [hfull]
    rw [this]
    have heb : q.e = q.b := by rw [h1]; unfold wrap; split <;> omega
    have hw : ∀ i, i < s.cap → wrap s.cap ((if q.e + 1 = (q.buf.set q.e x).length then 0 else q.e + 1) + i) =
        if i + 1 < s.cap then wrap s.cap (q.b + (i + 1)) else wrap s.cap (wrap s.cap (q.b + s.cap) + (i + 1 - s.cap)) := by
      intro i hi
      simp only [List.length_set, hc, heb, wrap]
      repeat' split
      all_goals omega
    have hpe : s.popped.length = 0 := by omega
    constructor
    · simp [hc]
    · exact h5
    · simp only [if_true, List.length_set]; split <;> omega
    · simp; omega
    · simp only [if_true, List.length_set, hc, wrap, List.length_append, List.length_tail, List.length_cons, List.length_nil]
      repeat' split
      all_goals omega
    · simp
    · simp only [List.length_append, List.length_tail, List.length_cons, List.length_nil, if_true]
      intro i hi
      rw [hw i (by omega)]
      by_cases hin : i + 1 < s.cap
      · rw [if_pos hin, List.getElem?_append_left (by simp; omega), List.getElem?_tail,
          ← h.hitems (i+1) (by omega), List.getElem?_set_ne]
        intro hh
        have hh' : wrap s.cap (q.b + 0) = wrap s.cap (q.b + (i+1)) := by
          rw [← hh, heb]; simp [wrap, h2]
        have := wrap_inj h2 h5 hin hh'
        omega
      · rw [if_neg hin]
        have hi' : i + 1 = s.cap := by omega
        have : wrap s.cap (wrap s.cap (q.b + s.cap) + (i + 1 - s.cap)) = q.e := by
          rw [heb]; unfold wrap; repeat' split
          all_goals omega
        rw [this, List.getElem?_set_self (by omega), List.getElem?_append_right (by simp; omega)]
        have : i - s.items.tail.length = 0 := by simp; omega
        rw [this]; rfl
    · intro i hi; simp only at hi; omega

theorem Rep.pop {q : CQ α} {s : Spec α} (h : Rep q s) {x : α} {xs : List α} (hi : s.items = x :: xs) :
    ∃ q', q.pop = some q' ∧ Rep q' { s with items := xs, popped := x :: s.popped } := by
  have h1 := h.he; have h2 := h.hb; have h3 := h.hlen; have h4 := h.hempty; have h5 := h.hpos
  have hc := h.hcap
  have hlen : s.items.length = xs.length + 1 := by rw [hi]; rfl
  unfold CQ.pop
  rw [h4, hi]
  simp only [List.isEmpty_cons, Bool.false_eq_true, if_false]
  rw [if_pos (by omega)]
  refine ⟨_, rfl, ?_⟩
  have hw : ∀ i, i + 1 < s.cap → wrap s.cap ((if q.b + 1 = q.buf.length then 0 else q.b + 1) + i) =
      wrap s.cap (q.b + (i + 1)) := by
    intro i hi'
    simp only [hc, wrap]
    repeat' split
    all_goals omega
  constructor
  · exact hc
  · exact h5
  · simp only; split <;> omega
  · simp only [List.length_cons]; omega
  · simp only [h1, hc, hlen, wrap]
    repeat' split
    all_goals omega
  · simp only [isEmpty_eq_len, h1, hlen, hc, wrap]
    have : ∀ (a b c d : Nat), (a = b ↔ c = d) → (a == b) = (c == d) := by
      intro a b c d hh; rw [Bool.eq_iff_iff]; simpa using hh
    apply this
    repeat' split
    all_goals omega
  · intro i hi'
    simp only at hi' ⊢
    rw [hw i (by omega), h.hitems (i+1) (by omega), hi]
    rfl
  · intro i hi'
    simp only [List.length_cons] at hi' ⊢
    cases i with
    | zero =>
      have := h.hitems 0 (by omega)
      rw [hi] at this
      simp only [List.getElem?_cons_zero] at this ⊢
      rw [← this]
      congr 1
      simp only [hc, wrap]
      repeat' split
      all_goals omega
    | succ j =>
      simp only [List.getElem?_cons_succ]
      rw [← h.hpopped j (by omega)]
      congr 1
      simp only [hc, wrap]
      repeat' split
      all_goals omega

theorem Rep.putback {q : CQ α} {s : Spec α} (h : Rep q s) {x : α} {ps : List α}
    (hp : s.popped = x :: ps) (hf : s.items.length < s.cap) :
    ∃ q', q.putback = some q' ∧ Rep q' { s with items := x :: s.items, popped := ps } := by
  have h1 := h.he; have h2 := h.hb; have h3 := h.hlen; have h4 := h.hempty; have h5 := h.hpos
  have hc := h.hcap
  have hlen : s.popped.length = ps.length + 1 := by rw [hp]; rfl
  unfold CQ.putback
  have hnf : q.full = false := by rw [h.full_eq]; simp; omega
  rw [hnf]
  simp only [Bool.false_eq_true, if_false]
  rw [if_neg (by split <;> omega)]
  refine ⟨_, rfl, ?_⟩
  constructor
  · exact hc
  · exact h5
  · simp only; split <;> omega
  · simp only [List.length_cons]; omega
  · simp only [h1, hc, List.length_cons, wrap]
    repeat' split
    all_goals omega
  · rfl
  · intro i hi'
    simp only [List.length_cons] at hi' ⊢
    cases i with
    | zero =>
      have := h.hpopped 0 (by omega)
      rw [hp] at this
      simp only [List.getElem?_cons_zero] at this ⊢
      rw [← this]
      congr 1
      simp only [hc, wrap]
      repeat' split
      all_goals omega
    | succ j =>
      simp only [List.getElem?_cons_succ]
      rw [← h.hitems j (by omega)]
      congr 1
      simp only [hc, wrap]
      repeat' split
      all_goals omega
  · intro i hi'
    simp only at hi' ⊢
    have := h.hpopped (i+1) (by omega)
    rw [hp] at this
    simp only [List.getElem?_cons_succ] at this
    rw [← this]
    congr 1
    simp only [hc, wrap]
    repeat' split
    all_goals omega

theorem Rep.clear {q : CQ α} {s : Spec α} (h : Rep q s) :
    Rep q.clear { s with items := [], popped := s.items.reverse ++ s.popped } := by
  have h1 := h.he; have h2 := h.hb; have h3 := h.hlen; have h4 := h.hempty; have h5 := h.hpos
  have hc := h.hcap
  have he := h.he_lt
  constructor
  · exact hc
  · exact h5
  · exact he
  · simp; omega
  · simp [CQ.clear, wrap, he]
  · rfl
  · intro i hi; simp at hi
  · intro i hi'
    simp only [List.length_append, List.length_reverse] at hi'
    by_cases hi : i < s.items.length
    · rw [List.getElem?_append_left (by simpa using hi), List.getElem?_reverse hi,
        ← h.hitems _ (by omega)]
      simp only [CQ.clear]
      congr 1
      rw [h1]
      simp only [wrap]
      repeat' split
      all_goals omega
    · rw [List.getElem?_append_right (by simpa using hi), List.length_reverse,
        ← h.hpopped _ (by omega)]
      simp only [CQ.clear]
      congr 1
      rw [h1]
      simp only [wrap]
      repeat' split
      all_goals omega

theorem Rep.step {q : CQ α} {s s' : Spec α} (h : Rep q s) (o : Op α) (hs : s.step o = some s') :
    ∃ q', CircularQueue.step q o = some q' ∧ Rep q' s' := by
  cases o with
  | push x => simp only [Spec.step, Option.some.injEq] at hs; subst hs; exact h.push x
  | pop =>
    simp only [Spec.step] at hs
    cases hi : s.items with
    | nil => simp [hi] at hs
    | cons x xs => simp only [hi, Option.some.injEq] at hs; subst hs; exact h.pop hi
  | putback =>
    simp only [Spec.step] at hs
    cases hi : s.popped with
    | nil => simp [hi] at hs
    | cons x xs =>
      simp only [hi] at hs
      split at hs
      · rename_i hlt
        simp only [Option.some.injEq] at hs; subst hs; exact h.putback hi hlt
      · simp at hs
  | clear =>
    simp only [Spec.step, Option.some.injEq] at hs; subst hs
    exact ⟨_, rfl, h.clear⟩

theorem Rep.run {q : CQ α} {s s' : Spec α} (h : Rep q s) (os : List (Op α)) (hs : s.run os = some s') :
    ∃ q', CircularQueue.run q os = some q' ∧ Rep q' s' := by
  induction os generalizing q s with
  | nil => simp only [Spec.run, Option.some.injEq] at hs; subst hs; exact ⟨q, rfl, h⟩
  | cons o os ih =>
    simp only [Spec.run] at hs
    cases h1 : s.step o with
    | none => simp [h1] at hs
    | some s1 =>
      simp only [h1] at hs
      obtain ⟨q1, hq1, hr⟩ := h.step o h1
      obtain ⟨q2, hq2, hr2⟩ := ih hr hs
      exact ⟨q2, by simp [CircularQueue.run, hq1, hq2], hr2⟩

/-! ### ranges, copy, equality -/

theorem slice_getElem? (l : List α) (f e i : Nat) :
    (slice l f e)[i]? = if i < e - f then l[f + i]? else none := by
  unfold slice
  rw [List.getElem?_take]
  split
  · rw [List.getElem?_drop]
  · rfl

theorem slice_length (l : List α) (f e : Nat) (he : e ≤ l.length) : (slice l f e).length = e - f := by
  unfold slice; simp; omega

theorem Rep.ranges {q : CQ α} {s : Spec α} (h : Rep q s) (hne : s.items ≠ []) :
    q.firstRange ++ q.secondRange = s.items := by
  have h1 := h.he; have h2 := h.hb; have h3 := h.hlen; have h5 := h.hpos
  have hc := h.hcap
  have he := h.he_lt
  have h0 : 0 < s.items.length := List.length_pos_iff.2 hne
  apply List.ext_getElem?
  intro i
  unfold CQ.firstRange CQ.secondRange
  by_cases hbe : q.b < q.e
  · rw [if_pos hbe, if_pos hbe, List.getElem?_append, slice_length _ _ _ (by omega), slice_getElem?,
      slice_getElem?]
    simp only [Nat.sub_self, Nat.not_lt_zero, if_false]
    by_cases hi : i < s.items.length
    · rw [← h.hitems i hi]
      have hh : i < q.e - q.b := by rw [h1]; unfold wrap at *; split <;> split at h1 <;> omega
      rw [if_pos hh, if_pos hh]
      congr 1
      unfold wrap; split <;> omega
    · have hh : ¬ i < q.e - q.b := by unfold wrap at h1; split at h1 <;> omega
      rw [if_neg hh, List.getElem?_eq_none (by omega)]
  · have h1' : q.e + s.cap = q.b + s.items.length := by
      unfold wrap at h1; split at h1 <;> omega
    rw [if_neg hbe, if_neg hbe, List.getElem?_append, slice_length _ _ _ (by omega), slice_getElem?,
      slice_getElem?, hc]
    by_cases hi : i < s.items.length
    · rw [← h.hitems i hi]
      unfold wrap
      by_cases h7 : i < s.cap - q.b
      · rw [if_pos h7, if_pos h7, if_pos (by omega)]
      · rw [if_neg h7, if_pos (show i - (s.cap - q.b) < q.e - 0 by omega),
          if_neg (show ¬ q.b + i < s.cap by omega)]
        congr 1; omega
    · rw [List.getElem?_eq_none (Nat.le_of_not_lt hi), if_neg (by omega), if_neg (by omega)]

theorem copyInto_append (dst : List α) (pos : Nat) (xs ys : List α) :
    copyInto dst pos (xs ++ ys) =
      match copyInto dst pos xs with
      | none => none
      | some (d, p) => copyInto d p ys := by
  induction xs generalizing dst pos with
  | nil => rfl
  | cons x xs ih =>
    simp only [List.cons_append, copyInto]
    split
    · exact ih _ _
    · rfl

theorem copyInto_spec (dst : List α) (pos : Nat) (xs : List α) (h : pos + xs.length ≤ dst.length) :
    copyInto dst pos xs = some (dst.take pos ++ xs ++ dst.drop (pos + xs.length), pos + xs.length) := by
  induction xs generalizing dst pos with
  | nil => simp [copyInto]
  | cons x xs ih =>
    simp only [List.length_cons] at h
    unfold copyInto
    rw [if_pos (by omega), ih _ _ (by simp; omega)]
    have e1 : (dst.set pos x).take (pos + 1) = dst.take pos ++ [x] := by
      rw [List.take_add_one, List.take_set_of_le (by omega), List.getElem?_set_self (by omega)]; rfl
    have e2 : (dst.set pos x).drop (pos + 1 + xs.length) = dst.drop (pos + (x :: xs).length) := by
      rw [List.drop_set_of_lt (by omega)]
      congr 1; simp; omega
    rw [e1, e2]
    simp only [List.append_assoc, List.singleton_append, List.length_cons]
    congr 2
    omega

theorem Rep.copy {q : CQ α} {s : Spec α} (h : Rep q s) (d : α) :
    q.copy d = some ⟨s.items ++ List.replicate (s.cap - s.items.length) d, 0, s.items.length, s.items.isEmpty⟩ := by
  unfold CQ.copy
  rw [h.hempty]
  by_cases hi : s.items = []
  · simp [hi, CQ.capacity, h.hcap]
  · have : s.items.isEmpty = false := by cases hh : s.items <;> simp_all
    rw [this]
    have ha := copyInto_append (List.replicate q.capacity d) 0 q.firstRange q.secondRange
    rw [h.ranges hi, copyInto_spec _ _ _ (by simp [CQ.capacity, h.hcap]; have := h.hlen; omega)] at ha
    simp only [Bool.false_eq_true, if_false]
    cases h1 : copyInto (List.replicate q.capacity d) 0 q.firstRange with
    | none => simp [h1] at ha
    | some p =>
      obtain ⟨bf, e⟩ := p
      simp only [h1] at ha ⊢
      rw [← ha]
      simp [CQ.capacity, h.hcap]

theorem equalWalk_same_len [DecidableEq α] (xs ys : List α) (h : xs.length = ys.length) :
    equalWalk xs ys = some (decide (xs = ys)) := by
  induction xs generalizing ys with
  | nil => cases ys with
    | nil => rfl
    | cons y ys => simp at h
  | cons x xs ih =>
    cases ys with
    | nil => simp at h
    | cons y ys =>
      simp only [List.length_cons, Nat.add_right_cancel_iff] at h
      unfold equalWalk
      split
      · rename_i hxy; rw [ih ys h]; simp [hxy]
      · rename_i hxy; simp [hxy]

theorem Rep.size {q : CQ α} {s : Spec α} (h : Rep q s) : q.size = s.items.length :=
  congrArg Obs.size h.obs

end Verif.CircularQueue
