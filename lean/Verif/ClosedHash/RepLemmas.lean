import Verif.ClosedHash.EraseLemmas

namespace Verif.ClosedHash
open Verif.Ring

variable {α K : Type}
variable {hash : K → Nat} {keq : K → K → Bool} {key : α → K}

/-- largest capacity `allocate` can provide -/
def maxCap : Nat := 2874713497

/-- `s` holds exactly the values `m`, in iteration order -/
def Rep (hash : K → Nat) (keq : K → K → Bool) (key : α → K) (s : CSet α) (m : List α) : Prop :=
  match s with
  | none => m = []
  | some h => h.cap ≤ maxCap ∧ ∃ free gs, Inv hash keq key h free gs ∧ m = (used gs).filterMap h.val

theorem Rep.keys {s : CSet α} {m : List α} (r : Rep hash keq key s m) : m.Pairwise (Diff keq key) := by
  cases s with
  | none => rw [show m = [] from r]; exact List.Pairwise.nil
  | some h => obtain ⟨hmax, free, gs, i, rfl⟩ := r; exact i.keys

theorem Rep.vals {s : CSet α} {m : List α} (r : Rep hash keq key s m) : s.vals = some m := by
  cases s with
  | none => rw [show m = [] from r]; rfl
  | some h => obtain ⟨hmax, free, gs, i, rfl⟩ := r; exact i.vals

theorem Rep.size {s : CSet α} {m : List α} (r : Rep hash keq key s m) : s.size = m.length := by
  cases s with
  | none => rw [show m = [] from r]; rfl
  | some h => obtain ⟨hmax, free, gs, i, rfl⟩ := r; exact i.filterMap_length.symm

theorem Rep.size_le {s : CSet α} {m : List α} (r : Rep hash keq key s m) : s.size ≤ s.capacity := by
  cases s with
  | none => exact Nat.le_refl _
  | some h =>
    obtain ⟨hmax, free, gs, i, rfl⟩ := r
    have := i.size_le
    show h.size ≤ h.cap
    omega

theorem Rep.cap_le {s : CSet α} {m : List α} (r : Rep hash keq key s m) : s.capacity ≤ maxCap := by
  cases s with
  | none => exact Nat.zero_le _
  | some h => exact r.1

theorem rep_none : Rep hash keq key (none : CSet α) [] := rfl

/-! ### lists with distinct keys -/

theorem specFind_some_iff (ok : KeyOk hash keq) {m : List α} (h : m.Pairwise (Diff keq key)) (k : K) (v : α) :
    specFind keq key m k = some v ↔ v ∈ m ∧ keq k (key v) = true := by
  induction m with
  | nil => simp [specFind]
  | cons a m ih =>
    rw [List.pairwise_cons] at h
    have ih := ih h.2
    unfold specFind at ih ⊢
    rw [List.find?_cons]
    cases hk : keq k (key a) with
    | true =>
      simp only [Option.some.injEq, List.mem_cons]
      constructor
      · rintro rfl; exact ⟨Or.inl rfl, hk⟩
      · rintro ⟨rfl | hv, hkv⟩
        · rfl
        · have h1 := h.1 v hv
          have h2 := ok.trans _ _ _ (ok.symm _ _ hk) hkv
          rw [Diff, h2] at h1; cases h1
    | false =>
      simp only [List.mem_cons]
      rw [ih]
      constructor
      · rintro ⟨a, b⟩; exact ⟨Or.inr a, b⟩
      · rintro ⟨rfl | hv, hkv⟩
        · rw [hk] at hkv; cases hkv
        · exact ⟨hv, hkv⟩

theorem specFind_none_iff {m : List α} (k : K) : specFind keq key m k = none ↔ ∀ v ∈ m, keq k (key v) = false := by
  simp [specFind]

theorem specFind_perm (ok : KeyOk hash keq) {m m' : List α} (h : m.Pairwise (Diff keq key)) (p : m.Perm m') (k : K) :
    specFind keq key m k = specFind keq key m' k := by
  have h' := pairwise_perm ok p h
  apply Option.ext
  intro v
  rw [specFind_some_iff ok h, specFind_some_iff ok h', p.mem_iff]

theorem specErase_perm {m m' : List α} (p : m.Perm m') (k : K) : (specErase keq key m k).Perm (specErase keq key m' k) :=
  p.filter _

theorem specInsert_perm {m m' : List α} (p : m.Perm m') (x : α) : (specInsert keq key m x).Perm (specInsert keq key m' x) :=
  (specErase_perm p _).cons x

theorem specErase_self {m : List α} (k : K) (h : ∀ v ∈ m, keq k (key v) = false) : specErase keq key m k = m := by
  unfold specErase
  rw [List.filter_eq_self]
  intro v hv; simp [h v hv]

theorem specErase_cons (ok : KeyOk hash keq) {m : List α} {a : α} (k : K) (h : (a :: m).Pairwise (Diff keq key)) (hk : keq k (key a) = true) :
    specErase keq key (a :: m) k = m := by
  rw [List.pairwise_cons] at h
  unfold specErase
  rw [List.filter_cons, if_neg (by simp [hk])]
  apply specErase_self
  intro v hv
  have h1 := h.1 v hv
  cases hkv : keq k (key v) with
  | false => rfl
  | true =>
    have h2 := ok.trans _ _ _ (ok.symm _ _ hk) hkv
    rw [Diff, h2] at h1; cases h1

theorem specErase_length (m : List α) (k : K) : (specErase keq key m k).length ≤ m.length := List.length_filter_le _ _

/-! ### allocation and growth -/

theorem prime_spec {n : Nat} (h0 : n ≠ 0) (h : n ≤ maxCap) :
    ∃ p, primeTable.find? (fun p => decide (n ≤ p)) = some p ∧ n ≤ p ∧ p ≠ 2 ^ 64 - 1 ∧ p ≤ maxCap := by
  have e0 : primeTable = primeTable.dropLast ++ [2 ^ 64 - 1] := by decide
  have hsome : (primeTable.dropLast.find? (fun p => decide (n ≤ p))).isSome = true := by
    rw [List.find?_isSome]
    exact ⟨maxCap, by decide, by simpa using h⟩
  obtain ⟨p, e⟩ := Option.isSome_iff_exists.1 hsome
  refine ⟨p, by rw [e0, List.find?_append, e]; rfl, by simpa using List.find?_some e, ?_⟩
  have hm := List.mem_of_find?_eq_some e
  have hle : ∀ x ∈ primeTable.dropLast, x ≤ maxCap := by decide
  have hle := hle p hm
  refine ⟨?_, hle⟩
  rintro rfl
  revert hle; decide

theorem allocate_spec {n : Nat} (h : n ≤ maxCap) :
    (n = 0 ∧ (allocate n : Option (Option (Hdr α))) = some none) ∨
      (0 < n ∧ ∃ p, n ≤ p ∧ p ≤ maxCap ∧ (allocate n : Option (Option (Hdr α))) = some (some (freshTable p))) := by
  by_cases h0 : n = 0
  · left; exact ⟨h0, by simp [allocate, h0]⟩
  · right
    obtain ⟨p, e, hp, hne, hmx⟩ := prime_spec h0 h
    refine ⟨by omega, p, hp, hmx, ?_⟩
    unfold allocate
    rw [if_neg h0, e]
    simp only [if_neg hne]

theorem moveInsert_spec (ok : KeyOk hash keq) (xs : List α) {h : Hdr α} {free gs} (i : Inv hash keq key h free gs)
    (hl : h.size + xs.length ≤ h.cap) (hk : (xs ++ (used gs).filterMap h.val).Pairwise (Diff keq key)) :
    ∃ h' free' gs', moveInsert hash keq key h xs = some h' ∧ Inv hash keq key h' free' gs' ∧ h'.cap = h.cap ∧
      ((used gs').filterMap h'.val).Perm (xs ++ (used gs).filterMap h.val) := by
  induction xs generalizing h free gs with
  | nil => exact ⟨h, free, gs, rfl, i, rfl, List.Perm.refl _⟩
  | cons x xs ih =>
    simp only [List.length_cons] at hl
    have hs : h.cap ≠ h.size := by omega
    obtain ⟨h', n, b, free', gs', e, i', hc, _, _, p, _⟩ := i.insertCore ok hs x
    have hx : ∀ v ∈ (used gs).filterMap h.val, keq (key x) (key v) = false := by
      intro v hv
      rw [List.cons_append, List.pairwise_cons] at hk
      exact hk.1 v (by simp [hv])
    have p' : ((used gs').filterMap h'.val).Perm (x :: (used gs).filterMap h.val) := by
      rw [specInsert, specErase_self _ hx] at p; exact p
    have hsz : h'.size = h.size + 1 := by
      rw [← i'.filterMap_length, p'.length_eq, List.length_cons, i.filterMap_length]
    have pp : (xs ++ (used gs').filterMap h'.val).Perm (x :: (xs ++ (used gs).filterMap h.val)) :=
      (p'.append_left xs).trans List.perm_middle
    obtain ⟨h2, f2, g2, e2, i2, c2, p2⟩ := ih i' (by omega) (pairwise_perm ok pp.symm (by simpa using hk))
    refine ⟨h2, f2, g2, ?_, i2, by omega, p2.trans pp⟩
    simp only [moveInsert, if_neg hs, e, e2]

theorem Rep.reserve (ok : KeyOk hash keq) {s : CSet α} {m : List α} (r : Rep hash keq key s m) {n : Nat} (hn : n ≤ maxCap) :
    ∃ s' m', s.reserve hash keq key n = some s' ∧ Rep hash keq key s' m' ∧ m'.Perm m ∧ n ≤ s'.capacity ∧
      s.capacity ≤ s'.capacity := by
  unfold CSet.reserve
  by_cases h : n ≤ s.capacity
  · rw [if_pos h]; exact ⟨s, m, rfl, r, List.Perm.refl _, h, Nat.le_refl _⟩
  rw [if_neg h]
  have hn0 : n ≠ 0 := by omega
  obtain ⟨hh, _⟩ | ⟨_, p, hp, hpm, ea⟩ := allocate_spec (α := α) hn
  · omega
  have fi := fresh_inv (α := α) hash keq key p (by omega)
  have fs := fresh_spec (α := α) p (by omega)
  cases s with
  | none =>
    have hm : m = [] := r
    simp only [ea]
    exact ⟨_, [], rfl, ⟨by rw [fs.2.1]; exact hpm, _, _, fi, rfl⟩, by rw [hm], by show n ≤ (freshTable p : Hdr α).cap; rw [fs.2.1]; exact hp, Nat.zero_le _⟩
  | some hd =>
    have hv : hd.valsFrom (hd.next hd.U) = some m := r.vals
    have hsz := r.size_le
    rw [r.size] at hsz
    have hk := r.keys
    have h : ¬ n ≤ hd.cap := h
    have hsz : m.length ≤ hd.cap := hsz
    obtain ⟨h2, f2, g2, e2, i2, c2, p2⟩ := moveInsert_spec ok m fi (by rw [fs.2.1, fs.2.2.1]; omega) (by simpa using hk)
    simp only [ea, hv, e2]
    refine ⟨some h2, _, rfl, ⟨by rw [c2, fs.2.1]; exact hpm, f2, g2, i2, rfl⟩, by simpa using p2, ?_, ?_⟩
    · show n ≤ h2.cap; rw [c2, fs.2.1]; exact hp
    · show hd.cap ≤ h2.cap; rw [c2, fs.2.1]; omega

theorem Rep.insert (ok : KeyOk hash keq) {s : CSet α} {m : List α} (r : Rep hash keq key s m)
    (hm : s.size < s.capacity ∨ 2 * m.length ≤ maxCap) (x : α) :
    ∃ s' it b m', s.insert hash keq key x = some (s', it, b) ∧ Rep hash keq key s' m' ∧ m'.Perm (specInsert keq key m x) ∧
      s'.deref it = some x ∧ (b = true ↔ ∀ v ∈ m, keq (key x) (key v) = false) ∧ s.capacity ≤ s'.capacity := by
  have core : ∀ (s1 : CSet α) (m1 : List α), Rep hash keq key s1 m1 → m1.Perm m → s1.size < s1.capacity →
      ∃ h, s1 = some h ∧ ∃ h' it b m', h.insertCore hash keq key x = some (h', it, b) ∧ Rep hash keq key (some h') m' ∧
        m'.Perm (specInsert keq key m x) ∧ h'.val it = some x ∧ (b = true ↔ ∀ v ∈ m, keq (key x) (key v) = false) ∧ h'.cap = h.cap := by
    intro s1 m1 r1 p1 hlt
    cases s1 with
    | none => exact absurd hlt (Nat.lt_irrefl _)
    | some h =>
      obtain ⟨hmax, free, gs, i, rfl⟩ := r1
      have hs : h.cap ≠ h.size := Nat.ne_of_gt hlt
      obtain ⟨h', n, b, free', gs', e, i', hc, hv, _, p, hb⟩ := i.insertCore ok hs x
      refine ⟨h, rfl, h', n, b, _, e, ⟨by rw [hc]; exact hmax, free', gs', i', rfl⟩, p.trans (specInsert_perm p1 x), hv, ?_, hc⟩
      rw [hb]
      constructor <;> intro hh v hv
      · exact hh v (p1.mem_iff.2 hv)
      · exact hh v (p1.mem_iff.1 hv)
  have fin : ∀ (s1 : CSet α) (m1 : List α), Rep hash keq key s1 m1 → m1.Perm m → s1.size < s1.capacity → s.capacity ≤ s1.capacity →
      (if s.capacity = s.size then s.reserve hash keq key (if s.size ≠ 0 then 2 * s.size else 3) else some s) = some s1 →
      ∃ s' it b m', s.insert hash keq key x = some (s', it, b) ∧ Rep hash keq key s' m' ∧ m'.Perm (specInsert keq key m x) ∧
        s'.deref it = some x ∧ (b = true ↔ ∀ v ∈ m, keq (key x) (key v) = false) ∧ s.capacity ≤ s'.capacity := by
    intro s1 m1 r1 p1 hlt hle e
    obtain ⟨h, rfl, h', it, b, m', e1, e2, e3, e4, e5, e6⟩ := core s1 m1 r1 p1 hlt
    refine ⟨some h', it, b, m', ?_, e2, e3, e4, e5, by show s.capacity ≤ h'.cap; rw [e6]; exact hle⟩
    simp only [CSet.insert, e, e1, Option.map_some]
  by_cases hc : s.capacity = s.size
  · have hn : (if s.size ≠ 0 then 2 * s.size else 3) ≤ maxCap := by
      rw [r.size]
      split
      · rcases hm with hm | hm
        · omega
        · exact hm
      · decide
    obtain ⟨s', m', e, r', p, h1, h2⟩ := r.reserve ok hn
    refine fin s' m' r' p ?_ h2 (by rw [if_pos hc]; exact e)
    rw [r'.size, p.length_eq]
    rw [r.size] at h1
    split at h1 <;> omega
  · refine fin s m r (List.Perm.refl _) ?_ (Nat.le_refl _) (by rw [if_neg hc])
    have := r.size_le
    omega

theorem Rep.find (ok : KeyOk hash keq) {s : CSet α} {m : List α} (r : Rep hash keq key s m) (k : K) :
    ∃ it, s.find hash keq key k = some it ∧
      ((it = s.end_ ∧ specFind keq key m k = none) ∨
       (it ≠ s.end_ ∧ ∃ v, s.deref it = some v ∧ specFind keq key m k = some v)) := by
  cases s with
  | none =>
    rw [show m = [] from r]
    exact ⟨0, rfl, Or.inl ⟨rfl, rfl⟩⟩
  | some h =>
    obtain ⟨hmax, free, gs, i, rfl⟩ := r
    obtain ⟨it, e, h1 | ⟨h1, v, hv, hk⟩⟩ := i.find_spec ok k
    · refine ⟨it, e, Or.inl ⟨h1.1, ?_⟩⟩
      rw [specFind_none_iff]
      intro v hv
      obtain ⟨n, hn, hnv⟩ := List.mem_filterMap.1 hv
      exact h1.2 n hn v hnv
    · refine ⟨it, e, Or.inr ⟨?_, v, hv, ?_⟩⟩
      · rintro rfl; exact (List.nodup_cons.1 i.r.ndU).1 h1
      · rw [specFind_some_iff ok i.keys]
        exact ⟨List.mem_filterMap.2 ⟨it, h1, hv⟩, hk⟩

/-- a position in the set: a valid iterator and what lies before and after it -/
def At (hash : K → Nat) (keq : K → K → Bool) (key : α → K) (s : CSet α) (pre : List α) (it : Nat) (post : List α) : Prop :=
  match s with
  | none => pre = [] ∧ post = [] ∧ it = 0
  | some h => h.cap ≤ maxCap ∧ ∃ free gs A B, Inv hash keq key h free gs ∧ used gs = A ++ B ∧ it = firstOf B h.U ∧
      pre = A.filterMap h.val ∧ post = B.filterMap h.val

theorem At.rep {s : CSet α} {pre post it} (a : At hash keq key s pre it post) : Rep hash keq key s (pre ++ post) := by
  cases s with
  | none => obtain ⟨rfl, rfl, _⟩ := a; rfl
  | some h =>
    obtain ⟨hmax, free, gs, A, B, i, e, _, rfl, rfl⟩ := a
    exact ⟨hmax, free, gs, i, by rw [e, List.filterMap_append]⟩

theorem At.valsFrom {s : CSet α} {pre post it} (a : At hash keq key s pre it post) : s.valsFrom it = some post := by
  cases s with
  | none => obtain ⟨rfl, rfl, rfl⟩ := a; rfl
  | some h =>
    obtain ⟨hmax, free, gs, A, B, i, e, rfl, rfl, rfl⟩ := a
    exact i.valsFrom e

theorem Rep.begin {s : CSet α} {m : List α} (r : Rep hash keq key s m) : At hash keq key s [] s.begin m := by
  cases s with
  | none => rw [show m = [] from r]; exact ⟨rfl, rfl, rfl⟩
  | some h =>
    obtain ⟨hmax, free, gs, i, rfl⟩ := r
    exact ⟨hmax, free, gs, [], used gs, i, rfl, (ring_ends i.r.ru).1, rfl, rfl⟩

theorem At.cons {s : CSet α} {pre post it} {v : α} (a : At hash keq key s pre it (v :: post)) :
    ∃ h free gs A B, s = some h ∧ h.cap ≤ maxCap ∧ Inv hash keq key h free gs ∧ used gs = A ++ it :: B ∧ h.val it = some v ∧
      pre = A.filterMap h.val ∧ post = B.filterMap h.val := by
  cases s with
  | none => obtain ⟨_, h, _⟩ := a; cases h
  | some h =>
    obtain ⟨hmax, free, gs, A, B, i, e, rfl, rfl, hp⟩ := a
    cases B with
    | nil => cases hp
    | cons b B =>
      obtain ⟨w, hw⟩ := i.used_val b (by rw [e]; simp)
      rw [List.filterMap_cons_some hw] at hp
      cases hp
      exact ⟨h, free, gs, A, B, rfl, hmax, i, e, hw, rfl, rfl⟩

theorem At.deref {s : CSet α} {pre post it} {v : α} (a : At hash keq key s pre it (v :: post)) : s.deref it = some v := by
  obtain ⟨h, free, gs, A, B, rfl, hmax, i, e, hv, rfl, rfl⟩ := a.cons
  exact hv

theorem At.next {s : CSet α} {pre post it} {v : α} (a : At hash keq key s pre it (v :: post)) :
    ∃ h, s = some h ∧ At hash keq key s (pre ++ [v]) (h.next it) post := by
  obtain ⟨h, free, gs, A, B, rfl, hmax, i, e, hv, rfl, rfl⟩ := a.cons
  refine ⟨h, rfl, hmax, free, gs, A ++ [it], B, i, by simpa using e, ?_, ?_, rfl⟩
  · have := i.r.ru
    rw [e] at this
    exact (ring_mid this).2
  · rw [List.filterMap_append, List.filterMap_cons_some hv]; rfl

theorem At.end_iff {s : CSet α} {pre post it} (a : At hash keq key s pre it post) : it = s.end_ ↔ post = [] := by
  cases s with
  | none => obtain ⟨rfl, rfl, rfl⟩ := a; simp [CSet.end_]
  | some h =>
    cases post with
    | nil =>
      obtain ⟨hmax, free, gs, A, B, i, e, rfl, rfl, hp⟩ := a
      cases B with
      | nil => simp [CSet.end_]
      | cons b B =>
        obtain ⟨w, hw⟩ := i.used_val b (by rw [e]; simp)
        rw [List.filterMap_cons_some hw] at hp; cases hp
    | cons v post =>
      obtain ⟨h', free, gs, A, B, hh, hmax, i, e, hv, rfl, rfl⟩ := a.cons
      cases hh
      simp only [reduceCtorEq, iff_false]
      rintro rfl
      apply (List.nodup_cons.1 i.r.ndU).1
      rw [e]; simp [CSet.end_]

theorem At.erase (ok : KeyOk hash keq) {s : CSet α} {pre post it} {v : α} (a : At hash keq key s pre it (v :: post)) :
    ∃ s' it', s.eraseIt it = some (s', it') ∧ At hash keq key s' pre it' post ∧ s'.capacity = s.capacity := by
  obtain ⟨h, free, gs, A, B, rfl, hmax, i, e, hv, rfl, rfl⟩ := a.cons
  obtain ⟨h', it', free', gs', B', e1, i', hc, e2, e3, e4, e5⟩ := i.erase ok e
  refine ⟨some h', it', by simp [CSet.eraseIt, e1], ⟨by omega, free', gs', A, B', i', e2, ?_, e4.symm, e5.symm⟩, hc⟩
  rw [e3]; simp [Hdr.U, hc]

theorem Rep.advance {s : CSet α} {m : List α} (r : Rep hash keq key s m) (n : Nat) (hn : n ≤ m.length) :
    At hash keq key s (m.take n) (s.advance n) (m.drop n) := by
  induction n with
  | zero => rw [List.take_zero, List.drop_zero]; exact r.begin
  | succ n ih =>
    have a := ih (by omega)
    have hd : m.drop n = m[n]'(by omega) :: m.drop (n + 1) := List.drop_eq_getElem_cons (by omega)
    rw [hd] at a
    obtain ⟨h, rfl, a'⟩ := a.next
    have : m.take (n + 1) = m.take n ++ [m[n]'(by omega)] := by
      rw [List.take_add_one, List.getElem?_eq_getElem (by omega)]; rfl
    rw [this]
    exact a'

theorem Rep.at_of_deref {s : CSet α} {m : List α} (ok : KeyOk hash keq) (r : Rep hash keq key s m) {k : K} {v : α} {it : Nat}
    (hf : s.find hash keq key k = some it) (he : it ≠ s.end_) (hv : s.deref it = some v) :
    ∃ pre post, m = pre ++ v :: post ∧ At hash keq key s pre it (v :: post) := by
  cases s with
  | none => cases hv
  | some h =>
    obtain ⟨hmax, free, gs, i, rfl⟩ := r
    obtain ⟨it', e, h1 | ⟨h1, w, hw, hk⟩⟩ := i.find_spec ok k
    · rw [hf] at e; cases e
      exact absurd h1.1 he
    · rw [hf] at e; cases e
      have hw : h.val it = some v := hv
      obtain ⟨A, B, e⟩ := List.append_of_mem h1
      refine ⟨A.filterMap h.val, B.filterMap h.val, ?_, hmax, free, gs, A, it :: B, i, e, rfl, rfl, ?_⟩
      · rw [e, List.filterMap_append, List.filterMap_cons_some hw]
      · rw [List.filterMap_cons_some hw]

theorem Rep.eraseKey (ok : KeyOk hash keq) {s : CSet α} {m : List α} (r : Rep hash keq key s m) (k : K) :
    ∃ s' m', s.eraseKey hash keq key k = some (s', if (specFind keq key m k).isSome then 1 else 0) ∧ Rep hash keq key s' m' ∧
      m' = specErase keq key m k := by
  obtain ⟨it, e, ⟨h1, h2⟩ | ⟨h1, v, hv, hf⟩⟩ := r.find ok k
  · refine ⟨s, m, ?_, r, ?_⟩
    · simp [CSet.eraseKey, e, h1, h2]
    · rw [specErase_self _ (specFind_none_iff k |>.1 h2)]
  · obtain ⟨pre, post, rfl, a⟩ := r.at_of_deref ok e h1 hv
    obtain ⟨s', it', e', a', _⟩ := a.erase ok
    refine ⟨s', _, ?_, a'.rep, ?_⟩
    · simp [CSet.eraseKey, e, h1, e', hf]
    · have hk := ((specFind_some_iff ok r.keys k v).1 hf).2
      have kk := r.keys
      have hd : ∀ w, w ∈ pre ++ post → keq k (key w) = false := by
        intro w hw
        have pk := pairwise_perm ok (List.perm_middle (l₁ := pre) (l₂ := post) (a := v)) kk
        rw [List.pairwise_cons] at pk
        have h1 := pk.1 w hw
        cases hkw : keq k (key w) with
        | false => rfl
        | true =>
          have h2 := ok.trans _ _ _ (ok.symm _ _ hk) hkw
          rw [Diff, h2] at h1; cases h1
      unfold specErase
      rw [List.filter_append, List.filter_cons, if_neg (by simp [hk]), ← List.filter_append, eq_comm, List.filter_eq_self]
      intro w hw; simp [hd w hw]

theorem At.clearLoop (ok : KeyOk hash keq) (post : List α) {s : CSet α} {pre it} (a : At hash keq key s pre it post) :
    ∃ s', s.clearLoop post.length it = some s' ∧ Rep hash keq key s' pre ∧ s'.capacity = s.capacity := by
  induction post generalizing s it with
  | nil =>
    refine ⟨s, ?_, by simpa using a.rep, rfl⟩
    simp [CSet.clearLoop, a.end_iff]
  | cons v post ih =>
    obtain ⟨s', it', e, a', hc⟩ := a.erase ok
    obtain ⟨s2, e2, r2, c2⟩ := ih a'
    refine ⟨s2, ?_, r2, by omega⟩
    have : it ≠ s.end_ := by rw [Ne, a.end_iff]; simp
    simp only [List.length_cons, CSet.clearLoop, if_neg this, e, e2]

theorem Rep.clear (ok : KeyOk hash keq) {s : CSet α} {m : List α} (r : Rep hash keq key s m) :
    ∃ s', s.clear = some s' ∧ Rep hash keq key s' [] ∧ s'.capacity = s.capacity := by
  unfold CSet.clear
  rw [r.size]
  exact r.begin.clearLoop ok m

theorem Rep.insertAll (ok : KeyOk hash keq) (xs : List α) {s : CSet α} {m : List α} (r : Rep hash keq key s m)
    (hm : m.length + xs.length ≤ s.capacity) :
    ∃ s' m', s.insertAll hash keq key xs = some s' ∧ Rep hash keq key s' m' ∧ m'.Perm (xs.foldl (specInsert keq key) m) := by
  induction xs generalizing s m with
  | nil => exact ⟨s, m, rfl, r, List.Perm.refl _⟩
  | cons x xs ih =>
    simp only [List.length_cons] at hm
    obtain ⟨s1, it, b, m1, e1, r1, p1, _, _, hc⟩ := r.insert ok (Or.inl (by rw [r.size]; omega)) x
    have hl : m1.length ≤ m.length + 1 := by
      rw [p1.length_eq, specInsert, List.length_cons]
      have := specErase_length (keq := keq) (key := key) m (key x)
      omega
    obtain ⟨s2, m2, e2, r2, p2⟩ := ih r1 (by omega)
    refine ⟨s2, m2, by simp only [CSet.insertAll, e1, e2], r2, p2.trans ?_⟩
    rw [List.foldl_cons]
    have : ∀ (ys : List α) (a b : List α), a.Perm b → (ys.foldl (specInsert keq key) a).Perm (ys.foldl (specInsert keq key) b) := by
      intro ys
      induction ys with
      | nil => intro a b p; exact p
      | cons y ys ih => intro a b p; exact ih _ _ (specInsert_perm p y)
    exact this _ _ _ p1

theorem foldl_specInsert (ok : KeyOk hash keq) (xs : List α) (m : List α) (h : (xs ++ m).Pairwise (Diff keq key)) :
    (xs.foldl (specInsert keq key) m).Perm (xs ++ m) := by
  induction xs generalizing m with
  | nil => exact List.Perm.refl _
  | cons x xs ih =>
    have hx : ∀ v ∈ m, keq (key x) (key v) = false := by
      intro v hv
      rw [List.cons_append, List.pairwise_cons] at h
      exact h.1 v (by simp [hv])
    rw [List.foldl_cons, specInsert, specErase_self _ hx]
    have pp : (xs ++ x :: m).Perm (x :: (xs ++ m)) := List.perm_middle
    exact (ih _ (pairwise_perm ok pp.symm (by simpa using h))).trans pp

theorem Rep.copy (ok : KeyOk hash keq) {s : CSet α} {m : List α} (r : Rep hash keq key s m) :
    ∃ s' m', s.copy hash keq key = some s' ∧ Rep hash keq key s' m' ∧ m'.Perm m := by
  have fr : ∃ t : CSet α, (allocate s.size : Option (CSet α)) = some t ∧ Rep hash keq key t [] ∧ s.size ≤ t.capacity := by
    obtain ⟨h0, e⟩ | ⟨h0, p, hp, hpm, e⟩ := allocate_spec (α := α) (n := s.size) (Nat.le_trans r.size_le r.cap_le)
    · exact ⟨none, e, rfl, by omega⟩
    · have fs := fresh_spec (α := α) p (by omega)
      exact ⟨_, e, ⟨by rw [fs.2.1]; exact hpm, _, _, fresh_inv hash keq key p (by omega), rfl⟩,
        by show s.size ≤ (freshTable p : Hdr α).cap; rw [fs.2.1]; exact hp⟩
  obtain ⟨t, e, rt, hcap⟩ := fr
  obtain ⟨s', m', e', r', p'⟩ := rt.insertAll ok m (by rw [r.size] at hcap; simpa using hcap)
  refine ⟨s', m', ?_, r', p'.trans ?_⟩
  · unfold CSet.copy
    rw [show (allocate s.size : Option (Option (Hdr α))) = some t from e]
    simp only [r.vals]; exact e'
  · simpa using foldl_specInsert ok m [] (by simpa using r.keys)

theorem Rep.index (ok : KeyOk hash keq) {s : CSet α} {m : List α} (r : Rep hash keq key s m) (d : α)
    (hm : specFind keq key m (key d) = none → s.size < s.capacity ∨ 2 * m.length ≤ maxCap) :
    ∃ s' it m' v, s.index hash keq key d = some (s', it) ∧ s'.deref it = some v ∧ Rep hash keq key s' m' ∧
      ((specFind keq key m (key d) = some v ∧ m' = m) ∨
       (specFind keq key m (key d) = none ∧ v = d ∧ m'.Perm (d :: m))) := by
  obtain ⟨it, e, ⟨h1, h2⟩ | ⟨h1, v, hv, hf⟩⟩ := r.find ok (key d)
  · obtain ⟨s', it', b, m', e', r', p, hd, _⟩ := r.insert ok (hm h2) d
    refine ⟨s', it', m', d, ?_, hd, r', Or.inr ⟨h2, rfl, ?_⟩⟩
    · simp [CSet.index, e, h1, e']
    · rw [specInsert, specErase_self _ (specFind_none_iff (key d) |>.1 h2)] at p; exact p
  · exact ⟨s, it, m, v, by simp [CSet.index, e, h1], hv, r, Or.inl ⟨hf, rfl⟩⟩

end Verif.ClosedHash
