import Verif.ClosedHash.RepLemmas
import Mathlib.Data.List.Perm.Subperm
/-
Properties C07–C10 and C40 of adobe/closed_hash.hpp.
-/
namespace Verif.ClosedHash
open Verif.Ring

variable {α K : Type}
variable {hash : K → Nat} {keq : K → K → Bool} {key : α → K}

/-- `o` asks the set `s` for a capacity above the largest usable entry of the prime table (2874713497 nodes). -/
def TooBig (hash : K → Nat) (keq : K → K → Bool) (key : α → K) (s : CSet α) : Op α K → Prop
  | .reserve n => 2874713497 < n
  | .insert _ => s.capacity = s.size ∧ 2874713497 < 2 * s.size
  | .index d => s.count hash keq key (key d) = some 0 ∧ s.capacity = s.size ∧ 2874713497 < 2 * s.size
  | _ => False

/-! ### one step -/

theorem reserve_huge (n : Nat) (h : maxCap < n) (s : CSet α) (hs : s.capacity ≤ maxCap) : s.reserve hash keq key n = none := by
  have e : primeTable.find? (fun p => decide (n ≤ p)) = none ∨ primeTable.find? (fun p => decide (n ≤ p)) = some (2 ^ 64 - 1) := by
    have e0 : primeTable = primeTable.dropLast ++ [2 ^ 64 - 1] := by decide
    have hnone : primeTable.dropLast.find? (fun p => decide (n ≤ p)) = none := by
      rw [List.find?_eq_none]
      have : ∀ x ∈ primeTable.dropLast, x ≤ maxCap := by decide
      intro x hx
      have := this x hx
      simp; omega
    rw [e0, List.find?_append, hnone]
    simp only [Option.none_or, List.find?_cons, List.find?_nil]
    split <;> simp
  have ea : (allocate n : Option (Option (Hdr α))) = none := by
    unfold allocate
    rw [if_neg (by omega)]
    rcases e with e | e <;> rw [e]
    simp
  unfold CSet.reserve
  rw [if_neg (by omega)]
  cases s with
  | none => simp only [ea]
  | some h => simp only [ea]

theorem tooBig_fails (ok : KeyOk hash keq) {s : CSet α} {m : List α} (r : Rep hash keq key s m) (o : Op α K)
    (h : TooBig hash keq key s o) : step hash keq key s o = none := by
  have hins : ∀ x : α, s.capacity = s.size ∧ 2874713497 < 2 * s.size → s.insert hash keq key x = none := by
    rintro x ⟨h1, h2⟩
    have hne : s.size ≠ 0 := by omega
    simp only [CSet.insert, if_pos h1, if_pos hne, reserve_huge (2 * s.size) h2 s r.cap_le]
  cases o with
  | reserve n => simp only [step, reserve_huge n h s r.cap_le, Option.map_none]
  | insert x => simp only [step, hins x h]
  | index d =>
    obtain ⟨it, e, h1, h2⟩ : ∃ it, s.find hash keq key (key d) = some it ∧ it = s.end_ ∧ True := by
      have h0 := h.1
      obtain ⟨it, e, ⟨h1, h2⟩ | ⟨h1, v, hv, hf⟩⟩ := r.find ok (key d)
      · exact ⟨it, e, h1, trivial⟩
      · simp [CSet.count, e, h1] at h0
    simp only [step, CSet.index, e, if_pos h1, hins d h.2, Option.map_none]
  | _ => exact h.elim

theorem step_spec (ok : KeyOk hash keq) {s : CSet α} {m : List α} (r : Rep hash keq key s m)
    (o : Op α K) (ho : ¬ TooBig hash keq key s o) :
    ∃ s' out m', step hash keq key s o = some (s', out) ∧ Rep hash keq key s' m' ∧ SpecStep keq key m o out m' := by
  have room : ¬ (s.capacity = s.size ∧ 2874713497 < 2 * s.size) → s.size < s.capacity ∨ 2 * m.length ≤ maxCap := by
    intro hh
    have := r.size_le
    rw [← r.size]
    show _ ∨ _ ≤ 2874713497
    omega
  cases o with
  | insert x =>
    obtain ⟨s', it, b, m', e, r', p, hd, hb, _⟩ := r.insert ok (room ho) x
    refine ⟨s', _, m', by simp only [step, e, hd, Option.map_some]; rfl, r', ⟨?_, p⟩⟩
    · congr 1
      rw [Bool.eq_iff_iff, hb, Option.isNone_iff_eq_none, specFind_none_iff]
  | find k =>
    obtain ⟨it, e, ⟨h1, h2⟩ | ⟨h1, v, hv, hf⟩⟩ := r.find ok k
    · exact ⟨s, _, m, by simp only [step, e, if_pos h1]; rfl, r, ⟨by rw [h2], List.Perm.refl _⟩⟩
    · exact ⟨s, _, m, by simp only [step, e, if_neg h1, hv, Option.map_some]; rfl, r, ⟨by rw [hf], List.Perm.refl _⟩⟩
  | eraseKey k =>
    obtain ⟨s', m', e, r', p⟩ := r.eraseKey ok k
    refine ⟨s', _, m', by simp only [step, e, Option.map_some], r', ⟨rfl, by rw [p]⟩⟩
  | eraseNth i =>
    by_cases hi : i < m.length
    · have a := r.advance i (by omega)
      rw [List.drop_eq_getElem_cons hi] at a
      obtain ⟨s', it', e, a', _⟩ := a.erase ok
      have hp : m.Perm (m[i] :: (m.take i ++ m.drop (i + 1))) := by
        have := List.perm_middle (l₁ := m.take i) (l₂ := m.drop (i + 1)) (a := m[i])
        rw [← List.drop_eq_getElem_cons hi, List.take_append_drop] at this
        exact this
      refine ⟨s', _, _, ?_, a'.rep, Or.inl ⟨hi, m[i], rfl, hp⟩⟩
      simp only [step, r.size, if_pos hi, a.deref, e, Option.map_some]
    · exact ⟨s, _, m, by simp only [step, r.size, if_neg hi], r, Or.inr ⟨Nat.le_of_not_lt hi, rfl, List.Perm.refl _⟩⟩
  | index d =>
    have count0 : specFind keq key m (key d) = none → s.count hash keq key (key d) = some 0 := by
      intro hn
      obtain ⟨it, e, ⟨h1, h2⟩ | ⟨h1, v, hv, hf⟩⟩ := r.find ok (key d)
      · simp [CSet.count, e, h1]
      · rw [hn] at hf; cases hf
    obtain ⟨s', it, m', v, e, hd, r', h | h⟩ := r.index ok d (fun hn => room (fun hh => ho ⟨count0 hn, hh⟩))
    · exact ⟨s', _, m', by simp only [step, e, hd, Option.map_some], r', Or.inl ⟨v, h.1, rfl, by rw [h.2]⟩⟩
    · exact ⟨s', _, m', by simp only [step, e, hd, Option.map_some]; rfl, r', Or.inr ⟨h.1, by rw [h.2.1], h.2.2⟩⟩
  | clear =>
    obtain ⟨s', e, r', _⟩ := r.clear ok
    exact ⟨s', _, [], by simp only [step, e, Option.map_some], r', ⟨rfl, rfl⟩⟩
  | reserve n =>
    obtain ⟨s', m', e, r', p, _, _⟩ := r.reserve ok (Nat.le_of_not_lt ho)
    exact ⟨s', _, m', by simp only [step, e, Option.map_some], r', ⟨rfl, p⟩⟩
  | copy =>
    obtain ⟨s', m', e, r', p⟩ := r.copy ok
    exact ⟨s', _, m', by simp only [step, e, Option.map_some], r', ⟨rfl, p⟩⟩
  | size =>
    exact ⟨s, _, m, rfl, r, ⟨by rw [r.size], List.Perm.refl _⟩⟩
  | iterate =>
    exact ⟨s, _, m, by simp only [step, r.vals, Option.map_some], r, ⟨m, rfl, List.Perm.refl _, List.Perm.refl _⟩⟩

theorem run_spec (ok : KeyOk hash keq) (ops : List (Op α K)) {s : CSet α} {m : List α} (r : Rep hash keq key s m) :
    (∃ s' outs m', run hash keq key s ops = some (s', outs) ∧ Rep hash keq key s' m' ∧ SpecRun keq key m ops outs m') ∨
    (run hash keq key s ops = none ∧ ∃ p o rest s' outs, ops = p ++ o :: rest ∧ run hash keq key s p = some (s', outs) ∧
      TooBig hash keq key s' o) := by
  induction ops generalizing s m with
  | nil => exact Or.inl ⟨s, [], m, rfl, r, .nil m⟩
  | cons o os ih =>
    by_cases hb : TooBig hash keq key s o
    · exact Or.inr ⟨by simp only [run, tooBig_fails ok r o hb], [], o, os, s, [], rfl, rfl, hb⟩
    obtain ⟨s1, out, m1, e1, r1, sp⟩ := step_spec ok r o hb
    rcases ih r1 with ⟨s2, outs, m2, e2, r2, sp2⟩ | ⟨en, p, o', rest, s', outs, e2, e3, hb'⟩
    · exact Or.inl ⟨s2, out :: outs, m2, by simp only [run, e1, e2, Option.map_some], r2, .cons sp sp2⟩
    · exact Or.inr ⟨by simp only [run, e1, en, Option.map_none], o :: p, o', rest, s', out :: outs, by rw [e2]; rfl,
        by simp only [run, e1, e3, Option.map_some], hb'⟩

theorem reach (ok : KeyOk hash keq) {ops : List (Op α K)} {s : CSet α} {outs}
    (h : run hash keq key none ops = some (s, outs)) :
    ∃ m, Rep hash keq key s m ∧ SpecRun keq key [] ops outs m := by
  rcases run_spec ok ops (rep_none (hash := hash) (keq := keq) (key := key)) with ⟨s', outs', m', e, r, sp⟩ | ⟨en, _⟩
  · rw [h] at e; cases e
    exact ⟨m', r, sp⟩
  · rw [h] at en; cases en

/-! ### C07 -/

/-- C07: every history, of any length, runs to completion (no undefined behaviour, no endless loop), unless it arrives at an
    operation that needs more than 2874713497 nodes (the largest usable entry of the prime table). -/
theorem C07_no_failure (ok : KeyOk hash keq) (ops : List (Op α K)) :
    (∃ s outs, run hash keq key none ops = some (s, outs)) ∨
    (∃ p o rest s outs, ops = p ++ o :: rest ∧ run hash keq key none p = some (s, outs) ∧ TooBig hash keq key s o) := by
  rcases run_spec ok ops (rep_none (hash := hash) (keq := keq) (key := key)) with ⟨s', outs', m', e, r, sp⟩ | ⟨en, hh⟩
  · exact Or.inl ⟨s', outs', e⟩
  · exact Or.inr hh

theorem step_length (ok : KeyOk hash keq) {m m' : List α} {o : Op α K} {r : Out α} (s : SpecStep keq key m o r m') :
    m'.length ≤ m.length + 1 := by
  have hE := fun k => specErase_length (keq := keq) (key := key) m k
  cases o with
  | insert x => have := hE (key x); rw [s.2.length_eq, specInsert, List.length_cons]; omega
  | find k => rw [s.2.length_eq]; omega
  | eraseKey k => have := hE k; rw [s.2.length_eq]; omega
  | eraseNth i =>
    rcases s with ⟨_, v, _, p⟩ | ⟨_, _, p⟩
    · have := p.length_eq; simp only [List.length_cons] at this; omega
    · rw [p.length_eq]; omega
  | index d =>
    rcases s with ⟨v, _, _, p⟩ | ⟨_, _, p⟩
    · rw [p.length_eq]; omega
    · rw [p.length_eq, List.length_cons]; omega
  | clear => rw [s.2]; simp
  | reserve n => rw [s.2.length_eq]; omega
  | copy => rw [s.2.length_eq]; omega
  | size => rw [s.2.length_eq]; omega
  | iterate => obtain ⟨vs, _, _, p⟩ := s; rw [p.length_eq]; omega

theorem specRun_length (ok : KeyOk hash keq) {m m' : List α} {ops : List (Op α K)} {rs : List (Out α)}
    (s : SpecRun keq key m ops rs m') : m'.length ≤ m.length + ops.length := by
  induction s with
  | nil => simp
  | cons s1 _ ih =>
    have := step_length ok s1
    simp only [List.length_cons]; omega

/-- C07: in particular, with no huge `reserve`, the first 1437356748 operations of any history cannot fail. -/
theorem C07_no_failure_short (ok : KeyOk hash keq) (ops : List (Op α K)) (hl : 2 * ops.length ≤ 2874713497)
    (hr : ∀ n, Op.reserve n ∈ ops → n ≤ 2874713497) : ∃ s outs, run hash keq key none ops = some (s, outs) := by
  rcases C07_no_failure (key := key) ok ops with h | ⟨p, o, rest, s, outs, e, hrun, hb⟩
  · exact h
  · exfalso
    obtain ⟨m, r, sp⟩ := reach ok hrun
    have hl2 := specRun_length ok sp
    have hp : p.length ≤ ops.length := by rw [e]; simp
    have hs : s.size ≤ ops.length := by rw [r.size]; simp at hl2; omega
    cases o with
    | reserve n =>
      have := hr n (by rw [e]; simp)
      have hb : 2874713497 < n := hb
      omega
    | insert x => have := hb.2; omega
    | index d => have := hb.2.2; omega
    | _ => exact hb

/-- C07: all results of every history are those of a container with unique keys, whatever the hash function does. -/
theorem C07_history (ok : KeyOk hash keq) {ops : List (Op α K)} {s : CSet α} {outs}
    (h : run hash keq key none ops = some (s, outs)) :
    ∃ m, SpecRun keq key [] ops outs m ∧ s.size = m.length ∧ ∃ vs, s.vals = some vs ∧ vs.Perm m := by
  obtain ⟨m, r, sp⟩ := reach ok h
  exact ⟨m, sp, r.size, m, r.vals, List.Perm.refl _⟩

theorem specRun_keys (ok : KeyOk hash keq) {m m' : List α} {o : Op α K} {r : Out α} (h : m.Pairwise (Diff keq key))
    (s : SpecStep keq key m o r m') : m'.Pairwise (Diff keq key) ∧
      ∀ k, specFind keq key m' k = track keq key k (specFind keq key m k) o r := by
  have hE : ∀ k', (specErase keq key m k').Pairwise (Diff keq key) := fun k' => h.filter _
  have hfE : ∀ k' k, specFind keq key (specErase keq key m k') k = if keq k k' then none else specFind keq key m k := by
    intro k' k
    apply Option.ext
    intro v
    rw [specFind_some_iff ok (hE k')]
    unfold specErase
    rw [List.mem_filter]
    by_cases hk : keq k k' = true
    · rw [if_pos hk]
      simp only [reduceCtorEq, iff_false]
      rintro ⟨⟨_, h1⟩, h2⟩
      rw [ok.trans _ _ _ (ok.symm _ _ hk) h2] at h1; cases h1
    · rw [if_neg hk, specFind_some_iff ok h]
      constructor
      · rintro ⟨⟨a, _⟩, b⟩; exact ⟨a, b⟩
      · rintro ⟨a, b⟩
        refine ⟨⟨a, ?_⟩, b⟩
        cases hq : keq k' (key v) with
        | false => rfl
        | true => exact absurd (ok.trans _ _ _ b (ok.symm _ _ hq)) hk
  have same : ∀ m', m'.Perm m → m'.Pairwise (Diff keq key) ∧ ∀ k, specFind keq key m' k = specFind keq key m k :=
    fun m' p => ⟨pairwise_perm ok p.symm h, fun k => (specFind_perm ok h p.symm k).symm⟩
  have hcons : ∀ (x : α) (l : List α), l.Pairwise (Diff keq key) → (∀ v ∈ l, keq (key x) (key v) = false) →
      (x :: l).Pairwise (Diff keq key) := fun x l hl hx => List.pairwise_cons.2 ⟨hx, hl⟩
  have fcons : ∀ (x : α) (l : List α) (k : K), specFind keq key (x :: l) k = if keq k (key x) then some x else specFind keq key l k := by
    intro x l k; unfold specFind; rw [List.find?_cons]; cases keq k (key x) <;> rfl
  cases o with
  | insert x =>
    obtain ⟨rfl, p⟩ := s
    have hI : (specInsert keq key m x).Pairwise (Diff keq key) := by
      refine hcons x _ (hE _) ?_
      intro v hv
      unfold specErase at hv
      rw [List.mem_filter] at hv
      simpa using hv.2
    refine ⟨pairwise_perm ok p.symm hI, fun k => ?_⟩
    rw [← specFind_perm ok hI p.symm k, specInsert, fcons, hfE]
    simp only [track]
    split <;> simp_all
  | find k => exact ⟨(same m' s.2).1, fun k' => by rw [(same m' s.2).2]; rfl⟩
  | eraseKey k =>
    obtain ⟨rfl, p⟩ := s
    exact ⟨pairwise_perm ok p.symm (hE k), fun k' => by rw [← specFind_perm ok (hE k) p.symm k', hfE]; rfl⟩
  | eraseNth i =>
    rcases s with ⟨hi, v, rfl, p⟩ | ⟨hi, rfl, p⟩
    · have h' := pairwise_perm ok p h
      have h'' := (List.pairwise_cons.1 h')
      refine ⟨h''.2, fun k => ?_⟩
      rw [specFind_perm ok h p k, fcons]
      simp only [track]
      by_cases hk : keq k (key v) = true
      · rw [if_pos hk, specFind_none_iff]
        intro w hw
        cases hq : keq k (key w) with
        | false => rfl
        | true =>
          have := h''.1 w hw
          rw [Diff, ok.trans _ _ _ (ok.symm _ _ hk) hq] at this; cases this
      · rw [if_neg hk, if_neg hk]
    · exact ⟨(same m' p).1, fun k' => by rw [(same m' p).2]; rfl⟩
  | index d =>
    rcases s with ⟨v, hv, rfl, p⟩ | ⟨hn, rfl, p⟩
    · refine ⟨(same m' p).1, fun k => ?_⟩
      rw [(same m' p).2]
      simp only [track]
      split
      · rename_i hk
        have hh := (specFind_some_iff ok h _ _).1 hv
        have : specFind keq key m k = some v := (specFind_some_iff ok h _ _).2 ⟨hh.1, ok.trans _ _ _ hk hh.2⟩
        rw [this]; rfl
      · rfl
    · have hI : (d :: m).Pairwise (Diff keq key) := hcons d m h (specFind_none_iff (key d) |>.1 hn)
      refine ⟨pairwise_perm ok p.symm hI, fun k => ?_⟩
      rw [← specFind_perm ok hI p.symm k, fcons]
      simp only [track]
      split
      · rename_i hk
        have : specFind keq key m k = none := by
          rw [specFind_none_iff] at hn ⊢
          intro v hv
          cases hq : keq k (key v) with
          | false => rfl
          | true => have := hn v hv; rw [ok.trans _ _ _ (ok.symm _ _ hk) hq] at this; cases this
        rw [this]; rfl
      · rfl
  | clear => obtain ⟨rfl, rfl⟩ := s; exact ⟨List.Pairwise.nil, fun k => rfl⟩
  | reserve n => exact ⟨(same m' s.2).1, fun k' => by rw [(same m' s.2).2]; rfl⟩
  | copy => exact ⟨(same m' s.2).1, fun k' => by rw [(same m' s.2).2]; rfl⟩
  | size => exact ⟨(same m' s.2).1, fun k' => by rw [(same m' s.2).2]; rfl⟩
  | iterate =>
    obtain ⟨vs, rfl, _, p⟩ := s
    exact ⟨(same m' p).1, fun k' => by rw [(same m' p).2]; rfl⟩

theorem specRun_track (ok : KeyOk hash keq) {m m' : List α} {ops : List (Op α K)} {rs : List (Out α)}
    (h : m.Pairwise (Diff keq key)) (s : SpecRun keq key m ops rs m') (k : K) :
      specFind keq key m' k = lastVal keq key k (specFind keq key m k) ops rs := by
  induction s with
  | nil => rfl
  | cons s1 _ ih =>
    obtain ⟨h1, h2⟩ := specRun_keys ok h s1
    rw [ih h1, h2]; rfl

/-- C07: after any history, `find(k)` yields the last value stored under `k` and not erased since, as read off the history
    itself; `count(k)` is 1 iff there is one. -/
theorem C07_find_last (ok : KeyOk hash keq) {ops : List (Op α K)} {s : CSet α} {outs}
    (h : run hash keq key none ops = some (s, outs)) (k : K) :
    ∃ it, s.find hash keq key k = some it ∧
      (if it = s.end_ then none else s.deref it) = lastVal keq key k none ops outs ∧
      s.count hash keq key k = some (if (lastVal keq key k none ops outs).isSome then 1 else 0) := by
  obtain ⟨m, r, sp⟩ := reach ok h
  have ht := specRun_track ok List.Pairwise.nil sp k
  have h0 : specFind keq key ([] : List α) k = none := rfl
  rw [h0] at ht
  obtain ⟨it, e', ⟨h1, h2⟩ | ⟨h1, v, hv, hfv⟩⟩ := r.find ok k
  · refine ⟨it, e', ?_, ?_⟩
    · rw [if_pos h1, ← ht, h2]
    · rw [← ht, h2]; simp [CSet.count, e', h1]
  · refine ⟨it, e', ?_, ?_⟩
    · rw [if_neg h1, hv, ← ht, hfv]
    · rw [← ht, hfv]; simp [CSet.count, e', h1]

/-- C07: two tables driven by the same history but different hash functions (no `erase(iterator)`, whose target depends on
    the order) agree on every key. -/
theorem C07_hash_irrelevant {hash' : K → Nat} (ok : KeyOk hash keq) (ok' : KeyOk hash' keq) {ops : List (Op α K)}
    {s s' : CSet α} {outs outs'} (e1 : run hash keq key none ops = some (s, outs)) (f1 : run hash' keq key none ops = some (s', outs'))
    (hn : ∀ o ∈ ops, match o with | .eraseNth _ => False | _ => True) (k : K) :
    ∃ it it',
      s.find hash keq key k = some it ∧ s'.find hash' keq key k = some it' ∧ s.size = s'.size ∧
      (if it = s.end_ then none else s.deref it) = (if it' = s'.end_ then none else s'.deref it') := by
  obtain ⟨it, e2, e3, _⟩ := C07_find_last (key := key) ok e1 k
  obtain ⟨it', f2, f3, _⟩ := C07_find_last (key := key) ok' f1 k
  obtain ⟨m, r, sp⟩ := reach ok e1
  obtain ⟨m', r', sp'⟩ := reach ok' f1
  have key1 : ∀ (ops : List (Op α K)) (rs rs' : List (Out α)), rs.length = ops.length → rs'.length = ops.length →
      (∀ o ∈ ops, match o with | .eraseNth _ => False | _ => True) → ∀ (c : Option α) k,
      lastVal keq key k c ops rs = lastVal keq key k c ops rs' := by
    intro ops
    induction ops with
    | nil => intro rs rs' _ _ _ c k; cases rs <;> cases rs' <;> rfl
    | cons o os ih =>
      intro rs rs' h1 h2 hn c k
      cases rs with
      | nil => cases h1
      | cons r rs =>
        cases rs' with
        | nil => cases h2
        | cons r' rs' =>
          have ht : track keq key k c o r = track keq key k c o r' := by
            have := hn o (by simp)
            cases o <;> first | rfl | exact this.elim
          simp only [lastVal, ht]
          exact ih rs rs' (by simpa using h1) (by simpa using h2) (fun o h => hn o (by simp [h])) _ _
  have len : ∀ {m m' : List α} {ops : List (Op α K)} {rs : List (Out α)}, SpecRun keq key m ops rs m' → rs.length = ops.length := by
    intro m m' ops rs s
    induction s with
    | nil => rfl
    | cons _ _ ih => simp [ih]
  have hk : ∀ k, specFind keq key m k = specFind keq key m' k := by
    intro k
    rw [specRun_track ok List.Pairwise.nil sp k, specRun_track ok List.Pairwise.nil sp' k]
    exact key1 ops _ _ (len sp) (len sp') hn _ _
  have nd : ∀ {l : List α}, l.Pairwise (Diff keq key) → l.Nodup := by
    intro l hl
    refine hl.imp ?_
    rintro a b hab rfl
    rw [Diff, ok.refl] at hab; cases hab
  have hp : m.Perm m' := by
    rw [List.perm_ext_iff_of_nodup (nd r.keys) (nd r'.keys)]
    intro v
    constructor
    · intro hv
      have := (specFind_some_iff ok r.keys (key v) v).2 ⟨hv, ok.refl _⟩
      rw [hk] at this
      exact ((specFind_some_iff ok r'.keys (key v) v).1 this).1
    · intro hv
      have := (specFind_some_iff ok r'.keys (key v) v).2 ⟨hv, ok.refl _⟩
      rw [← hk] at this
      exact ((specFind_some_iff ok r.keys (key v) v).1 this).1
  refine ⟨it, it', e2, f2, ?_, ?_⟩
  · rw [r.size, r'.size, hp.length_eq]
  · rw [e3, f3]
    exact key1 ops _ _ (len sp) (len sp') hn _ _

/-- C07, the limit: in a reachable state, an operation that needs a capacity above the largest real entry of the prime table
    makes the code select ULONG_MAX; the byte count wraps and the table is built outside of its memory. -/
theorem C07_limit (ok : KeyOk hash keq) {ops : List (Op α K)} {s : CSet α} {outs}
    (h : run hash keq key none ops = some (s, outs)) (o : Op α K) (hb : TooBig hash keq key s o) :
    step hash keq key s o = none := by
  obtain ⟨m, r, _⟩ := reach ok h
  exact tooBig_fails ok r o hb

/-! ### C08 -/

/-- C08: in every reachable state iteration ends, visits pairwise inequivalent keys, exactly `size()` elements, each of them
    (and nothing else) found by its key; `size() ≤ capacity()`. -/
theorem C08_iterate (ok : KeyOk hash keq) {ops : List (Op α K)} {s : CSet α} {outs}
    (h : run hash keq key none ops = some (s, outs)) :
    ∃ vs, s.vals = some vs ∧ s.size = vs.length ∧ s.size ≤ s.capacity ∧
      vs.Pairwise (fun a b => keq (key a) (key b) = false) ∧
      (∀ v, v ∈ vs ↔ ∃ it, s.find hash keq key (key v) = some it ∧ it ≠ s.end_ ∧ s.deref it = some v) ∧
      ∀ i < vs.length, s.deref (s.advance i) = vs[i]? ∧ s.valsFrom (s.advance i) = some (vs.drop i) := by
  obtain ⟨m, r, sp⟩ := reach ok h
  refine ⟨m, r.vals, r.size, r.size_le, r.keys, ?_, ?_⟩
  · intro v
    obtain ⟨it, e, ⟨h1, h2⟩ | ⟨h1, w, hw, hfw⟩⟩ := r.find ok (key v)
    · constructor
      · intro hv
        have := specFind_none_iff (key v) |>.1 h2 v hv
        rw [ok.refl] at this; cases this
      · rintro ⟨it', e', h', _⟩
        rw [e] at e'; cases e'; exact absurd h1 h'
    · constructor
      · intro hv
        have := (specFind_some_iff ok r.keys (key v) v).2 ⟨hv, ok.refl _⟩
        rw [hfw] at this; cases this
        exact ⟨it, e, h1, hw⟩
      · rintro ⟨it', e', h', hw'⟩
        rw [e] at e'; cases e'
        rw [hw] at hw'; cases hw'
        exact ((specFind_some_iff ok r.keys (key v) v).1 hfw).1
  · intro i hi
    have a := r.advance i (by omega)
    refine ⟨?_, a.valsFrom⟩
    have a' := a
    rw [List.drop_eq_getElem_cons hi] at a'
    rw [a'.deref, List.getElem?_eq_getElem hi]

/-! ### C09 -/

/-- C09: erasing the element at the `i`-th position removes exactly that element, keeps the order of the rest, and returns an
    iterator from which exactly the elements after it are visited. -/
theorem C09_erase_iterator (ok : KeyOk hash keq) {ops : List (Op α K)} {s : CSet α} {outs}
    (h : run hash keq key none ops = some (s, outs)) {vs : List α} (hv : s.vals = some vs) (i : Nat) (hi : i < vs.length) :
    ∃ s' it, s.eraseIt (s.advance i) = some (s', it) ∧ s'.vals = some (vs.eraseIdx i) ∧ s'.valsFrom it = some (vs.drop (i + 1)) ∧
      s'.size = s.size - 1 ∧ s'.capacity = s.capacity ∧
      ∀ v ∈ vs.eraseIdx i, ∃ it', s'.find hash keq key (key v) = some it' ∧ it' ≠ s'.end_ ∧ s'.deref it' = some v := by
  obtain ⟨m, r, sp⟩ := reach ok h
  rw [r.vals] at hv; cases hv
  have a := r.advance i (by omega)
  rw [List.drop_eq_getElem_cons hi] at a
  obtain ⟨s', it, e, a', hc⟩ := a.erase ok
  have r' := a'.rep
  rw [← List.eraseIdx_eq_take_drop_succ] at r'
  refine ⟨s', it, e, r'.vals, a'.valsFrom, ?_, hc, ?_⟩
  · rw [r'.size, r.size, List.length_eraseIdx_of_lt hi]
  · intro v hv
    have hfv := (specFind_some_iff ok r'.keys (key v) v).2 ⟨hv, ok.refl _⟩
    obtain ⟨it', e', ⟨h1, h2⟩ | ⟨h1, w, hw, hfw⟩⟩ := r'.find ok (key v)
    · rw [h2] at hfv; cases hfv
    · rw [hfw] at hfv; cases hfv; exact ⟨it', e', h1, hw⟩

/-- `for (it = begin(); it != end();) if (p(*it)) it = erase(it); else ++it;` -/
def CSet.eraseIf (p : α → Bool) : Nat → CSet α → Nat → Option (CSet α)
  | 0, s, it => if it = s.end_ then some s else none
  | fuel + 1, s, it =>
    if it = s.end_ then some s
    else match s.deref it with
      | none => none
      | some v =>
        if p v then match s.eraseIt it with
          | none => none
          | some (s', it') => CSet.eraseIf p fuel s' it'
        else match s with
          | none => none
          | some h => CSet.eraseIf p fuel s (h.next it)

theorem eraseIf_spec (ok : KeyOk hash keq) (p : α → Bool) (post : List α) {s : CSet α} {pre it} (a : At hash keq key s pre it post) :
    ∃ s', CSet.eraseIf p post.length s it = some s' ∧ Rep hash keq key s' (pre ++ post.filter (fun v => !p v)) := by
  induction post generalizing s it pre with
  | nil => exact ⟨s, by simp [CSet.eraseIf, a.end_iff], by simpa using a.rep⟩
  | cons v post ih =>
    have hne : it ≠ s.end_ := by rw [Ne, a.end_iff]; simp
    cases hp : p v with
    | true =>
      obtain ⟨s', it', e, a', _⟩ := a.erase ok
      obtain ⟨s2, e2, r2⟩ := ih a'
      refine ⟨s2, ?_, by simpa [hp] using r2⟩
      simp only [List.length_cons, CSet.eraseIf, if_neg hne, a.deref, hp, if_true, e, e2]
    | false =>
      obtain ⟨h, rfl, a'⟩ := a.next
      obtain ⟨s2, e2, r2⟩ := ih a'
      refine ⟨s2, ?_, by simpa [hp] using r2⟩
      simp [CSet.eraseIf, if_neg hne, a.deref, hp, e2]

/-- C09: the idiomatic erase-while-iterating loop removes exactly the elements satisfying the predicate. -/
theorem C09_erase_loop (ok : KeyOk hash keq) {ops : List (Op α K)} {s : CSet α} {outs}
    (h : run hash keq key none ops = some (s, outs)) {vs : List α} (hv : s.vals = some vs) (p : α → Bool) :
    ∃ s', CSet.eraseIf p s.size s s.begin = some s' ∧ s'.vals = some (vs.filter (fun v => !p v)) ∧
      s'.size = (vs.filter (fun v => !p v)).length := by
  obtain ⟨m, r, sp⟩ := reach ok h
  rw [r.vals] at hv; cases hv
  obtain ⟨s', e, r'⟩ := eraseIf_spec ok p vs r.begin
  rw [r.size]
  exact ⟨s', e, r'.vals, r'.size⟩

/-- C09: `clear()` ends, empties the set and keeps the capacity. -/
theorem C09_clear (ok : KeyOk hash keq) {ops : List (Op α K)} {s : CSet α} {outs}
    (h : run hash keq key none ops = some (s, outs)) :
    ∃ s', s.clear = some s' ∧ s'.vals = some [] ∧ s'.size = 0 ∧ s'.capacity = s.capacity := by
  obtain ⟨m, r, sp⟩ := reach ok h
  obtain ⟨s', e, r', hc⟩ := r.clear ok
  exact ⟨s', e, r'.vals, r'.size, hc⟩

/-! ### C10 -/

theorem eqLoop_spec (ok : KeyOk hash keq) (veq : α → α → Bool) {y : CSet α} {my : List α} (ry : Rep hash keq key y my) (vs : List α) :
    ∃ b, eqLoop hash keq key veq y vs = some b ∧
      (b = true ↔ ∀ v ∈ vs, ∃ w ∈ my, keq (key v) (key w) = true ∧ veq v w = true) := by
  induction vs with
  | nil => exact ⟨true, rfl, by simp⟩
  | cons v vs ih =>
    obtain ⟨b, e, hb⟩ := ih
    obtain ⟨it, e', ⟨h1, h2⟩ | ⟨h1, w, hw, hfw⟩⟩ := ry.find ok (key v)
    · refine ⟨false, by simp only [eqLoop, e', if_pos h1], ?_⟩
      simp only [Bool.false_eq_true, List.mem_cons, forall_eq_or_imp, false_iff]
      rintro ⟨⟨w, hw, hk, _⟩, _⟩
      rw [specFind_none_iff (key v) |>.1 h2 w hw] at hk; cases hk
    · have hh := (specFind_some_iff ok ry.keys _ _).1 hfw
      by_cases hq : veq v w = true
      · refine ⟨b, by simp only [eqLoop, e', if_neg h1, hw, if_pos hq, e], ?_⟩
        rw [hb]
        simp only [List.mem_cons, forall_eq_or_imp]
        constructor
        · intro h; exact ⟨⟨w, hh.1, hh.2, hq⟩, h⟩
        · exact fun h => h.2
      · refine ⟨false, by simp only [eqLoop, e', if_neg h1, hw, if_neg hq], ?_⟩
        simp only [Bool.false_eq_true, List.mem_cons, forall_eq_or_imp, false_iff]
        rintro ⟨⟨w', hw', hk, hq'⟩, _⟩
        have : specFind keq key my (key v) = some w' := (specFind_some_iff ok ry.keys _ _).2 ⟨hw', hk⟩
        rw [hfw] at this; cases this
        exact hq hq'

theorem eq_spec (ok : KeyOk hash keq) (veq : α → α → Bool) {x y : CSet α} {mx my : List α}
    (rx : Rep hash keq key x mx) (ry : Rep hash keq key y my) :
    ∃ b, x.eq hash keq key veq y = some b ∧
      (b = true ↔ mx.length = my.length ∧ ∀ v ∈ mx, ∃ w ∈ my, keq (key v) (key w) = true ∧ veq v w = true) := by
  unfold CSet.eq
  by_cases hs : x.size ≠ y.size
  · refine ⟨false, by rw [if_pos hs], ?_⟩
    rw [rx.size, ry.size] at hs
    simp [hs]
  · obtain ⟨b, e, hb⟩ := eqLoop_spec ok veq ry mx
    refine ⟨b, by rw [if_neg hs]; simp only [rx.vals, e], ?_⟩
    rw [rx.size, ry.size] at hs
    rw [hb]
    constructor
    · intro h; exact ⟨by omega, h⟩
    · exact fun h => h.2

/-- C10: for element equality that is equality, `x == y` (of any two reachable sets, built by different histories, with
    different capacities) terminates and holds iff both hold the same elements. -/
theorem C10_eq (ok : KeyOk hash keq) (veq : α → α → Bool) (hveq : ∀ a b, veq a b = true ↔ a = b)
    {ops ops' : List (Op α K)} {x y : CSet α} {outs outs'}
    (hx : run hash keq key none ops = some (x, outs)) (hy : run hash keq key none ops' = some (y, outs')) :
    ∃ b vx vy, x.eq hash keq key veq y = some b ∧ x.vals = some vx ∧ y.vals = some vy ∧ (b = true ↔ vx.Perm vy) := by
  obtain ⟨mx, rx, _⟩ := reach ok hx
  obtain ⟨my, ry, _⟩ := reach ok hy
  obtain ⟨b, e, hb⟩ := eq_spec ok veq rx ry
  refine ⟨b, mx, my, e, rx.vals, ry.vals, ?_⟩
  rw [hb]
  constructor
  · rintro ⟨hl, h⟩
    have nd : mx.Nodup := by
      refine rx.keys.imp ?_
      rintro a b hab rfl
      rw [Diff, ok.refl] at hab; cases hab
    have sub : mx ⊆ my := by
      intro v hv
      obtain ⟨w, hw, _, hq⟩ := h v hv
      rw [(hveq v w).1 hq]; exact hw
    exact (List.subperm_of_subset nd sub).perm_of_length_le (by omega)
  · intro p
    exact ⟨p.length_eq, fun v hv => ⟨v, p.mem_iff.1 hv, ok.refl _, (hveq v v).2 rfl⟩⟩

/-- C10: hence `==` is an equivalence on reachable sets. -/
theorem C10_equivalence (ok : KeyOk hash keq) (veq : α → α → Bool) (hveq : ∀ a b, veq a b = true ↔ a = b)
    {ops ops' ops'' : List (Op α K)} {x y z : CSet α} {o o' o''}
    (hx : run hash keq key none ops = some (x, o)) (hy : run hash keq key none ops' = some (y, o'))
    (hz : run hash keq key none ops'' = some (z, o'')) :
    x.eq hash keq key veq x = some true ∧
    (x.eq hash keq key veq y = some true → y.eq hash keq key veq x = some true) ∧
    (x.eq hash keq key veq y = some true → y.eq hash keq key veq z = some true → x.eq hash keq key veq z = some true) := by
  obtain ⟨b1, x1, x1', e1, p1, p1', h1⟩ := C10_eq ok veq hveq hx hx
  obtain ⟨b2, x2, y2, e2, p2, q2, h2⟩ := C10_eq ok veq hveq hx hy
  obtain ⟨b3, y3, x3, e3, q3, p3, h3⟩ := C10_eq ok veq hveq hy hx
  obtain ⟨b4, y4, z4, e4, q4, r4, h4⟩ := C10_eq ok veq hveq hy hz
  obtain ⟨b5, x5, z5, e5, p5, r5, h5⟩ := C10_eq ok veq hveq hx hz
  rw [p1] at p1' p2 p3 p5
  rw [q2] at q3 q4
  rw [r4] at r5
  cases p1'; cases p2; cases p3; cases p5; cases q3; cases q4; cases r5
  rw [e1, e2, e3, e4, e5]
  simp only [Option.some.injEq]
  exact ⟨h1.2 (List.Perm.refl _), fun h => h3.2 (h2.1 h).symm, fun h h' => h5.2 ((h2.1 h).trans (h4.1 h'))⟩

/-- C10: copies compare equal. -/
theorem C10_copy (ok : KeyOk hash keq) (veq : α → α → Bool) (hveq : ∀ a, veq a a = true)
    {ops : List (Op α K)} {x : CSet α} {outs} (hx : run hash keq key none ops = some (x, outs)) :
    ∃ y, x.copy hash keq key = some y ∧ x.eq hash keq key veq y = some true ∧ y.eq hash keq key veq x = some true := by
  obtain ⟨m, r, _⟩ := reach ok hx
  obtain ⟨y, my, e, ry, p⟩ := r.copy ok
  refine ⟨y, e, ?_, ?_⟩
  · obtain ⟨b, eb, hb⟩ := eq_spec ok veq r ry
    rw [eb, hb.2 ⟨p.length_eq.symm, fun v hv => ⟨v, p.mem_iff.2 hv, ok.refl _, hveq v⟩⟩]
  · obtain ⟨b, eb, hb⟩ := eq_spec ok veq ry r
    rw [eb, hb.2 ⟨p.length_eq, fun v hv => ⟨v, p.mem_iff.1 hv, ok.refl _, hveq v⟩⟩]

/-! ### C40 -/

theorem destroyAll_spec (ns : List Nat) (h : Hdr α) (nd : ns.Nodup) (hv : ∀ n ∈ ns, ∃ v, h.val n = some v) :
    ∃ h', destroyAll h ns = some h' ∧ h'.cap = h.cap ∧ (∀ n ∈ ns, h'.val n = none) ∧ ∀ n, n ∉ ns → h'.val n = h.val n := by
  induction ns generalizing h with
  | nil => exact ⟨h, rfl, rfl, by simp, by simp⟩
  | cons n ns ih =>
    obtain ⟨v, hv'⟩ := hv n (by simp)
    rw [List.nodup_cons] at nd
    have hd : h.destroy n = some { h with val := upd h.val n none } := by simp [Hdr.destroy, hv']
    obtain ⟨h', e, c, a, b⟩ := ih { h with val := upd h.val n none } nd.2 (by
      intro m hm
      have hmn : m ≠ n := by rintro rfl; exact nd.1 hm
      show ∃ v, upd h.val n none m = some v
      rw [upd_ne _ _ _ _ hmn]; exact hv m (by simp [hm]))
    refine ⟨h', by simp [destroyAll, hd, e], c, ?_, ?_⟩
    · intro m hm
      simp only [List.mem_cons] at hm
      by_cases hmn : m ∈ ns
      · exact a m hmn
      · rcases hm with rfl | hm
        · rw [b m hmn]; exact upd_same _ _ _
        · exact absurd hm hmn
    · intro m hm
      simp only [List.mem_cons, not_or] at hm
      rw [b m hm.2]; exact upd_ne _ _ _ _ hm.1

/-- C40: after any history the destructor destroys each stored value exactly once: it succeeds (it would fail on a node
    without a value), and afterwards no node of the block holds a value.  (That no operation of the history constructs over
    a live value or destroys a dead one is part of C07_history: such a step has no result.) -/
theorem C40_destructor (ok : KeyOk hash keq) {ops : List (Op α K)} {s : CSet α} {outs}
    (h : run hash keq key none ops = some (s, outs)) :
    ∃ s', s.destruct = some s' ∧ ∀ n < s'.capacity, s'.deref n = none := by
  obtain ⟨m, r, _⟩ := reach ok h
  cases s with
  | none => exact ⟨none, rfl, fun n _ => rfl⟩
  | some hd =>
    obtain ⟨_, free, gs, i, rfl⟩ := r
    have hU := List.nodup_cons.1 i.r.ndU
    have hw : hd.walk (hd.cap + 1) (hd.next hd.U) = some (used gs) := by
      rw [(ring_ends i.r.ru).1]
      apply walk_spec [] (used gs) i.r.ru hU.1
      have h1 := i.size_le; have h2 := i.size; omega
    obtain ⟨h', e, hc, a, b⟩ := destroyAll_spec (used gs) hd hU.2 i.used_val
    refine ⟨some h', by simp [CSet.destruct, hw, e], ?_⟩
    intro n hn
    have hn : n < hd.cap := by rw [← hc]; exact hn
    show h'.val n = none
    rcases List.mem_append.1 ((i.lt n).2 hn) with hm | hm
    · have : n ∉ used gs := fun hu => i.r.disj n (by simp [hm]) (by simp [hu])
      rw [b n this, (i.sf n hm).2]
    · exact a n hm

/-! ### the hypotheses are met by concrete histories -/

/-- pairs keyed by their first component, an adversarial hash -/
example : KeyOk (fun k : Nat => k % 2) (fun a b => decide (a = b)) :=
  ⟨by simp, by simp, by simp, by simp⟩

def demoOps : List (Op (Nat × Nat) Nat) :=
  [.insert (0, 10), .insert (2, 11), .insert (1, 12), .insert (4, 13), .insert (2, 14), .eraseNth 1, .find 2, .eraseKey 4, .copy, .iterate]

/-- the history above really collides, relocates, grows and copies -/
example : (run (fun k : Nat => k % 2) (fun a b => decide (a = b)) Prod.fst none demoOps).map
      (fun r => (r.1.size, r.1.capacity, r.1.vals)) = some (3, 3, some [(1, 12), (0, 10), (2, 14)]) := by decide +kernel

end Verif.ClosedHash
