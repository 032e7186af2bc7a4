import Verif.Pool.Spec
import Mathlib.Tactic.ByContra
import Mathlib.Tactic.Tauto
/-!
The invariant of the string pool.
-/
namespace Verif.Pool
open Spec

theorem Spec.CStr.congr {m m' : Mem} {p : Nat} {x : List Nat} (h : CStr m p x) (e : ∀ i ≤ x.length, m' (p + i) = m (p + i)) : CStr m' p x :=
  ⟨h.1, fun i hi => (e i hi).trans (h.2 i hi)⟩

theorem Spec.CStr.get {m : Mem} {p : Nat} {x : List Nat} (h : CStr m p x) (i : Nat) (hi : i < x.length) : m (p + i) = x[i] := by
  have := h.2 i (by omega)
  rw [this, List.getD_eq_getElem?_getD, List.getElem?_append_left hi]; simp [hi]

theorem Spec.CStr.nul {m : Mem} {p : Nat} {x : List Nat} (h : CStr m p x) : m (p + x.length) = 0 := by
  have := h.2 x.length (by omega)
  rw [this, List.getD_eq_getElem?_getD]; simp

theorem Spec.CStr.mk' {m : Mem} {p : Nat} {x : List Nat} (h0 : ∀ b ∈ x, b ≠ 0) (h1 : ∀ i (hi : i < x.length), m (p + i) = x[i])
    (h2 : m (p + x.length) = 0) : CStr m p x := by
  refine ⟨h0, fun i hi => ?_⟩
  rcases Nat.lt_or_eq_of_le hi with hl | rfl
  · rw [h1 i hl, List.getD_eq_getElem?_getD, List.getElem?_append_left hl]; simp [hl]
  · rw [h2, List.getD_eq_getElem?_getD]; simp

/-- There is one string at a place. -/
theorem Spec.CStr.unique {m : Mem} {p : Nat} {x y : List Nat} (h : CStr m p x) (h' : CStr m p y) : x = y := by
  have key : x.length = y.length := by
    rcases Nat.lt_trichotomy x.length y.length with hl | hl | hl
    · exact absurd (h'.get _ hl ▸ h.nul) (h'.1 _ (List.getElem_mem _))
    · exact hl
    · exact absurd (h.get _ hl ▸ h'.nul) (h.1 _ (List.getElem_mem _))
  refine List.ext_getElem key fun i h1 h2 => ?_
  rw [← h.get i h1, ← h'.get i h2]

theorem same_iff {m : Mem} {p q : Nat} {x : List Nat} (h : CStr m p x) : same m q p x.length = true ↔ CStr m q x := by
  simp only [same, List.all_eq_true, List.mem_range, beq_iff_eq]
  constructor
  · intro e; exact ⟨h.1, fun i hi => (e i (by omega)).trans (h.2 i hi)⟩
  · intro h' i hi; rw [h.2 i (by omega), h'.2 i (by omega)]

theorem Spec.CStr.head {m : Mem} {p : Nat} {x : List Nat} (h : CStr m p x) : m p = 0 ↔ x = [] := by
  cases x with
  | nil => simpa using h.nul
  | cons a l =>
    have := h.get 0 (by simp)
    have h0 := h.1 a (by simp)
    simp at this
    simp [this, h0]

structure Inv (empty : Nat) (s : St) (log : List (List Nat × Nat)) : Prop where
  e0 : empty ≠ 0
  me : s.mem empty = 0
  noempty : ¬ Owned s empty
  last : (s.blocks = [] ∧ s.next = 0 ∧ s.end_ = 0) ∨ ∃ i k, s.blocks = i ++ [k] ∧ k.1 ≤ s.next ∧ s.next ≤ s.end_ ∧ s.end_ = k.1 + k.2
  pos : ∀ k ∈ s.blocks, k.1 ≠ 0
  disj : s.blocks.Pairwise fun k l => ∀ a, inBlock a k → ¬ inBlock a l
  size : ∀ k ∈ s.blocks, 0 < k.2
  store : ∀ q ∈ s.store, ∃ x, x ≠ [] ∧ CStr s.mem q x ∧ (∃ k ∈ s.blocks, ∀ i ≤ x.length, inBlock (q + i) k) ∧
    ∀ i ≤ x.length, ¬ Unused s (q + i)
  uniq : s.store.Pairwise fun q r => (∀ x, CStr s.mem q x → ¬ CStr s.mem r x) ∧
    ∀ x y, CStr s.mem q x → CStr s.mem r y → q + x.length < r ∨ r + y.length < q
  log : ∀ e ∈ log, (e.1 = [] ∧ e.2 = empty) ∨ (e.1 ≠ [] ∧ e.2 ∈ s.store ∧ CStr s.mem e.2 e.1)
  freed : ∀ a ∈ s.freed, a ∈ s.news

theorem unused_owned {empty s log} (h : Inv empty s log) {a} (ha : Unused s a) : Owned s a := by
  rcases h.last with ⟨_, h1, h2⟩ | ⟨i, k, h1, h2, h3, h4⟩
  · unfold Unused at ha; omega
  · refine ⟨k, by simp [h1], ?_⟩
    unfold Unused at ha; unfold inBlock; omega

/-- Writes to where nothing of the pool is do not matter. -/
theorem Inv.mem {empty s log} (h : Inv empty s log) (m' : Mem) (hm : ∀ a, a = empty ∨ (Owned s a ∧ ¬ Unused s a) → m' a = s.mem a) :
    Inv empty { s with mem := m' } log := by
  have st : ∀ q ∈ s.store, ∀ y, CStr m' q y ↔ CStr s.mem q y := by
    intro q hq y
    obtain ⟨x, hx, hc, ⟨k, hk, hb⟩, hu⟩ := h.store q hq
    have hc' : CStr m' q x := hc.congr fun i hi => hm _ (.inr ⟨⟨k, hk, hb i hi⟩, hu i hi⟩)
    constructor
    · intro hy; rw [hy.unique hc']; exact hc
    · intro hy; rw [hy.unique hc]; exact hc'
  refine ⟨h.e0, ?_, h.noempty, h.last, h.pos, h.disj, h.size, ?_, ?_, ?_, h.freed⟩
  · exact (hm _ (.inl rfl)).trans h.me
  · intro q hq
    obtain ⟨x, hx, hc, hk, hu⟩ := h.store q hq
    exact ⟨x, hx, (st q hq x).2 hc, hk, hu⟩
  · refine h.uniq.imp_of_mem fun {q r} hq hr hqr => ⟨fun x hx hy => hqr.1 x ((st q hq x).1 hx) ((st r hr x).1 hy), fun x y hx hy =>
      hqr.2 x y ((st q hq x).1 hx) ((st r hr y).1 hy)⟩
  · intro e he
    rcases h.log e he with h1 | ⟨h1, h2, h3⟩
    · exact .inl h1
    · exact .inr ⟨h1, h2, (st _ h2 _).2 h3⟩

theorem write_eq {s : St} {p b : Nat} (h : Owned s p) : s.write p b = some { s with mem := s.mem.set p b } := by
  unfold St.write
  rw [if_pos]
  obtain ⟨k, hk, hp⟩ := h
  exact List.any_eq_true.2 ⟨k, hk, by simpa [inBlock] using hp⟩

theorem copyN_eq (n : Nat) : ∀ (s : St) (src dst : Nat), (∀ i < n, Owned s (dst + i)) → (∀ i < n, ∀ j < n, src + i ≠ dst + j) →
    copyN s src n dst = some { s with mem := fun a => if dst ≤ a ∧ a < dst + n then s.mem (src + (a - dst)) else s.mem a } := by
  induction n with
  | zero => intro s src dst _ _; simp only [copyN]; congr 1; 
            have : (fun a => if dst ≤ a ∧ a < dst + 0 then s.mem (src + (a - dst)) else s.mem a) = s.mem := by
              funext a; rw [if_neg (by omega)]
            rw [this]
  | succ n ih =>
    intro s src dst ho hd
    rw [copyN, write_eq (by simpa using ho 0 (by omega))]
    simp only
    rw [ih]
    · congr 2
      funext a
      simp only [Mem.set]
      by_cases ha : dst ≤ a ∧ a < dst + (n + 1)
      · rw [if_pos ha]
        by_cases ha' : a = dst
        · subst ha'; rw [if_neg (by omega), if_pos rfl]; simp
        · rw [if_pos (by omega), if_neg]
          · congr 1; omega
          · have := hd (1 + (a - (dst + 1))) (by omega) 0 (by omega); omega
      · rw [if_neg ha, if_neg (by omega), if_neg (by omega)]
    · intro i hi
      have := ho (1 + i) (by omega)
      rwa [Nat.add_assoc]
    · intro i hi j hj
      have := hd (1 + i) (by omega) (1 + j) (by omega)
      omega

/-- What is the case after `room`. -/
structure Roomy (empty : Nat) (s s' : St) (log : List (List Nat × Nat)) (str n : Nat) : Prop where
  inv : Inv empty s' log
  mem : s'.mem = s.mem
  store : s'.store = s.store
  fits : s'.next + n < s'.end_
  away : ∀ i ≤ n, ¬ Unused s' (str + i)
  blk : ∃ k ∈ s'.blocks, ∀ i ≤ n, inBlock (s'.next + i) k
  new : ∀ a, Unused s' a → Unused s a ∨ ¬ Owned s a

theorem room_ok {poolSize empty s log str x e} (h : Inv empty s log) (hc : Call poolSize empty s str x e) :
    (∃ s', room poolSize s x.length e = .ok () s' ∧ Roomy empty s s' log str x.length) ∨
    ((e.base = none ∨ e.pushThrows = true) ∧ ∃ s', room poolSize s x.length e = .throw s' ∧ Inv empty s' log ∧ s'.mem = s.mem ∧
      s'.store = s.store ∧ s'.blocks = s.blocks) := by
  unfold room
  by_cases hf : s.end_ - s.next < x.length + 1
  · simp only [hf, if_true]
    cases hb : e.base with
    | none => exact .inr ⟨.inl rfl, s, rfl, h, rfl, rfl, rfl⟩
    | some b =>
      have fr := hc.fresh b hb
      simp only
      by_cases hp : e.pushThrows = true
      · simp only [hp, if_true]
        refine .inr ⟨.inr trivial, _, rfl, ?_, rfl, rfl, rfl⟩
        exact ⟨h.e0, h.me, h.noempty, h.last, h.pos, h.disj, h.size, h.store, h.uniq, h.log, fun a ha => List.mem_cons_of_mem _ (h.freed a ha)⟩
      · simp only [hp, if_false]
        refine .inl ⟨_, rfl, ?_⟩
        have hsz : x.length + 1 ≤ max poolSize (x.length + 1) := Nat.le_max_right _ _
        generalize hM : max poolSize (x.length + 1) = M at *
        refine ⟨⟨h.e0, h.me, ?_, ?_, ?_, ?_, ?_, ?_, h.uniq, ?_, ?_⟩, rfl, rfl, ?_, ?_, ?_, fun a ha => .inr (fr.2 a ha.1 ha.2).1⟩
        · rintro ⟨k, hk, hi⟩
          rcases List.mem_append.1 hk with hk | hk
          · exact h.noempty ⟨k, hk, hi⟩
          · simp at hk; subst hk
            exact (fr.2 _ hi.1 hi.2).2.1 rfl
        · exact .inr ⟨s.blocks, _, rfl, Nat.le_refl _, by simp, rfl⟩
        · intro k hk
          rcases List.mem_append.1 hk with hk | hk
          · exact h.pos k hk
          · simp at hk; subst hk; exact fr.1
        · rw [List.pairwise_append]
          refine ⟨h.disj, by simp, ?_⟩
          intro k hk l hl a hak hal
          simp at hl; subst hl
          exact (fr.2 a hal.1 hal.2).1 ⟨k, hk, hak⟩
        · intro k hk
          rcases List.mem_append.1 hk with hk | hk
          · exact h.size k hk
          · simp at hk; subst hk; show 0 < M; omega
        · intro q hq
          obtain ⟨y, hy, hcy, ⟨k, hk, hb⟩, hu⟩ := h.store q hq
          refine ⟨y, hy, hcy, ⟨k, List.mem_append_left _ hk, hb⟩, ?_⟩
          intro i hi hun
          exact (fr.2 _ hun.1 hun.2).1 ⟨k, hk, hb i hi⟩
        · exact h.log
        · intro a ha
          simp only [St.freed, List.map_append, List.mem_append, List.map_cons, List.map_nil, List.mem_singleton] at ha
          rcases ha with ha | ha
          · exact List.mem_cons_of_mem _ (h.freed a ha)
          · subst ha; exact List.mem_cons_self
        · show b + x.length < b + M; omega
        · intro i hi hun
          exact (fr.2 _ hun.1 hun.2).2.2 ⟨by omega, by omega⟩
        · refine ⟨(b, M), by simp, fun i hi => ?_⟩
          simp only [inBlock]; omega
  · simp only [hf, if_false]
    refine .inl ⟨s, rfl, h, rfl, rfl, by omega, hc.used, ?_, fun a ha => .inl ha⟩
    rcases h.last with ⟨_, h1, h2⟩ | ⟨i, k, h1, h2, h3, h4⟩
    · omega
    · refine ⟨k, by simp [h1], fun j hj => ?_⟩
      unfold inBlock; omega

/-- What `poolAdd` does. -/
structure Added (empty : Nat) (s s' : St) (log : List (List Nat × Nat)) (x : List Nat) (q : Nat) : Prop where
  inv : Inv empty s' log
  str : CStr s'.mem q x
  store : s'.store = s.store
  blk : ∃ k ∈ s'.blocks, ∀ i ≤ x.length, inBlock (q + i) k
  used : ∀ i ≤ x.length, ¬ Unused s' (q + i)
  keep : ∀ r ∈ s.store, ∀ y, CStr s'.mem r y ↔ CStr s.mem r y
  apart : ∀ r ∈ s.store, ∀ y, CStr s.mem r y → q + x.length < r ∨ r + y.length < q
  other : ∀ a, a < q ∨ q + x.length < a → s'.mem a = s.mem a
  fresh : ∀ a, q ≤ a → a ≤ q + x.length → ¬ Unused s a → ¬ (Owned s' a → Owned s a)

theorem poolAdd_ok {poolSize empty s log str x e} (h : Inv empty s log) (hc : Call poolSize empty s str x e) (hs : CStr s.mem str x) :
    (∃ q s', poolAdd poolSize s str x.length e = .ok q s' ∧ Added empty s s' log x q) ∨
    ((e.base = none ∨ e.pushThrows = true) ∧ ∃ s', poolAdd poolSize s str x.length e = .throw s' ∧ Inv empty s' log ∧ s'.mem = s.mem ∧
      s'.store = s.store ∧ s'.blocks = s.blocks) := by
  rcases room_ok h hc with ⟨s1, h1, R⟩ | ⟨hb, s1, h1, h2⟩
  · left
    obtain ⟨k, hk, hin⟩ := R.blk
    have un : ∀ i ≤ x.length, Unused s1 (s1.next + i) := fun i hi => by have := R.fits; unfold Unused; omega
    have dis : ∀ i ≤ x.length, ∀ j ≤ x.length, str + i ≠ s1.next + j := by
      intro i hi j hj he; exact R.away i hi (he ▸ un j hj)
    unfold poolAdd allocate
    rw [h1]
    simp only
    rw [write_eq ⟨k, hk, hin _ (Nat.le_refl _)⟩]
    simp only
    rw [copyN_eq]
    · refine ⟨_, _, rfl, ?_⟩
      simp only
      generalize hm' : (fun a => if s1.next ≤ a ∧ a < s1.next + x.length then s1.mem.set (s1.next + x.length) 0 (str + (a - s1.next))
        else s1.mem.set (s1.next + x.length) 0 a) = m'
      have hcs : CStr m' s1.next x := by
        refine Spec.CStr.mk' hs.1 (fun i hi => ?_) ?_
        · subst hm'
          simp only
          rw [if_pos (by omega), Nat.add_sub_cancel_left, Mem.set, if_neg (dis i (by omega) _ (Nat.le_refl _)), R.mem]
          exact hs.get i hi
        · subst hm'
          simp only
          rw [if_neg (by omega), Mem.set, if_pos rfl]
      have hoth : ∀ a, a < s1.next ∨ s1.next + x.length < a → m' a = s1.mem a := by
        intro a ha
        subst hm'
        simp only
        rw [if_neg (by omega), Mem.set, if_neg (by omega)]
      have hI : Inv empty { s1 with mem := m' } log := by
        refine R.inv.mem m' fun a ha => hoth a ?_
        rcases Nat.lt_or_ge a s1.next with hl | hl
        · exact .inl hl
        · rcases Nat.lt_or_ge (s1.next + x.length) a with hg | hg
          · exact .inr hg
          · exfalso
            have hu : Unused s1 a := by have := R.fits; unfold Unused; omega
            rcases ha with rfl | ha
            · exact R.inv.noempty (unused_owned R.inv hu)
            · exact ha.2 hu
      have keep : ∀ r ∈ s.store, ∀ y, CStr m' r y ↔ CStr s.mem r y := by
        intro r hr y
        rw [← R.store] at hr
        rw [← R.mem]
        obtain ⟨z, hz, hcz, _, hu⟩ := R.inv.store r hr
        have hc' : CStr m' r z := by
          refine hcz.congr fun i hi => hoth _ ?_
          have := hu i hi
          have := R.fits
          unfold Unused at *
          omega
        constructor
        · intro hy; rw [hy.unique hc']; exact hcz
        · intro hy; rw [hy.unique hcz]; exact hc'
      refine ⟨?_, hcs, R.store, ⟨k, hk, hin⟩, ?_, keep, ?_, ?_, ?_⟩
      · refine ⟨hI.e0, hI.me, hI.noempty, ?_, hI.pos, hI.disj, hI.size, ?_, hI.uniq, hI.log, hI.freed⟩
        · rcases hI.last with ⟨h1, h2, h3⟩ | ⟨i, l, h1, h2, h3, h4⟩
          · have := R.fits; simp at h3; omega
          · refine .inr ⟨i, l, h1, ?_, ?_, h4⟩
            · simp only at h2 ⊢; omega
            · have := R.fits; simp only; omega
        · intro r hr
          obtain ⟨y, hy, hcy, hby, hu⟩ := hI.store r hr
          refine ⟨y, hy, hcy, hby, fun i hi hun => hu i hi ?_⟩
          unfold Unused at *
          simp only at hun ⊢; omega
      · intro i hi
        unfold Unused; simp only; omega
      · intro r hr y hy
        rw [← R.store] at hr
        rw [← R.mem] at hy
        obtain ⟨z, hz, hcz, _, hu⟩ := R.inv.store r hr
        obtain rfl := hy.unique hcz
        -- the whole string is used, the new place is not
        have F := R.fits
        by_contra hcon
        have : (s1.next ≤ r ∧ r ≤ s1.next + x.length) ∨ (r < s1.next ∧ s1.next ≤ r + y.length) := by omega
        rcases this with h' | h'
        · exact hu 0 (by omega) ⟨by omega, by omega⟩
        · exact hu (s1.next - r) (by omega) ⟨by omega, by omega⟩
      · intro a ha
        rw [← R.mem]; exact hoth a ha
      · intro a h1 h2 hn ho
        have hu := un (a - s1.next) (by omega)
        rw [show s1.next + (a - s1.next) = a by omega] at hu
        rcases R.new a hu with h3 | h3
        · exact hn h3
        · exact h3 (ho (unused_owned R.inv hu))
    · intro i hi
      exact ⟨k, hk, hin i (by omega)⟩
    · intro i hi j hj
      exact dis i (by omega) j (by omega)
  · right
    refine ⟨hb, s1, ?_, h2⟩
    unfold poolAdd allocate
    rw [h1]

theorem Inv.log_cons {empty s log x q} (h : Inv empty s log)
    (hq : (x = [] ∧ q = empty) ∨ (x ≠ [] ∧ q ∈ s.store ∧ CStr s.mem q x)) : Inv empty s ((x, q) :: log) := by
  refine ⟨h.e0, h.me, h.noempty, h.last, h.pos, h.disj, h.size, h.store, h.uniq, ?_, h.freed⟩
  intro e he
  rcases List.mem_cons.1 he with rfl | he
  · exact hq
  · exact h.log e he

theorem add_ok {poolSize empty s log str x e} (h : Inv empty s log) (hc : Call poolSize empty s str x e) :
    (∃ q s', add poolSize empty s str x.length e = .ok q s' ∧ Inv empty s' ((x, q) :: log) ∧
      ((∃ r ∈ s.store, CStr s.mem r x) ∨ x = [] → s' = s)) ∨
    ((e.base = none ∨ e.pushThrows = true ∨ e.insertThrows = true) ∧ ¬ ((∃ r ∈ s.store, CStr s.mem r x) ∨ x = []) ∧
      ∃ s', add poolSize empty s str x.length e = .throw s' ∧ Inv empty s' log) := by
  unfold add
  rcases hc.arg with ⟨h0, hx⟩ | ⟨h0, hs⟩
  · left
    rw [if_pos (.inl h0)]
    exact ⟨_, _, rfl, h.log_cons (.inl ⟨hx, rfl⟩), fun _ => rfl⟩
  · by_cases hx : x = []
    · left
      rw [if_pos (.inr (hs.head.2 hx))]
      exact ⟨_, _, rfl, h.log_cons (.inl ⟨hx, rfl⟩), fun _ => rfl⟩
    · have hm : s.mem str ≠ 0 := fun hh => hx (hs.head.1 hh)
      rw [if_neg (by simp [h0, hm])]
      cases hf : s.store.find? fun q => same s.mem q str x.length with
      | some q =>
        left
        simp only
        have h1 := List.find?_some hf
        have h2 := List.mem_of_find?_eq_some hf
        exact ⟨_, _, rfl, h.log_cons (.inr ⟨hx, h2, (same_iff hs).1 h1⟩), fun _ => rfl⟩
      | none =>
        simp only
        have hnew : ∀ r ∈ s.store, ¬ CStr s.mem r x := by
          intro r hr hcr
          have := List.find?_eq_none.1 hf r hr
          exact this ((same_iff hs).2 hcr)
        have hnn : ¬ ((∃ r ∈ s.store, CStr s.mem r x) ∨ x = []) := by
          rintro (⟨r, hr, hcr⟩ | hh)
          · exact hnew r hr hcr
          · exact hx hh
        rcases poolAdd_ok h hc hs with ⟨q, s1, h1, A⟩ | ⟨hb, s1, h1, h2, _⟩
        · rw [h1]
          simp only
          by_cases hi : e.insertThrows = true
          · right
            exact ⟨.inr (.inr hi), hnn, s1, by simp [hi], A.inv⟩
          · left
            refine ⟨q, _, by simp only [hi]; rfl, ?_, fun hh => absurd hh hnn⟩
            have I := A.inv
            refine Inv.log_cons ⟨I.e0, I.me, I.noempty, I.last, I.pos, I.disj, I.size, ?_, ?_, ?_, I.freed⟩ (.inr ⟨hx, by simp, A.str⟩)
            · intro r hr
              rcases List.mem_cons.1 hr with rfl | hr
              · exact ⟨x, hx, A.str, A.blk, A.used⟩
              · exact I.store r hr
            · refine List.pairwise_cons.2 ⟨?_, I.uniq⟩
              intro r hr
              rw [A.store] at hr
              refine ⟨fun y hy hy' => ?_, fun y z hy hz => ?_⟩
              · obtain rfl := hy.unique A.str
                exact hnew r hr ((A.keep r hr _).1 hy')
              · obtain rfl := hy.unique A.str
                exact A.apart r hr z ((A.keep r hr z).1 hz)
            · intro e he
              rcases I.log e he with hl | ⟨hl1, hl2, hl3⟩
              · exact .inl hl
              · exact .inr ⟨hl1, List.mem_cons_of_mem _ hl2, hl3⟩
        · right
          rw [h1]
          exact ⟨by tauto, hnn, s1, rfl, h2⟩

theorem hist_inv {poolSize empty pt s log} (h : Hist poolSize empty pt s log) : Inv empty s log := by
  induction h with
  | new h0 hm =>
    exact ⟨h0, hm, by rintro ⟨k, hk, _⟩; simp [St.new] at hk, .inl ⟨rfl, rfl, rfl⟩, by simp [St.new], by simp [St.new], by simp [St.new],
      by simp [St.new], by simp [St.new], by simp, by simp [St.new, St.freed]⟩
  | other a b _ ho he ih =>
    refine ih.mem _ fun c hcc => ?_
    rw [Mem.set, if_neg]
    rintro rfl
    rcases hcc with hcc | hcc
    · exact he hcc
    · exact ho hcc.1
  | add _ hc _ ha ih =>
    rcases add_ok ih hc with ⟨q, s', h1, h2, _⟩ | ⟨_, _, s', h1, _⟩
    · rw [h1] at ha; cases ha; exact h2
    · rw [h1] at ha; cases ha
  | throw _ hc _ ha ih =>
    rcases add_ok ih hc with ⟨q, s', h1, h2, _⟩ | ⟨_, _, s', h1, h2⟩
    · rw [h1] at ha; cases ha
    · rw [h1] at ha; cases ha; exact h2

theorem pair_of {α} {R : α → α → Prop} {l : List α} (h : l.Pairwise R) {a b : α} (ha : a ∈ l) (hb : b ∈ l) (hne : a ≠ b) :
    R a b ∨ R b a := by
  induction l with
  | nil => cases ha
  | cons c l ih =>
    rw [List.pairwise_cons] at h
    rcases List.mem_cons.1 ha with rfl | ha'
    · rcases List.mem_cons.1 hb with rfl | hb'
      · exact absurd rfl hne
      · exact .inl (h.1 _ hb')
    · rcases List.mem_cons.1 hb with rfl | hb'
      · exact .inr (h.1 _ ha')
      · exact ih h.2 ha' hb'

theorem write_news {s s' : St} {p b : Nat} (h : s.write p b = some s') : s'.news = s.news ∧ s'.blocks = s.blocks := by
  unfold St.write at h
  split at h
  · cases h; exact ⟨rfl, rfl⟩
  · cases h

theorem copyN_news (n : Nat) : ∀ {s s' : St} {src dst : Nat}, copyN s src n dst = some s' → s'.news = s.news ∧ s'.blocks = s.blocks := by
  induction n with
  | zero => intro s s' src dst h; simp only [copyN] at h; cases h; exact ⟨rfl, rfl⟩
  | succ n ih =>
    intro s s' src dst h
    rw [copyN] at h
    split at h
    · cases h
    · rename_i s1 h1
      have := ih h
      have h2 := write_news h1
      exact ⟨this.1.trans h2.1, this.2.trans h2.2⟩

/-- The state of a result. -/
def Res.st {α} : Res α → Option St
  | .ok _ s => some s
  | .throw s => some s
  | .ub => none

/-- How the blocks and the memory asked for change. -/
def Step (s s' : St) : Prop :=
  (s'.news = s.news ∧ s'.blocks = s.blocks) ∨ ∃ b n, s'.news = b :: s.news ∧ s'.blocks = s.blocks ++ [(b, n)]

theorem room_news {poolSize s n e s'} (hp : e.pushThrows = false) (h : (room poolSize s n e).st = some s') : Step s s' := by
  unfold room at h
  simp only [hp] at h
  split at h
  · split at h
    · cases h; exact .inl ⟨rfl, rfl⟩
    · simp only [Bool.false_eq_true, if_false] at h
      cases h; exact .inr ⟨_, _, rfl, rfl⟩
  · cases h; exact .inl ⟨rfl, rfl⟩

theorem allocate_news {poolSize s n e s'} (hp : e.pushThrows = false) (h : (allocate poolSize s n e).st = some s') : Step s s' := by
  unfold allocate at h
  split at h
  · rename_i hr; cases h; exact room_news hp (by rw [hr]; rfl)
  · cases h
  · rename_i s1 hr
    have h1 : Step s s1 := room_news hp (by rw [hr]; rfl)
    simp only at h
    split at h
    · cases h
    · rename_i hw
      cases h
      have := write_news hw
      unfold Step
      simp only [this]
      exact h1

theorem poolAdd_news {poolSize s i n e s'} (hp : e.pushThrows = false) (h : (poolAdd poolSize s i n e).st = some s') : Step s s' := by
  unfold poolAdd at h
  split at h
  · rename_i s1 hr
    have h1 : Step s s1 := allocate_news hp (by rw [hr]; rfl)
    split at h
    · cases h
    · rename_i hw
      cases h
      have := copyN_news _ hw
      unfold Step
      rw [this.1, this.2]
      exact h1
  · exact allocate_news hp h

theorem add_news {poolSize empty s i n e s'} (hp : e.pushThrows = false) (h : (add poolSize empty s i n e).st = some s') :
    Step s s' := by
  unfold add at h
  split at h
  · cases h; exact .inl ⟨rfl, rfl⟩
  · split at h
    · cases h; exact .inl ⟨rfl, rfl⟩
    · split at h
      · rename_i q s1 hr
        have h1 : Step s s1 := poolAdd_news hp (by rw [hr]; rfl)
        split at h
        · cases h; exact h1
        · cases h; exact h1
      · exact poolAdd_news hp h

theorem Step.perm {s s'} (h : Step s s') (hp : s.freed.Perm s.news) : s'.freed.Perm s'.news := by
  rcases h with ⟨h1, h2⟩ | ⟨b, n, h1, h2⟩
  · unfold St.freed at *; rw [h1, h2]; exact hp
  · unfold St.freed at *
    rw [h1, h2, List.map_append]
    exact (List.perm_append_comm).trans (List.Perm.cons b hp)

theorem hist_news {poolSize empty s log} (h : Hist poolSize empty False s log) : s.freed.Perm s.news := by
  induction h with
  | new h0 hm => exact List.Perm.nil
  | other a b _ ho he ih => exact ih
  | add _ hc hp ha ih =>
    exact (add_news (Bool.eq_false_iff.2 hp) (by rw [ha]; rfl)).perm ih
  | throw _ hc hp ha ih =>
    exact (add_news (Bool.eq_false_iff.2 hp) (by rw [ha]; rfl)).perm ih

theorem inv_nodup {empty s log} (h : Inv empty s log) : s.freed.Nodup := by
  unfold St.freed
  rw [List.nodup_iff_pairwise_ne, List.pairwise_map]
  refine h.disj.imp_of_mem fun {k l} hk hl hd he => ?_
  refine hd k.1 ⟨Nat.le_refl _, by have := h.size k hk; omega⟩ ⟨by omega, by have := h.size l hl; omega⟩

end Verif.Pool
