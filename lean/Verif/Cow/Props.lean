import Verif.Cow.Steps
/-
C34, C35: `copy_on_write` objects behave as plain variables, and the shared values are freed exactly when nothing refers to
them, in every interleaving of any number of threads.
-/
namespace Verif.Cow
open Spec (put)

variable {V : Type} [DecidableEq V] {eq lt : V → V → Bool} {v0 : V} {s : St V} {σ : Spec.Vars V}

/-- a step is right: it uses no freed memory and does what plain variables do -/
def Good (eq lt : V → V → Bool) (v0 : V) (σ : Spec.Vars V) : Out V → Prop
  | .blocked => True
  | .error => False
  | .ok s none => Inv v0 s σ
  | .ok s (some e) => ∃ σ', Spec.step eq lt v0 σ e = some σ' ∧ Inv v0 s σ'

theorem Inv.some (I : Inv v0 s σ) {h : Nat} {r : Option Nat} (hr : s.handle h = some r) : ∃ x, σ h = some x := by
  cases r with
  | none => exact ⟨_, I.null h hr⟩
  | some p =>
    obtain ⟨b, hb⟩ := Option.ne_none_iff_exists'.1 (I.alH h p hr)
    exact ⟨_, I.val h p b hr hb⟩

theorem good_construct (I : Inv v0 s σ) (t h : Nat) (v : V) (q : Nat) : Good eq lt v0 σ (construct s t h v q) := by
  unfold Cow.construct
  split
  case isFalse => trivial
  case isTrue hc =>
    obtain ⟨h1, h2, h3⟩ := hc
    exact ⟨_, by simp [Spec.step, I.gone h h2], I.construct (isIdle_iff.1 h1) h2 h3⟩

theorem good_initDefault (I : Inv v0 s σ) (t q : Nat) : Good eq lt v0 σ (initDefault v0 s t q) := by
  unfold Cow.initDefault
  split
  case isFalse => trivial
  case isTrue hc =>
    obtain ⟨h1, h2, h3, h4⟩ := hc
    exact I.initDefault h2 h3 h4

theorem good_dflt (I : Inv v0 s σ) (t h : Nat) : Good eq lt v0 σ (dfltConstruct s t h) := by
  unfold dfltConstruct
  split
  case isFalse => trivial
  case isTrue hc =>
    obtain ⟨h1, h2, h3⟩ := hc
    split
    · trivial
    · next p hp =>
      split
      · next hn => exact I.alD p hp h3 hn
      · next b hb =>
        refine ⟨_, by simp [Spec.step, I.gone h h2]; rfl, ?_⟩
        have := I.share (h := h) (isIdle_iff.1 h1) h2 hb (Or.inr ⟨hp, h3⟩)
        rwa [I.dflt p b hp h3 hb] at this

theorem good_copy (I : Inv v0 s σ) (t d src : Nat) : Good eq lt v0 σ (copy s t d src) := by
  unfold Cow.copy
  split
  case isFalse => trivial
  case isTrue hc =>
    obtain ⟨h1, h2, h3, h4⟩ := hc
    split
    · next p hp =>
      split
      · next hn => exact I.alH src p hp hn
      · next b hb =>
        refine ⟨_, by simp [Spec.step, I.gone d h2, I.val src p b hp hb]; rfl, ?_⟩
        exact I.share (h := d) (isIdle_iff.1 h1) h2 hb (Or.inl ⟨src, hp, h3⟩)
    · next hp => exact ⟨_, by simp [Spec.step, I.gone d h2, I.null src hp], I.copyNull h2⟩
    · trivial

theorem good_move (I : Inv v0 s σ) (t d src : Nat) : Good eq lt v0 σ (move s t d src) := by
  unfold Cow.move
  split
  case isFalse => trivial
  case isTrue hc =>
    obtain ⟨h1, h2, h3, h4⟩ := hc
    split
    · next r hr =>
      obtain ⟨x, hx⟩ := I.some hr
      exact ⟨_, by simp [Spec.step, I.gone d h2, hx], I.move (isIdle_iff.1 h1) h2 h3 hr hx⟩
    · trivial

theorem good_swap (I : Inv v0 s σ) (t a b : Nat) : Good eq lt v0 σ (swap s t a b) := by
  unfold Cow.swap
  split
  case isFalse => trivial
  case isTrue hc =>
    obtain ⟨h1, ⟨h2, _⟩, h3, _⟩ := hc
    split
    · next r r' hr hr' =>
      obtain ⟨x, hx⟩ := I.some hr
      obtain ⟨y, hy⟩ := I.some hr'
      exact ⟨_, by simp [Spec.step, hx, hy], I.swap (isIdle_iff.1 h1) h2 h3 hr hr' hx hy⟩
    · trivial

theorem good_destroy (I : Inv v0 s σ) (t h : Nat) : Good eq lt v0 σ (destroy s t h) := by
  unfold Cow.destroy
  split
  case isFalse => trivial
  case isTrue hc =>
    obtain ⟨h1, h2, _⟩ := hc
    split
    · next hr => exact ⟨_, by simp [Spec.step, I.null h hr], I.dropNull hr⟩
    · next p hr =>
      obtain ⟨b, hb⟩ := Option.ne_none_iff_exists'.1 (I.alH h p hr)
      simp only [release, hb]
      refine ⟨put σ h none, by simp [Spec.step, I.val h p b hr hb], ?_⟩
      cases hl : b.dec.2 with
      | false => simpa using I.drop (isIdle_iff.1 h1) h2 hr hb hl
      | true => simpa using I.dropLast (isIdle_iff.1 h1) h2 hr hb hl
    · trivial

theorem good_write (I : Inv v0 s σ) (t h : Nat) (v : V) : Good eq lt v0 σ (write s t h v) := by
  unfold Cow.write
  split
  case isFalse => trivial
  case isTrue hc =>
    obtain ⟨h1, h2, _⟩ := hc
    split
    · next p hr =>
      split
      · next hn => exact I.alH h p hr hn
      · next b hb =>
        show Inv v0 _ σ
        cases hl : b.isOne with
        | false => exact I.begin (pc := .clone h v) (isIdle_iff.1 h1) h2 hr hb rfl (Or.inl rfl) (by simp) (by simp)
        | true => exact I.begin (pc := .store h v) (isIdle_iff.1 h1) h2 hr hb rfl (Or.inr ⟨rfl, by simpa [Block.isOne] using hl⟩) (by simp) (by simp)
    · trivial

theorem good_assign (I : Inv v0 s σ) (t h : Nat) (v : V) (q : Nat) : Good eq lt v0 σ (assign s t h v q) := by
  unfold Cow.assign
  split
  case isFalse => trivial
  case isTrue hc =>
    obtain ⟨h1, h2, _⟩ := hc
    split
    · next hr =>
      split
      · next hq => exact ⟨_, by simp [Spec.step, I.null h hr], I.fill (isIdle_iff.1 h1) h2 hr hq⟩
      · trivial
    · next p hr =>
      split
      · next hn => exact I.alH h p hr hn
      · next b hb =>
        show Inv v0 _ σ
        cases hl : b.isOne with
        | false => exact I.begin (pc := .fresh h v) (isIdle_iff.1 h1) h2 hr hb rfl (Or.inl rfl) (by simp) (by simp)
        | true => exact I.begin (pc := .store h v) (isIdle_iff.1 h1) h2 hr hb rfl (Or.inr ⟨rfl, by simpa [Block.isOne] using hl⟩) (by simp) (by simp)
    · trivial

theorem good_read (I : Inv v0 s σ) (t h : Nat) : Good eq lt v0 σ (read s t h) := by
  unfold Cow.read
  split
  case isFalse => trivial
  case isTrue hc =>
    split
    · next p hr =>
      split
      · next hn => exact I.alH h p hr hn
      · next b hb => exact ⟨σ, by simp [Spec.step, I.val h p b hr hb], I⟩
    · trivial

theorem good_equal (hrefl : ∀ v, eq v v = true) (I : Inv v0 s σ) (t a b : Nat) : Good eq lt v0 σ (equal eq s t a b) := by
  unfold Cow.equal
  split
  case isFalse => trivial
  case isTrue hc =>
    split
    · next x y hx hy =>
      split
      · next e =>
        subst e
        refine ⟨σ, ?_, I⟩
        cases x with
        | none => simp [Spec.step, I.null a hx, I.null b hy, Spec.eqv]
        | some p =>
          obtain ⟨blk, hb⟩ := Option.ne_none_iff_exists'.1 (I.alH a p hx)
          simp [Spec.step, I.val a p blk hx hb, I.val b p blk hy hb, Spec.eqv, hrefl]
      · next e =>
        split
        · next p q =>
          obtain ⟨bp, hp⟩ := Option.ne_none_iff_exists'.1 (I.alH a p hx)
          obtain ⟨bq, hq⟩ := Option.ne_none_iff_exists'.1 (I.alH b q hy)
          simp only [both, hp, hq]
          exact ⟨σ, by simp [Spec.step, I.val a p bp hx hp, I.val b q bq hy hq, Spec.eqv], I⟩
        · next hne =>
          refine ⟨σ, ?_, I⟩
          cases x with
          | none => cases y with
            | none => exact absurd rfl e
            | some q =>
              obtain ⟨bq, hq⟩ := Option.ne_none_iff_exists'.1 (I.alH b q hy)
              simp [Spec.step, I.null a hx, I.val b q bq hy hq, Spec.eqv]
          | some p => cases y with
            | none =>
              obtain ⟨bp, hp⟩ := Option.ne_none_iff_exists'.1 (I.alH a p hx)
              simp [Spec.step, I.null b hy, I.val a p bp hx hp, Spec.eqv]
            | some q => exact absurd rfl (hne p q rfl)
    · trivial

theorem good_less (hirr : ∀ v, lt v v = false) (I : Inv v0 s σ) (t a b : Nat) : Good eq lt v0 σ (less lt s t a b) := by
  unfold Cow.less
  split
  case isFalse => trivial
  case isTrue hc =>
    split
    · next x y hx hy =>
      split
      · obtain ⟨z, hz⟩ := I.some hx
        exact ⟨σ, by simp [Spec.step, hz, I.null b hy, Spec.ltv], I⟩
      · next q =>
        obtain ⟨bq, hq⟩ := Option.ne_none_iff_exists'.1 (I.alH b q hy)
        split
        · exact ⟨σ, by simp [Spec.step, I.null a hx, I.val b q bq hy hq, Spec.ltv], I⟩
        · next p =>
          obtain ⟨bp, hp⟩ := Option.ne_none_iff_exists'.1 (I.alH a p hx)
          split
          · next e =>
            subst e
            exact ⟨σ, by simp [Spec.step, I.val a p bp hx hp, I.val b p bp hy hp, Spec.ltv, hirr], I⟩
          · simp only [both, hp, hq]
            exact ⟨σ, by simp [Spec.step, I.val a p bp hx hp, I.val b q bq hy hq, Spec.ltv], I⟩
    · trivial

theorem good_exit (I : Inv v0 s σ) (t : Nat) : Good eq lt v0 σ (exit s t) := by
  unfold Cow.exit
  split
  case isFalse => trivial
  case isTrue hc =>
    obtain ⟨h1, h2⟩ := hc
    split
    · trivial
    · next p hp =>
      obtain ⟨b, hb⟩ := Option.ne_none_iff_exists'.1 (I.alD p hp h2)
      simp only [release, hb]
      show Inv v0 _ σ
      cases hl : b.dec.2 with
      | false => simpa using I.exit (isIdle_iff.1 h1) hp h2 hb hl
      | true => simpa using I.exitLast (isIdle_iff.1 h1) hp h2 hb hl

theorem good_cont (I : Inv v0 s σ) (t q : Nat) : Good eq lt v0 σ (cont s t q) := by
  unfold Cow.cont
  cases ht : s.pc t with
  | idle => trivial
  | clone h v =>
    obtain ⟨_, p, hr⟩ := I.own t h (by rw [ht]; rfl)
    obtain ⟨b, hb⟩ := Option.ne_none_iff_exists'.1 (I.alH h p hr)
    simp only [hr, hb]
    split
    · next hq => exact I.allocate (st := true) (v := v) ht rfl (by simp) (by simp) hr hb hq
    · trivial
  | fresh h v =>
    obtain ⟨_, p, hr⟩ := I.own t h (by rw [ht]; rfl)
    obtain ⟨b, hb⟩ := Option.ne_none_iff_exists'.1 (I.alH h p hr)
    simp only [hr, hb]
    split
    · next hq => exact I.allocate (st := false) (v := v) ht rfl (by simp) (by simp) hr hb hq
    · trivial
  | reset h q v st =>
    obtain ⟨_, p, hr⟩ := I.own t h (by rw [ht]; rfl)
    obtain ⟨b, hb⟩ := Option.ne_none_iff_exists'.1 (I.alH h p hr)
    simp only [hr, release, hb]
    cases st with
    | true =>
      show Inv v0 _ σ
      cases hl : b.dec.2 with
      | false => simpa using I.reset ht hr hb hl rfl
      | true => simpa using I.resetLast ht hr hb hl rfl
    | false =>
      refine ⟨put σ h (some (some v)), by simp [Spec.step, I.val h p b hr hb], ?_⟩
      cases hl : b.dec.2 with
      | false => simpa using I.reset ht hr hb hl rfl
      | true => simpa using I.resetLast ht hr hb hl rfl
  | free p k =>
    obtain ⟨b, hb⟩ := Option.ne_none_iff_exists'.1 (I.freeing t p k ht)
    simp only [hb]
    have := I.free ht
    cases k <;> exact this
  | store h v =>
    obtain ⟨_, p, hr⟩ := I.own t h (by rw [ht]; rfl)
    obtain ⟨b, hb⟩ := Option.ne_none_iff_exists'.1 (I.alH h p hr)
    simp only [hr, hb]
    exact ⟨put σ h (some (some v)), by simp [Spec.step, I.val h p b hr hb], I.store ht hr hb⟩

theorem good_throw (I : Inv v0 s σ) (t : Nat) : Good eq lt v0 σ (throw s t) := by
  unfold Cow.throw
  split
  · next h => exact I.abandon (by simp [h]) (by simp [h])
  · next h => exact I.abandon (by simp [h]) (by simp [h])
  · trivial

theorem good_give (I : Inv v0 s σ) (t h t' : Nat) : Good eq lt v0 σ (give s t h t') := by
  unfold Cow.give
  split
  case isFalse => trivial
  case isTrue hc => exact I.give (isIdle_iff.1 hc.1) hc.2.1

theorem good_step (hrefl : ∀ v, eq v v = true) (hirr : ∀ v, lt v v = false) (I : Inv v0 s σ) (a : Act V) : Good eq lt v0 σ (step eq lt v0 s a) := by
  cases a with
  | construct t h v q => exact good_construct I t h v q
  | initDefault t q => exact good_initDefault I t q
  | dflt t h => exact good_dflt I t h
  | copy t d src => exact good_copy I t d src
  | move t d src => exact good_move I t d src
  | swap t a b => exact good_swap I t a b
  | destroy t h => exact good_destroy I t h
  | write t h v => exact good_write I t h v
  | assign t h v q => exact good_assign I t h v q
  | read t h => exact good_read I t h
  | equal t a b => exact good_equal hrefl I t a b
  | less t a b => exact good_less hirr I t a b
  | give t h t' => exact good_give I t h t'
  | exit t => exact good_exit I t
  | cont t q => exact good_cont I t q
  | throw t => exact good_throw I t

theorem good_run (hrefl : ∀ v, eq v v = true) (hirr : ∀ v, lt v v = false) (as : List (Act V)) : ∀ (s : St V) (σ : Spec.Vars V), Inv v0 s σ →
    ∃ s' es σ', run eq lt v0 s as = .ok s' es ∧ Spec.run eq lt v0 σ es = some σ' ∧ Inv v0 s' σ' := by
  induction as with
  | nil => intro s σ I; exact ⟨s, [], σ, rfl, rfl, I⟩
  | cons a as ih =>
    intro s σ I
    have hg := good_step hrefl hirr I a
    unfold run
    cases hs : step eq lt v0 s a with
    | blocked => simpa using ih s σ I
    | error => rw [hs] at hg; exact hg.elim
    | ok s1 e =>
      rw [hs] at hg
      cases e with
      | none =>
        obtain ⟨s', es, σ', h1, h2, h3⟩ := ih s1 σ hg
        exact ⟨s', es, σ', by simp [h1], h2, h3⟩
      | some e =>
        obtain ⟨σ1, h0, I1⟩ := hg
        obtain ⟨s', es, σ', h1, h2, h3⟩ := ih s1 σ1 I1
        exact ⟨s', e :: es, σ', by simp [h1], by simp [Spec.run, h0, h2], h3⟩

/-! ### C34 -/

/-- Whatever any number of threads do with their handles, in whatever order their steps are taken, everything they see — the values read,
    the results of `==` and `<` — is what they would see if each handle were a variable of type `V` of its own. -/
theorem C34_value_semantics (hrefl : ∀ v, eq v v = true) (hirr : ∀ v, lt v v = false) (as : List (Act V)) :
    ∃ s es, run eq lt v0 St.init as = .ok s es ∧ ∃ σ, Spec.run eq lt v0 (fun _ => none) es = some σ := by
  obtain ⟨s, es, σ, h1, h2, _⟩ := good_run (v0 := v0) hrefl hirr as St.init _ (Inv.init v0)
  exact ⟨s, es, h1, σ, h2⟩

/-- plain variables: an operation changes no variable that it does not name as a destination -/
def dests : Spec.Ev V → List Nat
  | .construct h _ => [h]
  | .dflt h => [h]
  | .copy d _ => [d]
  | .move d s => [d, s]
  | .swap a b => [a, b]
  | .destroy h => [h]
  | .set h _ => [h]
  | .read _ _ => []
  | .equal _ _ _ => []
  | .less _ _ _ => []

/-- what the thread would read through the handle now -/
def look (s : St V) (h : Nat) : Option V :=
  match s.handle h with
  | some (some p) => (s.heap p).map Block.value
  | _ => none

theorem look_eq (I : Inv v0 s σ) (h : Nat) : look s h = (σ h).join := by
  unfold look
  cases hh : s.handle h with
  | none => simp [I.gone h hh]
  | some r => cases r with
    | none => simp [I.null h hh]
    | some p =>
      obtain ⟨b, hb⟩ := Option.ne_none_iff_exists'.1 (I.alH h p hh)
      simp [hb, I.val h p b hh hb]

theorem spec_frame {σ σ' : Spec.Vars V} {e : Spec.Ev V} (h : Spec.step eq lt v0 σ e = some σ') (x : Nat) (hx : x ∉ dests e) : σ' x = σ x := by
  cases e <;> simp only [dests, List.mem_cons, List.not_mem_nil, or_false, not_or] at hx <;> simp only [Spec.step] at h <;> (repeat' split at h) <;>
    simp_all only [Option.some.injEq, reduceCtorEq] <;> subst h <;> simp [put, hx]

/-- After any history, one more step of any thread — a write through a handle, in particular — changes what can be read only through
    the handles it names; a step in the middle of an operation, or one that only reads, changes nothing that can be read. -/
theorem C34_others_unchanged (hrefl : ∀ v, eq v v = true) (hirr : ∀ v, lt v v = false) (as : List (Act V)) (a : Act V) {s s' : St V}
    {es : List (Spec.Ev V)} {e : Option (Spec.Ev V)} (hrun : run eq lt v0 St.init as = .ok s es) (hstep : step eq lt v0 s a = .ok s' e)
    (h : Nat) (hh : ∀ ev, e = some ev → h ∉ dests ev) : look s' h = look s h := by
  obtain ⟨s1, es1, σ, h1, h2, I⟩ := good_run (v0 := v0) hrefl hirr as St.init _ (Inv.init v0)
  rw [hrun] at h1; cases h1
  have hg := good_step hrefl hirr I a
  rw [hstep] at hg
  cases e with
  | none => rw [look_eq I, look_eq (show Inv v0 s' σ from hg)]
  | some ev =>
    obtain ⟨σ', h3, I'⟩ := hg
    rw [look_eq I, look_eq I', spec_frame h3 h (hh ev rfl)]

/-! ### C35 -/

/-- No execution uses memory that is not allocated; in particular nothing is freed twice. -/
theorem C35_no_use_after_free (hrefl : ∀ v, eq v v = true) (hirr : ∀ v, lt v v = false) (as : List (Act V)) :
    run eq lt v0 St.init as ≠ .error := by
  obtain ⟨s, es, h1, _⟩ := C34_value_semantics (v0 := v0) hrefl hirr as
  rw [h1]; simp

/-- At every moment: a block is allocated exactly when something refers to it (a handle, a thread that is about to install it
    in a handle, the default object before exit) or one thread is about to free it; and never both. -/
theorem C35_allocated_iff (hrefl : ∀ v, eq v v = true) (hirr : ∀ v, lt v v = false) (as : List (Act V)) {s : St V} {es : List (Spec.Ev V)}
    (hrun : run eq lt v0 St.init as = .ok s es) (b : Nat) :
    (s.heap b ≠ none ↔ (∃ x, Holds s x b) ∨ ∃ t k, s.pc t = .free b k) ∧
    ((∃ x, Holds s x b) → ∀ t k, s.pc t ≠ .free b k) ∧
    (∀ t t' k k', s.pc t = .free b k → s.pc t' = .free b k' → t = t') := by
  obtain ⟨s1, es1, σ, h1, h2, I⟩ := good_run (v0 := v0) hrefl hirr as St.init _ (Inv.init v0)
  rw [hrun] at h1; cases h1
  refine ⟨⟨?_, ?_⟩, ?_, fun t t' k k' => I.uniq t t' b k k'⟩
  · intro hb
    obtain ⟨blk, hb⟩ := Option.ne_none_iff_exists'.1 hb
    rcases Nat.eq_zero_or_pos blk.count with h0 | h0
    · exact Or.inr (I.zero b blk hb h0)
    · exact Or.inl ((I.cnt b blk hb).exists_of_pos h0)
  · rintro (⟨x, hx⟩ | ⟨t, k, hk⟩)
    · exact I.alive x b hx
    · exact I.freeing t b k hk
  · rintro ⟨x, hx⟩ t k hk
    exact I.freeH t b k hk x hx

/-- When no operation is under way, exactly the blocks that some handle or the default object refers to are allocated. -/
theorem C35_quiescent (hrefl : ∀ v, eq v v = true) (hirr : ∀ v, lt v v = false) (as : List (Act V)) {s : St V} {es : List (Spec.Ev V)}
    (hrun : run eq lt v0 St.init as = .ok s es) (hq : ∀ t, s.pc t = .idle) (b : Nat) :
    s.heap b ≠ none ↔ (∃ h, s.handle h = some (some b)) ∨ (s.dflt = some b ∧ s.exited = false) := by
  rw [(C35_allocated_iff hrefl hirr as hrun b).1]
  constructor
  · rintro (⟨x, hx⟩ | ⟨t, k, hk⟩)
    · cases x with
      | handle h => exact Or.inl ⟨h, hx⟩
      | thread t => obtain ⟨h, v, st, hp⟩ := hx; rw [hq] at hp; cases hp
      | dflt => exact Or.inr hx
    · rw [hq] at hk; cases hk
  · rintro (⟨h, hh⟩ | hd)
    · exact Or.inl ⟨.handle h, hh⟩
    · exact Or.inl ⟨.dflt, hd⟩

/-- Nothing is leaked: when every handle is gone, the program has exited (or never made a default object) and no operation is under
    way, nothing is allocated. -/
theorem C35_no_leak (hrefl : ∀ v, eq v v = true) (hirr : ∀ v, lt v v = false) (as : List (Act V)) {s : St V} {es : List (Spec.Ev V)}
    (hrun : run eq lt v0 St.init as = .ok s es) (hq : ∀ t, s.pc t = .idle) (hh : ∀ h, s.handle h = none)
    (hd : s.dflt = none ∨ s.exited = true) (b : Nat) : s.heap b = none := by
  by_contra hb
  rcases (C35_quiescent hrefl hirr as hrun hq b).1 hb with ⟨h, h1⟩ | ⟨h1, h2⟩
  · rw [hh] at h1; cases h1
  · rcases hd with h3 | h3
    · rw [h3] at h1; cases h1
    · rw [h3] at h2; cases h2

/-- The reference count, which `unique_instance` and `write` go by, is the number of references. -/
theorem C35_count (hrefl : ∀ v, eq v v = true) (hirr : ∀ v, lt v v = false) (as : List (Act V)) {s : St V} {es : List (Spec.Ev V)}
    (hrun : run eq lt v0 St.init as = .ok s es) (b : Nat) (blk : Block V) (hb : s.heap b = some blk) :
    ∃ L : List Holder, L.Nodup ∧ (∀ x, x ∈ L ↔ Holds s x b) ∧ blk.count = L.length := by
  obtain ⟨s1, es1, σ, h1, h2, I⟩ := good_run (v0 := v0) hrefl hirr as St.init _ (Inv.init v0)
  rw [hrun] at h1; cases h1
  obtain ⟨L, h3, h4, h5⟩ := I.cnt b blk hb
  exact ⟨L, h3, h4, h5.symm⟩

/-- No races on values: while a thread is about to store into a value, its handle is the only reference to that value, so no
    other thread can be reading, copying or storing it. -/
theorem C35_exclusive_store (hrefl : ∀ v, eq v v = true) (hirr : ∀ v, lt v v = false) (as : List (Act V)) {s : St V} {es : List (Spec.Ev V)}
    (hrun : run eq lt v0 St.init as = .ok s es) (t h p : Nat) (v : V) (ht : s.pc t = .store h v) (hp : s.handle h = some (some p)) :
    ∀ x, Holds s x p → x = .handle h := by
  obtain ⟨s1, es1, σ, h1, h2, I⟩ := good_run (v0 := v0) hrefl hirr as St.init _ (Inv.init v0)
  rw [hrun] at h1; cases h1
  obtain ⟨b, hb⟩ := Option.ne_none_iff_exists'.1 (I.alH h p hp)
  have h3 := I.will t h p b (by rw [ht]; rfl) hp hb
  intro x hx
  exact I.one hb h3 hx (show Holds s (.handle h) p from hp)

/-! ### a concrete execution -/

/-- two threads: handle 1 is a copy of handle 0 and belongs to thread 2; thread 1 writes through handle 0 while thread 2 destroys its
    handle between the test of the count and the copy. -/
def demo : List (Act Nat) :=
  [.construct 1 0 7 100, .copy 1 1 0, .give 1 1 2, .read 2 1, .write 1 0 8, .destroy 2 1, .cont 1 101, .cont 1 0, .cont 1 0, .cont 1 0, .read 1 0]

def evs : Run Nat → Option (List (Spec.Ev Nat))
  | .error => none
  | .ok _ es => some es

example : evs (run (fun a b => a == b) (fun a b => decide (a < b)) 0 St.init demo) =
    some [.construct 0 7, .copy 1 0, .read 1 7, .destroy 1, .set 0 8, .read 0 8] := by rfl

/-- the old block was freed by the writer, the new one is there -/
example : (match run (fun a b => a == b) (fun a b => decide (a < b)) 0 St.init demo with
    | .ok s _ => ((s.heap 100).isSome, (s.heap 101).map (fun b => (b.count, b.value)))
    | .error => (true, none)) = (false, some (1, 8)) := by rfl

/-- the hypothesis of the exclusive store theorem is met on the way -/
example : (match run (fun a b => a == b) (fun a b => decide (a < b)) 0 St.init (demo.take 9) with
    | .ok s _ => match s.pc 1 with
      | .store h v => (h, v) = (0, 8) ∧ s.handle h = some (some 101)
      | _ => False
    | .error => False) := by exact ⟨rfl, rfl⟩

/-- the default object, its release at exit and the end of all handles: nothing is left -/
example : (match run (fun a b => a == b) (fun a b => decide (a < b)) 0 St.init
      ([.initDefault 1 50, .dflt 1 0, .dflt 2 1, .equal 1 0 1, .assign 1 0 5 0, .cont 1 51, .cont 1 0, .exit 3, .destroy 2 1, .cont 2 0, .destroy 1 0, .cont 1 0] : List (Act Nat)) with
    | .ok s es => ((s.heap 50).isSome, (s.heap 51).isSome, s.handle 0, s.handle 1, es.length)
    | .error => (true, true, none, none, 0)) = (false, false, none, none, 5) := by rfl

end Verif.Cow
