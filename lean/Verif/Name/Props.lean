import Verif.Name.Lemmas
import Mathlib.Data.List.Forall2
/-
C36: interned names.
-/
namespace Verif.Name
open Spec (Str holds first less)

theorem key_ok (signed : Bool) {r : Req} (h : r.ok) : ∀ c ∈ (r.key signed).2, c ≠ 0 := by
  intro c hc
  cases r with
  | dynamic s => cases s with
    | none => simp [Req.key] at hc
    | some s =>
      simp only [Req.key] at hc
      split at hc
      · simp at hc
      · exact h c hc
  | literal s =>
    have := List.all_eq_true.1 (List.all_takeWhile (p := fun c : BitVec 8 => c != 0) (l := s)) c hc
    simpa using this

theorem run_inv (signed : Bool) (rs : List (Req × Nat)) : ∀ (s s' : St) (ps : List Nat) (R : List (Nat × Str)), (∀ r ∈ rs, r.1.ok) → Inv R s →
    run signed s rs = some (s', ps) → Inv (R ++ rs.map (fun r => r.1.key signed)) s' ∧ (∀ h q, s.map.lookup h = some q → s'.map.lookup h = some q) ∧
      List.Forall₂ (fun r p => s'.map.lookup (r.1.key signed).1 = some p) rs ps ∧
      ∀ q a, IsPtr s q → holds s.mem q a → IsPtr s' q ∧ holds s'.mem q a := by
  induction rs with
  | nil =>
    intro s s' ps R _ I h
    simp only [run, Option.some.injEq, Prod.mk.injEq] at h
    obtain ⟨rfl, rfl⟩ := h
    exact ⟨by simpa using I, fun _ _ h => h, by simp, fun q a h1 h2 => ⟨h1, h2⟩⟩
  | cons r rs ih =>
    intro s s' ps R hok I h
    obtain ⟨r, base⟩ := r
    unfold run at h
    split at h
    · cases h
    · next s1 p h1 =>
      split at h
      · cases h
      · next s2 ps2 h2 =>
        cases h
        obtain ⟨I1, l1, m1, k1⟩ := I.step (key_ok signed (hok (r, base) (by simp))) h1
        obtain ⟨I2, m2, f2, k2⟩ := ih s1 s' ps2 _ (fun r hr => hok r (by simp [hr])) I1 h2
        refine ⟨by simpa [List.append_assoc] using I2, fun h q hq => m2 h q (m1 h q hq), List.Forall₂.cons (m2 _ _ l1) f2, ?_⟩
        intro q a h1 h2
        obtain ⟨h3, h4⟩ := k1 q a h1 h2
        exact k2 q a h3 h4

theorem first_some {R : List (Nat × Str)} {r : Nat × Str} (hr : r ∈ R) : ∃ a, first R r.1 = some a ∧ (r.1, a) ∈ R := by
  unfold first
  cases h : R.find? (fun x => decide (x.1 = r.1)) with
  | none =>
    rw [List.find?_eq_none] at h
    exact absurd (by simp) (h r hr)
  | some x =>
    refine ⟨x.2, rfl, ?_⟩
    have h1 := List.find?_some h
    have h2 := List.mem_of_find?_eq_some h
    simp only [decide_eq_true_eq] at h1
    rw [← h1]; exact h2

/-- Whatever names are made, from strings and from literals, in whatever order the threads get the lock and wherever memory is
    allocated: a name's characters are those of the first request with the same hash, and two names are equal exactly if these are the
    same. -/
theorem C36_exact (signed : Bool) (rs : List (Req × Nat)) (hok : ∀ r ∈ rs, r.1.ok) {s : St} {ps : List Nat}
    (hrun : run signed St.init rs = some (s, ps)) :
    let R := rs.map (fun r => r.1.key signed)
    ps.length = rs.length ∧
    (∀ (i : Nat) (r : Req × Nat) (p : Nat), rs[i]? = some r → ps[i]? = some p → ∃ a, first R (r.1.key signed).1 = some a ∧ holds s.mem p a) ∧
    (∀ (i j : Nat) (r r' : Req × Nat) (p p' : Nat), rs[i]? = some r → rs[j]? = some r' → ps[i]? = some p → ps[j]? = some p' →
      (p = p' ↔ first R (r.1.key signed).1 = first R (r'.1.key signed).1)) := by
  intro R
  obtain ⟨I, _, f, _⟩ := run_inv signed rs St.init s ps [] hok Inv.init hrun
  simp only [List.nil_append] at I
  have key : ∀ (i : Nat) (r : Req × Nat) (p : Nat), rs[i]? = some r → ps[i]? = some p → ∃ a, first R (r.1.key signed).1 = some a ∧ IsPtr s p ∧ holds s.mem p a := by
    intro i r p hr hp
    have hm : r.1.key signed ∈ R := List.mem_map.2 ⟨r, List.mem_of_getElem? hr, rfl⟩
    obtain ⟨a, ha, _⟩ := first_some hm
    obtain ⟨q, h1, h2, h3⟩ := I.so _ a ha
    have : s.map.lookup (r.1.key signed).1 = some p := by
      have hi : i < rs.length := (List.getElem?_eq_some_iff.1 hr).1
      have hi' : i < ps.length := (List.getElem?_eq_some_iff.1 hp).1
      have := (List.forall₂_iff_get.1 f).2 i hi hi'
      rw [List.get_eq_getElem, List.get_eq_getElem] at this
      rwa [(List.getElem?_eq_some_iff.1 hr).2, (List.getElem?_eq_some_iff.1 hp).2] at this
    rw [h1] at this
    cases this
    exact ⟨a, ha, h2, h3⟩
  refine ⟨f.length_eq.symm, fun i r p hr hp => ?_, fun i j r r' p p' hr hr' hp hp' => ?_⟩
  · obtain ⟨a, h1, _, h3⟩ := key i r p hr hp
    exact ⟨a, h1, h3⟩
  · obtain ⟨a, h1, h2, h3⟩ := key i r p hr hp
    obtain ⟨b, h1', h2', h3'⟩ := key j r' p' hr' hp'
    rw [h1, h1', I.pool.ptr_eq h2 h2' h3 h3', Option.some_inj]

/-- the string that a request means -/
def Req.str : Req → Str
  | .dynamic none => []
  | .dynamic (some s) => s
  | .literal s => cPart s

theorem key_str (signed : Bool) (r : Req) : (r.key signed).2 = r.str := by
  cases r with
  | dynamic s => cases s with
    | none => rfl
    | some s => simp only [Req.key, Req.str]; split <;> simp_all
  | literal s => rfl

/-- If no two of the strings asked for have the same hash (and literals contain no NUL, so that equal strings have equal hashes),
    names are equal exactly if the strings are equal, their characters are those of the string, and they are false exactly if the
    string is empty. -/
theorem C36_equal_iff_partial (signed : Bool) (rs : List (Req × Nat)) (hok : ∀ r ∈ rs, r.1.ok) {s : St} {ps : List Nat}
    (hrun : run signed St.init rs = some (s, ps))
    (hinj : ∀ r ∈ rs, ∀ r' ∈ rs, nameHash signed r.1.str = nameHash signed r'.1.str → r.1.str = r'.1.str)
    (hnul : ∀ r ∈ rs, ∀ l, r.1 = .literal l → cPart l = l) {i j : Nat} {r r' : Req × Nat} {p p' : Nat}
    (hr : rs[i]? = some r) (hr' : rs[j]? = some r') (hp : ps[i]? = some p) (hp' : ps[j]? = some p') :
    (p = p' ↔ r.1.str = r'.1.str) ∧ holds s.mem p r.1.str ∧ (isNonEmpty p = false ↔ r.1.str = []) := by
  have hkey : ∀ r ∈ rs, r.1.key signed = (nameHash signed r.1.str, r.1.str) := by
    intro r hr
    obtain ⟨q, b⟩ := r
    cases q with
    | dynamic s => cases s with
      | none => rfl
      | some s => simp only [Req.key, Req.str]; split <;> simp_all
    | literal l => simp only [Req.key, Req.str]; rw [hnul _ hr l rfl]
  have hfirst : ∀ r ∈ rs, first (rs.map (fun r => r.1.key signed)) (r.1.key signed).1 = some r.1.str := by
    intro r hr
    obtain ⟨a, h1, h2⟩ := first_some (R := rs.map (fun r => r.1.key signed)) (List.mem_map.2 ⟨r, hr, rfl⟩)
    obtain ⟨r2, h3, h4⟩ := List.mem_map.1 h2
    rw [hkey r hr, hkey r2 h3] at h4
    simp only [Prod.mk.injEq] at h4
    rw [h1, ← h4.2, hinj r2 h3 r hr h4.1]
  obtain ⟨_, h2, h3⟩ := C36_exact signed rs hok hrun
  have m := List.mem_of_getElem? hr
  have m' := List.mem_of_getElem? hr'
  obtain ⟨a, h4, h5⟩ := h2 i r p hr hp
  rw [hfirst r m] at h4
  cases h4
  refine ⟨?_, h5, ?_⟩
  · rw [h3 i j r r' p p' hr hr' hp hp', hfirst r m, hfirst r' m', Option.some_inj]
  · obtain ⟨I, _, f, _⟩ := run_inv signed rs St.init s ps [] hok Inv.init hrun
    have hp : IsPtr s p := by
      simp only [List.nil_append] at I
      obtain ⟨q, g1, g2, g3⟩ := I.so _ _ (hfirst r m)
      have hi : i < rs.length := (List.getElem?_eq_some_iff.1 hr).1
      have hi' : i < ps.length := (List.getElem?_eq_some_iff.1 hp).1
      have := (List.forall₂_iff_get.1 f).2 i hi hi'
      rw [List.get_eq_getElem, List.get_eq_getElem] at this
      rw [(List.getElem?_eq_some_iff.1 hr).2, (List.getElem?_eq_some_iff.1 hp).2, g1] at this
      cases this
      exact g2
    have := I.pool.ptr_eq hp (Or.inl rfl) h5 (b := []) I.pool.zero
    rw [← this, isNonEmpty]; simp

/-- A name never changes: once a request was answered, the characters at its pointer stay the same, whatever is interned later. -/
theorem C36_stable (signed : Bool) (rs rs' : List (Req × Nat)) (hok : ∀ r ∈ rs, r.1.ok) (hok' : ∀ r ∈ rs', r.1.ok) {s s' : St} {ps ps' : List Nat}
    (hrun : run signed St.init rs = some (s, ps)) (hrun' : run signed s rs' = some (s', ps')) (p : Nat) (hp : p ∈ ps) (a : Str)
    (ha : holds s.mem p a) : holds s'.mem p a := by
  obtain ⟨I, _, f, _⟩ := run_inv signed rs St.init s ps [] hok Inv.init hrun
  obtain ⟨_, _, _, k⟩ := run_inv signed rs' s s' ps' _ hok' I hrun'
  obtain ⟨i, hi, rfl⟩ := List.getElem_of_mem hp
  have hi' : i < rs.length := by rw [f.length_eq]; exact hi
  have h1 := (List.forall₂_iff_get.1 f).2 i hi' hi
  obtain ⟨b, h2, _⟩ := first_some (R := rs.map (fun r => r.1.key signed)) (List.mem_map.2 ⟨rs[i], by simp, rfl⟩)
  obtain ⟨q, h3, h4, h5⟩ := I.so _ b (by simpa using h2)
  rw [List.get_eq_getElem, List.get_eq_getElem] at h1
  rw [h1] at h3
  cases h3
  exact (k _ a h4 ha).2

theorem less_irrefl (a : Str) : less a a = false := by
  induction a with
  | nil => rfl
  | cons c cs ih => simp [less, ih]

theorem less_total {a b : Str} : less a b = false → less b a = false → a = b := by
  induction a generalizing b with
  | nil => cases b <;> simp [less]
  | cons c cs ih =>
    cases b with
    | nil => simp [less]
    | cons d ds =>
      simp only [less]
      by_cases e : c = d
      · subst e; simp only [if_true]; intro h1 h2; rw [ih h1 h2]
      · rw [if_neg e, if_neg (Ne.symm e)]
        intro h1 h2
        simp only [decide_eq_false_iff_not, Nat.not_lt] at h1 h2
        exact absurd (BitVec.eq_of_toNat_eq (by omega)) e

/-- `==` (of pointers) and `<` (of characters) fit together, always: of any two names exactly one is less, or they are equal. -/
theorem C36_order_consistent (signed : Bool) (rs : List (Req × Nat)) (hok : ∀ r ∈ rs, r.1.ok) {s : St} {ps : List Nat}
    (hrun : run signed St.init rs = some (s, ps)) {p q : Nat} (hp : p ∈ ps) (hq : q ∈ ps) :
    ∃ a b, holds s.mem p a ∧ holds s.mem q b ∧ (p = q ↔ less a b = false ∧ less b a = false) := by
  obtain ⟨h0, h1, h2⟩ := C36_exact signed rs hok hrun
  obtain ⟨i, hi, rfl⟩ := List.getElem_of_mem hp
  obtain ⟨j, hj, rfl⟩ := List.getElem_of_mem hq
  have gi : rs[i]? = some rs[i] := by rw [List.getElem?_eq_getElem]
  have gj : rs[j]? = some rs[j] := by rw [List.getElem?_eq_getElem]
  have gi' : ps[i]? = some ps[i] := by rw [List.getElem?_eq_getElem]
  have gj' : ps[j]? = some ps[j] := by rw [List.getElem?_eq_getElem]
  obtain ⟨a, ha, ha'⟩ := h1 i _ _ gi gi'
  obtain ⟨b, hb, hb'⟩ := h1 j _ _ gj gj'
  refine ⟨a, b, ha', hb', ?_⟩
  rw [h2 i j _ _ _ _ gi gj gi' gj', ha, hb, Option.some_inj]
  constructor
  · rintro rfl; exact ⟨less_irrefl a, less_irrefl a⟩
  · rintro ⟨h3, h4⟩; exact less_total h3 h4

/-- the order by which the pool's set is searched takes exactly equal strings for equivalent -/
theorem C36_set_order (signed : Bool) (a b : Str) (ha : ∀ c ∈ a, c ≠ 0) (hb : ∀ c ∈ b, c ≠ 0) :
    (strLess signed a b = false ∧ strLess signed b a = false) ↔ a = b := by
  have val_inj : ∀ c d, strLess.val signed c = strLess.val signed d → c = d := by
    intro c d h
    unfold strLess.val at h
    cases signed
    · simp only [Bool.false_eq_true, if_false] at h
      exact BitVec.eq_of_toNat_eq (by exact_mod_cast h)
    · simp only [if_true] at h
      exact BitVec.eq_of_toInt_eq h
  constructor
  · rintro ⟨h1, h2⟩
    induction a generalizing b with
    | nil =>
      cases b with
      | nil => rfl
      | cons d ds =>
        simp only [strLess, decide_eq_false_iff_not] at h1 h2
        exact absurd (val_inj d 0 (by omega)) (hb d (by simp))
    | cons c cs ih =>
      cases b with
      | nil =>
        simp only [strLess, decide_eq_false_iff_not] at h1 h2
        exact absurd (val_inj c 0 (by omega)) (ha c (by simp))
      | cons d ds =>
        simp only [strLess] at h1 h2
        by_cases e : c = d
        · subst e
          simp only [if_true] at h1 h2
          rw [ih ds (fun c hc => ha c (by simp [hc])) (fun c hc => hb c (by simp [hc])) h1 h2]
        · rw [if_neg e] at h1
          rw [if_neg (Ne.symm e)] at h2
          simp only [decide_eq_false_iff_not] at h1 h2
          exact absurd (val_inj c d (by omega)) e
  · rintro rfl
    have : strLess signed a a = false := by
      clear ha hb
      induction a with
      | nil => rfl
      | cons c cs ih => simp [strLess, ih]
    exact ⟨this, this⟩

/-! ### where the property fails -/

/-- "wg0ikmzrgv44k" -/
def collA : Str := [0x77, 0x67, 0x30, 0x69, 0x6b, 0x6d, 0x7a, 0x72, 0x67, 0x76, 0x34, 0x34, 0x6b]
/-- "ay1xpg4wc1tig" -/
def collB : Str := [0x61, 0x79, 0x31, 0x78, 0x70, 0x67, 0x34, 0x77, 0x63, 0x31, 0x74, 0x69, 0x67]

/-- The property is false in general: these two strings have the same 64 bit hash, so the second name made is the first one — equal
    to it and with its characters. -/
theorem C36_collision_violated : ∃ s p, run true St.init [(.dynamic (some collA), 100), (.dynamic (some collB), 0)] = some (s, [p, p]) ∧
    collA ≠ collB ∧ holds s.mem p collA ∧ ¬ holds s.mem p collB := by
  have hh : nameHash true collA = nameHash true collB := by decide +kernel
  have hne : collA ≠ collB := by decide
  cases hrun : run true St.init [(.dynamic (some collA), 100), (.dynamic (some collB), 0)] with
  | none => exact absurd hrun (by
      have : (run true St.init [(.dynamic (some collA), 100), (.dynamic (some collB), 0)]).isSome = true := by decide +kernel
      intro h; rw [h] at this; cases this)
  | some x =>
    obtain ⟨s, ps⟩ := x
    have hok : ∀ r ∈ [(Req.dynamic (some collA), 100), (Req.dynamic (some collB), 0)], r.1.ok := by
      intro r hr
      simp only [List.mem_cons, List.not_mem_nil, or_false] at hr
      rcases hr with rfl | rfl
      · show ∀ c ∈ collA, c ≠ 0
        decide
      · show ∀ c ∈ collB, c ≠ 0
        decide
    obtain ⟨h1, h2, h3⟩ := C36_exact true _ hok hrun
    match ps, h1 with
    | [p, q], _ =>
      have k1 : (Req.dynamic (some collA)).key true = (nameHash true collA, collA) := by decide +kernel
      have k2 : (Req.dynamic (some collB)).key true = (nameHash true collA, collB) := by rw [hh]; decide +kernel
      obtain ⟨a, h4, h5⟩ := h2 0 _ p rfl rfl
      have e : p = q := (h3 0 1 _ _ p q rfl rfl rfl rfl).2 (by rw [k1, k2])
      subst e
      have : a = collA := by
        simp only [List.map_cons, List.map_nil, k1, k2, first] at h4
        simp only [List.find?, decide_true, Option.map_some, Option.some.injEq] at h4
        exact h4.symm
      subst this
      exact ⟨s, p, rfl, hne, h5, fun h => hne (holds_unique h5 h)⟩

/-- Static names disagree with names about literals that contain NULs: the literals "a\0b" and "a" are different static names but the
    same name. -/
theorem C36_literal_nul_violated : staticEq true [0x61, 0, 0x62] [0x61] = false ∧
    ∃ s p, run true St.init [(.literal [0x61, 0, 0x62], 100), (.literal [0x61], 0)] = some (s, [p, p]) := by
  refine ⟨by decide +kernel, ?_⟩
  have : (run true St.init [(.literal [0x61, 0, 0x62], 100), (.literal [0x61], 0)]).map Prod.snd = some [100, 100] := by decide +kernel
  cases h : run true St.init [(.literal [0x61, 0, 0x62], 100), (.literal [0x61], 0)] with
  | none => rw [h] at this; cases this
  | some x =>
    obtain ⟨s, ps⟩ := x
    rw [h] at this
    simp only [Option.map_some, Option.some.injEq] at this
    subst this
    exact ⟨s, 100, rfl⟩

/-- strings and literals, with a repetition: "foo", "bar"_name, "foo"_name, null, "" -/
example : (run true St.init [(.dynamic (some [0x66, 0x6f, 0x6f]), 100), (.literal [0x62, 0x61, 0x72], 0), (.literal [0x66, 0x6f, 0x6f], 0),
    (.dynamic none, 0), (.dynamic (some []), 0)]).map Prod.snd = some [100, 104, 100, 0, 0] := by decide +kernel

example : nameHash true [0x66, 0x6f, 0x6f] ≠ nameHash true [0x62, 0x61, 0x72] := by decide +kernel

end Verif.Name
