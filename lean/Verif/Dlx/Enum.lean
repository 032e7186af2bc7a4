import Verif.Dlx.Try
import Mathlib.Data.List.Sublists
import Mathlib.Data.List.Dedup
/-
Which sets of rows a search has to find, and how they split by the first row that is chosen.
-/
namespace Verif.Dlx

variable {σ : Shape} {al al' P P' : Nat → Prop}

def Shape.Hits (σ : Shape) (r c : Nat) : Prop := ∃ k, k < σ.n ∧ σ.rowOf k = r ∧ σ.colOf k = c

def Shape.Agree (σ : Shape) (r r' : Nat) : Prop :=
  ∀ k l, k < σ.n → l < σ.n → σ.rowOf k = r → σ.rowOf l = r' → σ.colOf k = σ.colOf l → σ.colr k = σ.colr l ∧ 0 < σ.colr k

theorem Shape.Agree.symm {r r' : Nat} (h : σ.Agree r r') : σ.Agree r' r := by
  intro k l hk hl e1 e2 e3
  have := h l k hl hk e2 e1 e3.symm
  exact ⟨this.1.symm, by rw [← this.1]; exact this.2⟩

/-- a set of rows that can be chosen and covers the columns `P` -/
structure Comp (σ : Shape) (al P : Nat → Prop) (X : List Nat) : Prop where
  nodup : X.Nodup
  useful : ∀ r ∈ X, al r ∧ ∃ c, P c ∧ σ.Hits r c
  agree : ∀ r ∈ X, ∀ r' ∈ X, r ≠ r' → σ.Agree r r'
  cover : ∀ c, P c → ∃ r ∈ X, σ.Hits r c

theorem Comp.perm {X Y : List Nat} (h : Comp σ al P X) (p : X.Perm Y) : Comp σ al P Y :=
  ⟨p.nodup_iff.1 h.nodup, fun r hr => h.useful r (p.mem_iff.2 hr),
    fun r hr r' hr' => h.agree r (p.mem_iff.2 hr) r' (p.mem_iff.2 hr'),
    fun c hc => (h.cover c hc).elim fun r hr => ⟨r, p.mem_iff.1 hr.1, hr.2⟩⟩

structure Enum (σ : Shape) (al P : Nat → Prop) (L : List (List Nat)) : Prop where
  sound : ∀ X ∈ L, Comp σ al P X
  complete : ∀ Y, Comp σ al P Y → ∃ X ∈ L, X.Perm Y
  once : L.Pairwise fun X Y => ¬ X.Perm Y

theorem enum_done (hP : ∀ c, ¬ P c) : Enum σ al P [[]] := by
  refine ⟨?_, ?_, by simp⟩
  · intro X hX
    rw [List.mem_singleton] at hX; subst hX
    exact ⟨by simp, by simp, by simp, fun c hc => absurd hc (hP c)⟩
  · intro Y hY
    refine ⟨[], by simp, ?_⟩
    cases Y with
    | nil => exact List.Perm.refl _
    | cons r Y => obtain ⟨_, c, hc, _⟩ := hY.useful r (by simp); exact absurd hc (hP c)

theorem enum_exists (σ : Shape) (al P : Nat → Prop) : ∃ L, Enum σ al P L := by
  classical
  let R := ((List.range σ.n).map σ.rowOf).dedup
  have ndR : R.Nodup := List.nodup_dedup _
  refine ⟨R.sublists.filter (fun X => Comp σ al P X), ?_, ?_, ?_⟩
  · intro X hX
    simpa using (List.mem_filter.1 hX).2
  · intro Y hY
    have hsub : ∀ r ∈ Y, r ∈ R := by
      intro r hr
      obtain ⟨_, c, _, k, hk, e, _⟩ := hY.useful r hr
      simp only [R, List.mem_dedup, List.mem_map, List.mem_range]
      exact ⟨k, hk, e⟩
    have hp : (R.filter (· ∈ Y)).Perm Y := by
      rw [List.perm_ext_iff_of_nodup (ndR.filter _) hY.nodup]
      intro r
      simp only [List.mem_filter, decide_eq_true_eq]
      exact ⟨fun h => h.2, fun h => ⟨hsub r h, h⟩⟩
    refine ⟨R.filter (· ∈ Y), ?_, hp⟩
    rw [List.mem_filter]
    refine ⟨List.mem_sublists.2 List.filter_sublist, ?_⟩
    simp only [decide_eq_true_eq]
    exact hY.perm hp.symm
  · apply List.Pairwise.filter
    have h1 : R.sublists.Nodup := List.nodup_sublists.2 ndR
    refine h1.imp_of_mem ?_
    intro X Y hX hY hne hp
    apply hne
    rw [List.mem_sublists] at hX hY
    -- two sublists of a list without repetition with the same members are equal
    have gen : ∀ (R X Y : List Nat), R.Nodup → X.Sublist R → Y.Sublist R → X.Perm Y → X = Y := by
      intro R
      induction R with
      | nil => intro X Y _ hX hY _; rw [List.sublist_nil] at hX hY; rw [hX, hY]
      | cons a R ih =>
        intro X Y nd hX hY hp
        rw [List.nodup_cons] at nd
        rcases List.sublist_cons_iff.1 hX with hX' | ⟨X', rfl, hX'⟩ <;> rcases List.sublist_cons_iff.1 hY with hY' | ⟨Y', rfl, hY'⟩
        · exact ih X Y nd.2 hX' hY' hp
        · exact absurd (hX'.subset (hp.mem_iff.2 (by simp))) nd.1
        · exact absurd (hY'.subset (hp.mem_iff.1 (by simp))) nd.1
        · rw [ih X' Y' nd.2 hX' hY' ((List.perm_cons a).1 hp)]
    exact gen R X Y ndR hX hY hp

/-- the completions that choose row `r` first -/
theorem comp_cons (w : σ.Wf) {c0 r : Nat} (hc : P c0) (hsec : ∀ c, P c → σ.sec c = false) (hr : al r) (hh : σ.Hits r c0)
    (hal : ∀ ρ, al' ρ ↔ al ρ ∧ σ.Agree r ρ) (hP : ∀ c, P' c ↔ P c ∧ ¬ σ.Hits r c) {X : List Nat} :
    Comp σ al P (r :: X) ↔ Comp σ al' P' X := by
  have noself : ¬ σ.Agree r r := by
    obtain ⟨k, hk, e1, e2⟩ := hh
    intro ha
    have := (ha k k hk hk e1 e1 rfl).2
    have h0 := w.plain k hk (by rw [e2]; exact hsec c0 hc)
    omega
  have clash : ∀ ρ c, P c → σ.Hits r c → σ.Hits ρ c → ¬ σ.Agree r ρ := by
    rintro ρ c hPc ⟨k, hk, e1, e2⟩ ⟨l, hl, e3, e4⟩ ha
    have := (ha k l hk hl e1 e3 (e2.trans e4.symm)).2
    have h0 := w.plain k hk (by rw [e2]; exact hsec c hPc)
    omega
  constructor
  · intro h
    have nd := List.nodup_cons.1 h.nodup
    have hag : ∀ ρ ∈ X, σ.Agree r ρ := by
      intro ρ hρ
      exact h.agree r (by simp) ρ (by simp [hρ]) (by rintro rfl; exact nd.1 hρ)
    refine ⟨nd.2, ?_, ?_, ?_⟩
    · intro ρ hρ
      obtain ⟨ha, c, hPc, hhc⟩ := h.useful ρ (by simp [hρ])
      refine ⟨(hal ρ).2 ⟨ha, hag ρ hρ⟩, c, (hP c).2 ⟨hPc, ?_⟩, hhc⟩
      intro hrc
      exact clash ρ c hPc hrc hhc (hag ρ hρ)
    · intro a ha b hb hne
      exact h.agree a (by simp [ha]) b (by simp [hb]) hne
    · intro c hPc
      obtain ⟨hp, hnr⟩ := (hP c).1 hPc
      obtain ⟨ρ, hρ, hhρ⟩ := h.cover c hp
      rcases List.mem_cons.1 hρ with rfl | hρ
      · exact absurd hhρ hnr
      · exact ⟨ρ, hρ, hhρ⟩
  · intro h
    have hin : ∀ ρ ∈ X, al ρ ∧ σ.Agree r ρ := fun ρ hρ => (hal ρ).1 (h.useful ρ hρ).1
    refine ⟨List.nodup_cons.2 ⟨fun hm => noself (hin r hm).2, h.nodup⟩, ?_, ?_, ?_⟩
    · intro ρ hρ
      rcases List.mem_cons.1 hρ with rfl | hρ
      · exact ⟨hr, c0, hc, hh⟩
      · obtain ⟨_, c, hPc, hhc⟩ := h.useful ρ hρ
        exact ⟨(hin ρ hρ).1, c, ((hP c).1 hPc).1, hhc⟩
    · intro a ha b hb hne
      rcases List.mem_cons.1 ha with ea | ha' <;> rcases List.mem_cons.1 hb with eb | hb'
      · exact absurd (ea.trans eb.symm) hne
      · rw [ea]; exact (hin b hb').2
      · rw [eb]; exact (hin a ha').2.symm
      · exact h.agree a ha' b hb' hne
    · intro c hPc
      by_cases hrc : σ.Hits r c
      · exact ⟨r, by simp, hrc⟩
      · obtain ⟨ρ, hρ, hhρ⟩ := h.cover c ((hP c).2 ⟨hPc, hrc⟩)
        exact ⟨ρ, by simp [hρ], hhρ⟩

/-- branching on a column -/
theorem enum_branch (w : σ.Wf) {c0 : Nat} (hc : P c0) (hsec : ∀ c, P c → σ.sec c = false) (l : List Nat) (nd : l.Nodup)
    (hl : ∀ i, i ∈ l ↔ i < σ.n ∧ σ.colOf i = c0 ∧ al (σ.rowOf i)) (ali Pi : Nat → Nat → Prop)
    (hal : ∀ i ∈ l, ∀ ρ, ali i ρ ↔ al ρ ∧ σ.Agree (σ.rowOf i) ρ) (hP : ∀ i ∈ l, ∀ c, Pi i c ↔ P c ∧ ¬ σ.Hits (σ.rowOf i) c)
    (Lf : Nat → List (List Nat)) (hL : ∀ i ∈ l, Enum σ (ali i) (Pi i) (Lf i)) :
    Enum σ al P (l.flatMap fun i => (Lf i).map (σ.rowOf i :: ·)) := by
  have hcons : ∀ i ∈ l, ∀ X, Comp σ al P (σ.rowOf i :: X) ↔ Comp σ (ali i) (Pi i) X := by
    intro i hi X
    have hi' := (hl i).1 hi
    exact comp_cons w hc hsec hi'.2.2 ⟨i, hi'.1, rfl, hi'.2.1⟩ (hal i hi) (hP i hi)
  refine ⟨?_, ?_, ?_⟩
  · intro X hX
    obtain ⟨i, hi, hX⟩ := List.mem_flatMap.1 hX
    obtain ⟨X', hX', rfl⟩ := List.mem_map.1 hX
    exact (hcons i hi X').2 ((hL i hi).sound X' hX')
  · intro Y hY
    obtain ⟨r, hr, k, hk, e1, e2⟩ := hY.cover c0 hc
    have hk' : k ∈ l := (hl k).2 ⟨hk, e2, by rw [e1]; exact (hY.useful r hr).1⟩
    have hp : Y.Perm (r :: Y.erase r) := List.perm_cons_erase hr
    have h1 : Comp σ (ali k) (Pi k) (Y.erase r) := (hcons k hk' _).1 (by rw [e1]; exact hY.perm hp)
    obtain ⟨X, hX, hXp⟩ := (hL k hk').complete _ h1
    refine ⟨σ.rowOf k :: X, List.mem_flatMap.2 ⟨k, hk', List.mem_map.2 ⟨X, hX, rfl⟩⟩, ?_⟩
    rw [e1]
    exact (hXp.cons r).trans hp.symm
  · rw [List.flatMap_def, List.pairwise_flatten]
    constructor
    · intro M hM
      obtain ⟨i, hi, rfl⟩ := List.mem_map.1 hM
      rw [List.pairwise_map]
      refine (hL i hi).once.imp ?_
      intro X Y hn hp
      exact hn ((List.perm_cons _).1 hp)
    · rw [List.pairwise_map]
      refine nd.imp_of_mem ?_
      intro i j hi hj hne X hX Y hY hp
      obtain ⟨X', hX', rfl⟩ := List.mem_map.1 hX
      obtain ⟨Y', hY', rfl⟩ := List.mem_map.1 hY
      have hi' := (hl i).1 hi
      have hj' := (hl j).1 hj
      have hrne : σ.rowOf i ≠ σ.rowOf j := fun e => hne (w.one i j hi'.1 hj'.1 e (hi'.2.1.trans hj'.2.1.symm))
      have hc1 : Comp σ al P (σ.rowOf i :: X') := (hcons i hi X').2 ((hL i hi).sound X' hX')
      have hm : σ.rowOf j ∈ σ.rowOf i :: X' := hp.mem_iff.2 (by simp)
      have ha := (hc1.agree _ (by simp) _ hm hrne) i j hi'.1 hj'.1 rfl rfl (hi'.2.1.trans hj'.2.1.symm)
      have h0 := w.plain i hi'.1 (by rw [hi'.2.1]; exact hsec c0 hc)
      omega

end Verif.Dlx
