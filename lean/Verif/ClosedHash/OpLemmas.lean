import Verif.ClosedHash.Lemmas
import Mathlib.Tactic.Tauto

namespace Verif.ClosedHash
open Verif.Ring

variable {α K : Type}

/-- nodes in iteration order, given the chains (home node, misplaced nodes) -/
def used (gs : List (Nat × List Nat)) : List Nat := gs.flatMap (fun g => g.1 :: g.2)

@[simp] theorem used_nil : used [] = [] := rfl
@[simp] theorem used_cons (g : Nat × List Nat) (gs) : used (g :: gs) = g.1 :: (g.2 ++ used gs) := by simp [used]
@[simp] theorem used_append (a b : List (Nat × List Nat)) : used (a ++ b) = used a ++ used b := by simp [used]

theorem mem_used {gs : List (Nat × List Nat)} {n : Nat} : n ∈ used gs ↔ ∃ g ∈ gs, n ∈ g.1 :: g.2 := by
  simp [used, List.mem_flatMap]

/-- relation: keys of two values are inequivalent -/
def Diff (keq : K → K → Bool) (key : α → K) (a b : α) : Prop := keq (key a) (key b) = false

structure Inv (hash : K → Nat) (keq : K → K → Bool) (key : α → K) (h : Hdr α) (free : List Nat) (gs : List (Nat × List Nat)) :
    Prop where
  r : R h free (used gs)
  lt : ∀ n, n ∈ free ++ used gs ↔ n < h.cap
  size : h.size = (used gs).length
  cap : 0 < h.cap
  sf : ∀ n ∈ free, h.state n = 0 ∧ h.val n = none
  grp : ∀ g ∈ gs, h.state g.1 = 1 ∧ (∀ m ∈ g.2, h.state m = 2) ∧ ∀ n ∈ g.1 :: g.2, ∃ v, h.val n = some v ∧ hash (key v) % h.cap = g.1
  keys : ((used gs).filterMap h.val).Pairwise (Diff keq key)

section
variable {hash : K → Nat} {keq : K → K → Bool} {key : α → K} {h : Hdr α} {free : List Nat} {gs : List (Nat × List Nat)}

theorem Inv.used_val (i : Inv hash keq key h free gs) (n : Nat) (hn : n ∈ used gs) : ∃ v, h.val n = some v := by
  obtain ⟨g, hg, hm⟩ := mem_used.1 hn
  obtain ⟨v, hv, _⟩ := (i.grp g hg).2.2 n hm
  exact ⟨v, hv⟩

theorem Inv.free_ne (i : Inv hash keq key h free gs) (hs : h.cap ≠ h.size) : free ≠ [] := by
  intro e
  subst e
  have nd : (used gs).Nodup := (List.nodup_cons.1 i.r.ndU).2
  have hp : (used gs).Perm (List.range h.cap) := by
    rw [List.perm_ext_iff_of_nodup nd List.nodup_range]
    intro a
    rw [List.mem_range, ← i.lt]; simp
  have := hp.length_eq
  rw [List.length_range, ← i.size] at this
  exact hs this.symm

theorem Inv.size_le (i : Inv hash keq key h free gs) : free.length + h.size = h.cap := by
  have nd : (free ++ used gs).Nodup := by
    have := i.r.nd
    rw [List.nodup_cons, List.nodup_cons] at this
    exact this.2.2
  have hp : (free ++ used gs).Perm (List.range h.cap) := by
    rw [List.perm_ext_iff_of_nodup nd List.nodup_range]
    intro a
    rw [List.mem_range, ← i.lt]
  have := hp.length_eq
  rw [List.length_range, List.length_append, ← i.size] at this
  exact this

/-- fresh tables satisfy the invariant -/
theorem fresh_inv (hash : K → Nat) (keq : K → K → Bool) (key : α → K) (n : Nat) (hn : 0 < n) :
    Inv hash keq key (freshTable n : Hdr α) (List.range n) [] := by
  obtain ⟨r, c, s, f⟩ := fresh_spec (α := α) n hn
  refine ⟨r, ?_, s, by omega, ?_, by simp, by simp⟩
  · intro i; simp [c]
  · intro i hi; exact f i (by simpa using hi)

/-! ### searching a chain -/

theorem findChain_spec (k : K) (A : List Nat) (f : Nat) (rest D : List Nat) (fuel : Nat)
    (hr : Ring h.next h.prior h.U (A ++ f :: (rest ++ D))) (hU : h.U ∉ rest)
    (hv : ∀ n ∈ f :: rest, ∃ v, h.val n = some v) (hst : ∀ n ∈ rest, h.state n = 2)
    (hD : firstOf D h.U = h.U ∨ h.state (firstOf D h.U) = 1) (hf : rest.length < fuel) :
    ∃ it, h.findChain keq key k h.U fuel f = some it ∧
      ((it = h.U ∧ ∀ n ∈ f :: rest, ∀ v, h.val n = some v → keq k (key v) = false) ∨
       (it ∈ f :: rest ∧ ∃ v, h.val it = some v ∧ keq k (key v) = true)) := by
  induction rest generalizing A f fuel with
  | nil =>
    obtain ⟨fuel, rfl⟩ : ∃ m, fuel = m + 1 := ⟨fuel - 1, by simp at hf; omega⟩
    obtain ⟨v, hv'⟩ := hv f (by simp)
    simp only [Hdr.findChain, hv']
    by_cases hk : keq k (key v) = true
    · rw [if_pos hk]; exact ⟨f, rfl, Or.inr ⟨by simp, v, hv', hk⟩⟩
    · rw [if_neg hk]
      have hn := (ring_mid hr).2
      simp only [List.nil_append] at hn
      refine ⟨h.U, ?_, Or.inl ⟨rfl, ?_⟩⟩
      · rw [hn, if_neg]
        rintro ⟨a, b⟩
        rcases hD with c | c
        · exact a c
        · exact b c
      · intro n hn' w hw
        simp only [List.mem_singleton] at hn'
        subst hn'
        rw [hv'] at hw; cases hw
        simpa using hk
  | cons m rest ih =>
    obtain ⟨fuel, rfl⟩ : ∃ m, fuel = m + 1 := ⟨fuel - 1, by simp at hf; omega⟩
    obtain ⟨v, hv'⟩ := hv f (by simp)
    simp only [Hdr.findChain, hv']
    by_cases hk : keq k (key v) = true
    · rw [if_pos hk]; exact ⟨f, rfl, Or.inr ⟨by simp, v, hv', hk⟩⟩
    · rw [if_neg hk]
      have hn := (ring_mid hr).2
      simp only [List.cons_append, firstOf_cons] at hn
      have hm : m ≠ h.U := by intro e; apply hU; simp [e]
      have hms : h.state m ≠ 1 := by rw [hst m (by simp)]; omega
      rw [hn, if_pos ⟨hm, hms⟩]
      obtain ⟨it, h1, h2⟩ := ih (A ++ [f]) m fuel (by simpa using hr) (by intro hh; apply hU; simp [hh])
        (fun n hn => hv n (by simp at hn ⊢; tauto)) (fun n hn => hst n (by simp [hn])) (by simp at hf; omega)
      refine ⟨it, h1, ?_⟩
      rcases h2 with ⟨e, h2⟩ | ⟨e, h2⟩
      · left
        refine ⟨e, fun n hn w hw => ?_⟩
        simp only [List.mem_cons] at hn
        rcases hn with rfl | hn
        · rw [hv'] at hw; cases hw; simpa using hk
        · exact h2 n (by simpa using hn) w hw
      · right; exact ⟨by simp at e ⊢; tauto, h2⟩

/-- where a home node sits -/
theorem Inv.home_split (i : Inv hash keq key h free gs) {b : Nat} (hb : b ∈ used gs) (hs : h.state b = 1) :
    ∃ G1 ms G2, gs = G1 ++ (b, ms) :: G2 := by
  obtain ⟨g, hg, hm⟩ := mem_used.1 hb
  simp only [List.mem_cons] at hm
  rcases hm with rfl | hm
  · obtain ⟨G1, G2, e⟩ := List.append_of_mem hg
    exact ⟨G1, g.2, G2, e⟩
  · have := (i.grp g hg).2.1 b hm; omega

theorem Inv.mis_split (i : Inv hash keq key h free gs) {b : Nat} (hb : b ∈ used gs) (hs : h.state b ≠ 1) :
    ∃ G1 g m1 m2 G2, gs = G1 ++ (g, m1 ++ b :: m2) :: G2 := by
  obtain ⟨g, hg, hm⟩ := mem_used.1 hb
  simp only [List.mem_cons] at hm
  rcases hm with rfl | hm
  · exact absurd (i.grp g hg).1 hs
  · obtain ⟨G1, G2, e⟩ := List.append_of_mem hg
    obtain ⟨m1, m2, e'⟩ := List.append_of_mem hm
    exact ⟨G1, g.1, m1, m2, G2, by rw [← e']; exact e⟩

theorem Inv.node_cases (i : Inv hash keq key h free gs) {b : Nat} (hb : b < h.cap) :
    (b ∈ free ∧ h.state b = 0) ∨ (b ∈ used gs ∧ (h.state b = 1 ∨ h.state b = 2)) := by
  rcases List.mem_append.1 ((i.lt b).2 hb) with h' | h'
  · exact Or.inl ⟨h', (i.sf b h').1⟩
  · refine Or.inr ⟨h', ?_⟩
    obtain ⟨g, hg, hm⟩ := mem_used.1 h'
    simp only [List.mem_cons] at hm
    rcases hm with rfl | hm
    · exact Or.inl (i.grp g hg).1
    · exact Or.inr ((i.grp g hg).2.1 b hm)

theorem Inv.group_end (i : Inv hash keq key h free (G2)) : firstOf (used G2) h.U = h.U ∨ h.state (firstOf (used G2) h.U) = 1 := by
  cases G2 with
  | nil => left; rfl
  | cons g G2 => right; simp only [used_cons, firstOf_cons]; exact (i.grp g (by simp)).1

theorem group_end' {G1 G2 : List (Nat × List Nat)} (i : Inv hash keq key h free (G1 ++ G2)) :
    firstOf (used G2) h.U = h.U ∨ h.state (firstOf (used G2) h.U) = 1 := by
  cases G2 with
  | nil => left; rfl
  | cons g G2 => right; simp only [used_cons, firstOf_cons]; exact (i.grp g (by simp)).1

/-- chain search started at a home node -/
theorem Inv.chain (i : Inv hash keq key h free gs) (k : K) {b : Nat} {G1 ms G2} (e : gs = G1 ++ (b, ms) :: G2) :
    ∃ it, h.findChain keq key k h.U (h.cap + 1) b = some it ∧
      ((it = h.U ∧ ∀ n ∈ b :: ms, ∀ v, h.val n = some v → keq k (key v) = false) ∨
       (it ∈ b :: ms ∧ ∃ v, h.val it = some v ∧ keq k (key v) = true)) := by
  subst e
  have hg : (b, ms) ∈ G1 ++ (b, ms) :: G2 := by simp
  have hU : h.U ∉ used (G1 ++ (b, ms) :: G2) := (List.nodup_cons.1 i.r.ndU).1
  apply findChain_spec k (used G1) b ms (used G2)
  · have := i.r.ru
    rw [used_append, used_cons] at this
    exact this
  · intro hh; apply hU; rw [mem_used]; exact ⟨_, hg, by simp [hh]⟩
  · intro n hn
    obtain ⟨v, hv, _⟩ := (i.grp _ hg).2.2 n hn
    exact ⟨v, hv⟩
  · exact (i.grp _ hg).2.1
  · have : G1 ++ (b, ms) :: G2 = (G1 ++ [(b, ms)]) ++ G2 := by simp
    rw [this] at i
    exact group_end' i
  · have := i.size_le
    have h2 := i.size
    simp only [used_append, used_cons, List.length_append, List.length_cons] at h2
    omega

/-- `find`: either nothing with an equivalent key is stored, or the returned node holds it. -/
theorem Inv.find_spec (ok : KeyOk hash keq) (i : Inv hash keq key h free gs) (k : K) :
    ∃ it, CSet.find hash keq key (some h) k = some it ∧
      ((it = h.U ∧ ∀ n ∈ used gs, ∀ v, h.val n = some v → keq k (key v) = false) ∨
       (it ∈ used gs ∧ ∃ v, h.val it = some v ∧ keq k (key v) = true)) := by
  simp only [CSet.find]
  have hb : h.bucket hash k < h.cap := Nat.mod_lt _ i.cap
  have elsewhere : ∀ g ∈ gs, g.1 ≠ h.bucket hash k → ∀ n ∈ g.1 :: g.2, ∀ v, h.val n = some v → keq k (key v) = false := by
    intro g hg hne n hn v hv
    obtain ⟨w, hw, he⟩ := (i.grp g hg).2.2 n hn
    rw [hv] at hw; cases hw
    cases hq : keq k (key v) with
    | false => rfl
    | true =>
      exfalso; apply hne
      rw [← he, ← ok.hash _ _ hq]; rfl
  by_cases hs : h.state (h.bucket hash k) = 1
  · rw [if_neg (by simpa using hs)]
    rcases i.node_cases hb with ⟨_, h0⟩ | ⟨hm, _⟩
    · omega
    · obtain ⟨G1, ms, G2, e⟩ := i.home_split hm hs
      obtain ⟨it, h1, h2⟩ := i.chain k e
      refine ⟨it, h1, ?_⟩
      rcases h2 with ⟨e', h2⟩ | ⟨e', h2⟩
      · left
        refine ⟨e', fun n hn v hv => ?_⟩
        obtain ⟨g, hg, hng⟩ := mem_used.1 hn
        by_cases hgb : g.1 = h.bucket hash k
        · -- the same group, by uniqueness of nodes
          have : g = (h.bucket hash k, ms) := by
            have nd : (used gs).Nodup := (List.nodup_cons.1 i.r.ndU).2
            rw [e] at hg nd
            simp only [List.mem_append, List.mem_cons] at hg
            rcases hg with hg | rfl | hg
            · exfalso
              rw [used_append, used_cons, List.nodup_append] at nd
              exact nd.2.2 g.1 (mem_used.2 ⟨g, hg, by simp⟩) g.1 (by simp [hgb]) rfl
            · rfl
            · exfalso
              rw [used_append, used_cons, List.nodup_append, List.nodup_cons] at nd
              apply nd.2.1.1
              rw [← hgb]
              simp only [List.mem_append]
              exact Or.inr (mem_used.2 ⟨g, hg, by simp⟩)
          subst this
          exact h2 n hng v hv
        · exact elsewhere g hg hgb n hng v hv
      · right
        refine ⟨?_, h2⟩
        rw [mem_used]
        exact ⟨(h.bucket hash k, ms), by rw [e]; simp, e'⟩
  · rw [if_pos (by simpa using hs)]
    refine ⟨h.U, rfl, Or.inl ⟨rfl, fun n hn v hv => ?_⟩⟩
    obtain ⟨g, hg, hng⟩ := mem_used.1 hn
    refine elsewhere g hg ?_ n hng v hv
    intro e; rw [← e] at hs; exact hs (i.grp g hg).1

/-! ### iteration -/

theorem walk_spec (A B : List Nat) (hr : Ring h.next h.prior h.U (A ++ B)) (hU : h.U ∉ B) (fuel : Nat) (hf : B.length ≤ fuel) :
    h.walk fuel (firstOf B h.U) = some B := by
  induction B generalizing A fuel with
  | nil => cases fuel <;> simp [Hdr.walk]
  | cons b B ih =>
    obtain ⟨fuel, rfl⟩ : ∃ m, fuel = m + 1 := ⟨fuel - 1, by simp at hf; omega⟩
    rw [firstOf_cons]
    simp only [Hdr.walk]
    simp only [List.mem_cons, not_or] at hU
    rw [if_neg (fun e => hU.1 e.symm), (ring_mid hr).2, ih (A ++ [b]) (by simpa using hr) hU.2 fuel (by simp at hf; omega)]
    rfl

theorem mapM_some_filterMap (f : Nat → Option α) (l : List Nat) (hl : ∀ n ∈ l, ∃ v, f n = some v) :
    l.mapM f = some (l.filterMap f) := by
  induction l with
  | nil => rfl
  | cons a l ih =>
    obtain ⟨v, hv⟩ := hl a (by simp)
    rw [List.mapM_cons, ih (fun n hn => hl n (by simp [hn])), hv, List.filterMap_cons_some hv]; rfl

theorem Inv.valsFrom (i : Inv hash keq key h free gs) {A B : List Nat} (e : used gs = A ++ B) :
    h.valsFrom (firstOf B h.U) = some (B.filterMap h.val) := by
  unfold Hdr.valsFrom
  have hU : h.U ∉ used gs := (List.nodup_cons.1 i.r.ndU).1
  rw [walk_spec A B (by rw [← e]; exact i.r.ru) (by intro hh; apply hU; rw [e]; simp [hh])]
  · exact mapM_some_filterMap _ _ (fun n hn => i.used_val n (by rw [e]; simp [hn]))
  · have := i.size_le
    have h2 := i.size
    rw [e, List.length_append] at h2
    omega

theorem Inv.vals (i : Inv hash keq key h free gs) : CSet.vals (some h) = some ((used gs).filterMap h.val) := by
  have := i.valsFrom (A := []) (B := used gs) rfl
  show h.valsFrom (h.next h.U) = _
  rw [(ring_ends i.r.ru).1]; exact this

theorem Inv.filterMap_length (i : Inv hash keq key h free gs) : ((used gs).filterMap h.val).length = h.size := by
  rw [i.size]
  have : ∀ l : List Nat, (∀ n ∈ l, ∃ v, h.val n = some v) → (l.filterMap h.val).length = l.length := by
    intro l hl
    induction l with
    | nil => rfl
    | cons a l ih =>
      obtain ⟨v, hv⟩ := hl a (by simp)
      rw [List.filterMap_cons_some hv]; simp [ih (fun n hn => hl n (by simp [hn]))]
  exact this _ (fun n hn => i.used_val n hn)

end

end Verif.ClosedHash
