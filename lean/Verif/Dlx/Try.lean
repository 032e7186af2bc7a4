import Verif.Dlx.Ops
import Mathlib.Data.List.Induction
/-
A row is tried and the trial is undone.
-/
namespace Verif.Dlx
open Verif.Ring

variable {σ : Shape} {t : Toroid} {A : Nat → List Nat} {H : List Nat} {al op : Nat → Prop}

/-- in a search: rows that can be chosen agree on the columns that are closed, and are marked there -/
structure SInv (σ : Shape) (t : Toroid) (A : Nat → List Nat) (H : List Nat) (al op : Nat → Prop) : Prop extends Inv σ t A H al op where
  closed : ∀ k, k < σ.n → al (σ.rowOf k) → ¬ op (σ.colOf k) → t.color (.cell k) = -1 ∧ 0 < σ.colr k ∧
    ∀ l, l < σ.n → al (σ.rowOf l) → σ.colOf l = σ.colOf k → σ.colr l = σ.colr k

theorem SInv.congr {al' op' : Nat → Prop} (h : SInv σ t A H al op) (h1 : ∀ ρ, al' ρ ↔ al ρ) (h2 : ∀ c, op' c ↔ op c) : SInv σ t A H al' op' := by
  have e1 : al' = al := funext fun ρ => propext (h1 ρ)
  have e2 : op' = op := funext fun c => propext (h2 c)
  rw [e1, e2]; exact h

theorem SInv.cover (w : σ.Wf) (h : SInv σ t A H al op) {c : Nat} (hc : c < σ.cols) (ho : op c) :
    ∃ t' A', t.cover c = some t' ∧ t'.uncover c = some t ∧ t'.color = t.color ∧ A' c = A c ∧
      SInv σ t' A' (H.filter (· ≠ c)) (fun ρ => al ρ ∧ ∀ k, k < σ.n → σ.rowOf k = ρ → σ.colOf k ≠ c) (fun d => op d ∧ d ≠ c) := by
  obtain ⟨t', A', h1, h2, h3, h4, h5⟩ := cover_inv w h.toInv hc ho
  refine ⟨t', A', h1, h2, h3, h4, ⟨h5, ?_⟩⟩
  intro k hk hal hop
  have hne := hal.2 k hk rfl
  have := h.closed k hk hal.1 (fun hh => hop ⟨hh, hne⟩)
  rw [h3]
  exact ⟨this.1, this.2.1, fun l hl hla => this.2.2 l hl hla.1⟩

theorem try_node (w : σ.Wf) (h : SInv σ t A H al op) {j : Nat} (hj : j < σ.n) (hdead : ¬ al (σ.rowOf j))
    (hcl : ¬ op (σ.colOf j) → t.color (.cell j) = -1) :
    ∃ t' A' H', tryNode (.cell j) t = some t' ∧ untryNode (.cell j) t' = some t ∧
      (∀ k, k < σ.n → σ.colOf k ≠ σ.colOf j → t'.color (.cell k) = t.color (.cell k)) ∧
      SInv σ t' A' H' (fun ρ => al ρ ∧ (op (σ.colOf j) → ∀ k, k < σ.n → σ.rowOf k = ρ → σ.colOf k = σ.colOf j → σ.colr k = σ.colr j ∧ 0 < σ.colr j))
        (fun d => op d ∧ d ≠ σ.colOf j) := by
  by_cases ho : op (σ.colOf j)
  · have hclr := h.open_color j hj ho
    have hge := w.color j hj
    have hcol := h.column j hj
    rcases (show 0 < σ.colr j ∨ 0 = σ.colr j by omega) with hpos | hz
    · obtain ⟨t', A', h1, h2, h3, h4⟩ := purify_inv w h.toInv hj ho hpos
      have hcl' : t'.color (.cell j) = σ.colr j := by rw [h3, if_neg (by simp), hclr]
      refine ⟨t', A', H, ?_, ?_, ?_, ?_⟩
      · rw [tryNode, if_neg (by omega), if_pos (by omega)]; exact h1
      · rw [untryNode, if_neg (by omega), if_pos (by omega)]; exact h2
      · intro k hk hne
        rw [h3, if_neg]
        rintro ⟨hm, _⟩
        exact hne (h.mem _ _ hm).2
      · have : SInv σ t' A' H (fun ρ => al ρ ∧ ∀ k, k < σ.n → σ.rowOf k = ρ → σ.colOf k = σ.colOf j → σ.colr k = σ.colr j)
            (fun d => op d ∧ d ≠ σ.colOf j) := by
          refine ⟨h4, ?_⟩
          intro k hk hal hop
          by_cases hkc : σ.colOf k = σ.colOf j
          · have hkx := hal.2 k hk rfl hkc
            refine ⟨?_, by omega, ?_⟩
            · rw [h3, if_pos]
              refine ⟨?_, hkx, ?_⟩
              · rw [← hkc]; exact h.alive k hk hal.1
              · rintro rfl; exact hdead hal.1
            · intro l hl hla hlc
              rw [hla.2 l hl rfl (hlc.trans hkc), hkx]
          · have := h.closed k hk hal.1 (fun hh => hop ⟨hh, hkc⟩)
            refine ⟨?_, this.2.1, fun l hl hla => this.2.2 l hl hla.1⟩
            rw [h3, if_neg]
            · exact this.1
            · rintro ⟨hm, _⟩; exact hkc (h.mem _ _ hm).2
        refine this.congr ?_ (fun c => Iff.rfl)
        intro ρ
        constructor
        · rintro ⟨ha, hb⟩; exact ⟨ha, fun k hk e1 e2 => (hb ho k hk e1 e2).1⟩
        · rintro ⟨ha, hb⟩; exact ⟨ha, fun _ k hk e1 e2 => ⟨hb k hk e1 e2, hpos⟩⟩
    · obtain ⟨t', A', h1, h2, h3, _, h4⟩ := h.cover w (w.col_lt j hj) ho
      refine ⟨t', A', _, ?_, ?_, ?_, h4.congr ?_ fun _ => Iff.rfl⟩
      · rw [tryNode, if_pos (by omega), hcol]; exact h1
      · rw [untryNode, h3, if_pos (by omega), h4.column j hj]; exact h2
      · intro k _ _; rw [h3]
      · intro ρ
        constructor
        · rintro ⟨ha, hb⟩; exact ⟨ha, fun k hk e1 e2 => by have := (hb ho k hk e1 e2).2; omega⟩
        · rintro ⟨ha, hb⟩; exact ⟨ha, fun _ k hk e1 e2 => absurd e2 (hb k hk e1)⟩
  · have hc := hcl ho
    refine ⟨t, A, H, ?_, ?_, fun _ _ _ => rfl, h.congr ?_ ?_⟩
    · rw [tryNode, if_neg (by omega), if_neg (by omega)]
    · rw [untryNode, if_neg (by omega), if_neg (by omega)]
    · intro ρ; simp [ho]
    · intro c
      constructor
      · exact fun hh => hh.1
      · intro hh; exact ⟨hh, by rintro rfl; exact ho hh⟩

/-- trying the first cells of a row -/
def tryAll (t : Toroid) (js : List Nat) : Option Toroid := js.foldlM (fun t j => tryNode (.cell j) t) t

theorem tryAll_concat (t : Toroid) (js : List Nat) (j : Nat) : tryAll t (js ++ [j]) = (tryAll t js).bind (tryNode (.cell j)) := by
  simp only [tryAll, List.foldlM_append]
  congr 1
  funext t
  simp

theorem try_prefix (w : σ.Wf) (h : SInv σ t A H al op) {r : Nat} (hr : r < σ.n) (hdead : ¬ al (σ.rowOf r))
    (hcl : ∀ j ∈ σ.oth r, ¬ op (σ.colOf j) → t.color (.cell j) = -1) (pre : List Nat) :
    ∀ post, σ.oth r = pre ++ post → ∃ t' A' H', tryAll t pre = some t' ∧
      (∀ k, k < σ.n → σ.colOf k ∉ pre.map σ.colOf → t'.color (.cell k) = t.color (.cell k)) ∧
      SInv σ t' A' H' (fun ρ => al ρ ∧ ∀ j ∈ pre, op (σ.colOf j) → ∀ k, k < σ.n → σ.rowOf k = ρ → σ.colOf k = σ.colOf j →
          σ.colr k = σ.colr j ∧ 0 < σ.colr j)
        (fun d => op d ∧ d ∉ pre.map σ.colOf) ∧
      ∀ q i, pre = q ++ [i] → ∃ tq, tryAll t q = some tq ∧ tryNode (.cell i) tq = some t' ∧ untryNode (.cell i) t' = some tq := by
  induction pre using List.reverseRecOn with
  | nil =>
    intro post _
    refine ⟨t, A, H, rfl, fun _ _ _ => rfl, h.congr (by simp) (by simp), ?_⟩
    intro q i e
    exact absurd e (by simp)
  | append_singleton pre i ih =>
    intro post e
    obtain ⟨tp, Ap, Hp, e1, e2, e3, _⟩ := ih (i :: post) (by simp [e])
    have hi : i ∈ σ.oth r := by rw [e]; simp
    have hi' := (mem_oth σ hr).1 hi
    have hnotin : σ.colOf i ∉ pre.map σ.colOf := by
      intro hm
      obtain ⟨j, hj, hjc⟩ := List.mem_map.1 hm
      have hj' := (mem_oth σ hr).1 (show j ∈ σ.oth r by rw [e]; simp [hj])
      have : j = i := w.one j i hj'.1 hi'.1 (hj'.2.1.trans hi'.2.1.symm) hjc
      have nd := nodup_oth σ hr
      rw [e, List.append_assoc, List.nodup_append] at nd
      exact nd.2.2 j hj i (by simp) this
    obtain ⟨t', A', H', g1, g2, g3, g4⟩ := try_node w e3 hi'.1 (by rw [hi'.2.1]; exact fun hh => hdead hh.1) (by
      intro hno
      rw [e2 i hi'.1 hnotin]
      exact hcl i hi fun ho => hno ⟨ho, hnotin⟩)
    refine ⟨t', A', H', ?_, ?_, g4.congr ?_ ?_, ?_⟩
    · rw [tryAll_concat, e1]; exact g1
    · intro k hk hm
      simp only [List.map_append, List.mem_append, not_or, List.map_cons, List.map_nil, List.mem_singleton] at hm
      rw [g3 k hk hm.2, e2 k hk hm.1]
    · intro ρ
      constructor
      · rintro ⟨ha, hb⟩
        exact ⟨⟨ha, fun j hj => hb j (by simp [hj])⟩, fun ho => hb i (by simp) ho.1⟩
      · rintro ⟨⟨ha, hb⟩, hd⟩
        refine ⟨ha, ?_⟩
        intro j hj ho
        rcases List.mem_append.1 hj with hj | hj
        · exact hb j hj ho
        · rw [List.mem_singleton] at hj; subst hj
          exact hd ⟨ho, hnotin⟩
    · intro d
      simp only [List.map_append, List.mem_append, not_or, List.map_cons, List.map_nil, List.mem_singleton]
      tauto
    · intro q i' e'
      obtain ⟨rfl, rfl⟩ : pre = q ∧ i = i' := by
        have := List.append_inj' e' rfl
        exact ⟨this.1, by simpa using this.2⟩
      exact ⟨tp, e1, g1, g2⟩

/-- a row is tried and untried -/
theorem try_row (w : σ.Wf) (h : SInv σ t A H al op) {r : Nat} (hr : r < σ.n) (hdead : ¬ al (σ.rowOf r))
    (hcl : ∀ j ∈ σ.oth r, ¬ op (σ.colOf j) → t.color (.cell j) = -1) :
    ∃ t' A' H', tryRow (.cell r) t = some t' ∧ untryRow (.cell r) t' = some t ∧
      SInv σ t' A' H' (fun ρ => al ρ ∧ ∀ j ∈ σ.oth r, op (σ.colOf j) → ∀ k, k < σ.n → σ.rowOf k = ρ → σ.colOf k = σ.colOf j →
          σ.colr k = σ.colr j ∧ 0 < σ.colr j)
        (fun d => op d ∧ d ∉ (σ.oth r).map σ.colOf) := by
  have hp := try_prefix w h hr hdead hcl
  let S : List Node → Toroid := fun q => (tryAll t (q.map Node.idx)).getD t
  have hS : ∀ pre post, σ.oth r = pre ++ post → ∃ t', tryAll t pre = some t' ∧ S (pre.map .cell) = t' := by
    intro pre post e
    obtain ⟨t', _, _, e1, _⟩ := hp pre post e
    exact ⟨t', e1, by simp only [S, map_idx_cell, e1, Option.getD_some]⟩
  obtain ⟨t', A', H', e1, e2, e3, e4⟩ := hp (σ.oth r) [] (by simp)
  have s0 : S [] = t := rfl
  have s1 : S ((σ.oth r).map .cell) = t' := by simp only [S, map_idx_cell, e1, Option.getD_some]
  have hst : Node.cell r ∉ (σ.oth r).map Node.cell := by
    simp only [List.mem_map, not_exists, not_and]
    intro j hj e; injection e with e; subst e
    exact ((mem_oth σ hr).1 hj).2.2 rfl
  have key : ∀ pre post, (σ.oth r).map Node.cell = pre ++ post → ∃ p q, pre = p.map .cell ∧ post = q.map .cell ∧ σ.oth r = p ++ q := by
    intro pre post e
    obtain ⟨p, q, hpq, rfl, rfl⟩ := List.map_eq_append_iff.1 e
    exact ⟨p, q, rfl, rfl, hpq⟩
  have ring : ∀ pre post, (σ.oth r).map .cell = pre ++ post → Ring (S pre).right (S pre).left (.cell r) ((σ.oth r).map .cell) := by
    intro pre post e
    obtain ⟨p, q, rfl, rfl, e'⟩ := key pre post e
    obtain ⟨tp, Ap, Hp, g1, _, g3, _⟩ := hp p q e'
    have : S (p.map .cell) = tp := by simp only [S, map_idx_cell, g1, Option.getD_some]
    rw [this]
    exact g3.rows r hr
  have step : ∀ pre i post, (σ.oth r).map Node.cell = pre ++ i :: post →
      tryNode i (S pre) = some (S (pre ++ [i])) ∧ untryNode i (S (pre ++ [i])) = some (S pre) := by
    intro pre i post e
    obtain ⟨p, q, rfl, hq, e'⟩ := key pre (i :: post) e
    cases q with
    | nil => simp at hq
    | cons j q =>
      simp only [List.map_cons, List.cons.injEq] at hq
      obtain ⟨rfl, rfl⟩ := hq
      obtain ⟨tp, Ap, Hp, g1, _, g3, g4⟩ := hp (p ++ [j]) q (by simp [e'])
      obtain ⟨tq, k1, k2, k3⟩ := g4 p j rfl
      have a1 : S (p.map .cell) = tq := by simp only [S, map_idx_cell, k1, Option.getD_some]
      have a2 : S (p.map .cell ++ [.cell j]) = tp := by
        rw [show p.map Node.cell ++ [Node.cell j] = (p ++ [j]).map .cell by simp]
        simp only [S, map_idx_cell, g1, Option.getD_some]
      rw [a1, a2]; exact ⟨k2, k3⟩
  have hlen : ((σ.oth r).map Node.cell).length < σ.n + 1 := by simpa using length_oth σ hr
  refine ⟨t', A', H', ?_, ?_, e3⟩
  · have := loop_fwd Toroid.right Toroid.left tryNode (.cell r) _ S (σ.n + 1) hst ring (fun pre i post e => (step pre i post e).1) hlen
    rw [s0, s1] at this
    rw [tryRow, h.cells]; exact this
  · have := loop_bwd Toroid.right Toroid.left untryNode (.cell r) _ S (σ.n + 1) hst ring (fun pre i post e => (step pre i post e).2) hlen
    rw [s0, s1] at this
    rw [untryRow, e3.cells]; exact this

end Verif.Dlx
