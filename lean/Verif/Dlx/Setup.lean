import Verif.Dlx.Search
/-
The toroid that a sequence of `set` and `set_secondary_column` builds.
-/
namespace Verif.Dlx
open Verif.Ring

/-- the matrix of a problem -/
def shapeOf (cols : Nat) (es : List Entry) (secs : List Nat) : Shape where
  cols := cols
  n := es.length
  colOf := fun k => (es.getD k ⟨0, 0, 0⟩).col
  rowOf := fun k => (es.getD k ⟨0, 0, 0⟩).row
  colr := fun k => (es.getD k ⟨0, 0, 0⟩).color
  sec := fun c => decide (c ∈ secs)

/-- the cells of a column -/
def Shape.colCells (σ : Shape) (c : Nat) : List Nat := (List.range σ.n).filter fun k => σ.colOf k = c

/-- the toroid before `finalize` -/
structure Built (σ : Shape) (t : Toroid) (H : List Nat) : Prop where
  cells : t.cells = σ.n
  column : ∀ k < σ.n, t.column (.cell k) = σ.colOf k
  rowOf : ∀ k < σ.n, t.rowOf (.cell k) = σ.rowOf k
  color : ∀ k < σ.n, t.color (.cell k) = σ.colr k
  vert : ∀ c, Ring t.down t.up (.col c) ((σ.colCells c).map .cell)
  rowRing : ∀ r, Ring t.right t.left (.row r) ((σ.row r).map .cell)
  hdr : Ring t.right t.left .head (H.map .col)
  hdrNodup : H.Nodup
  hdrMem : ∀ c, c ∈ H ↔ c < σ.cols ∧ σ.sec c = false
  secs : ∀ c, c < σ.cols → σ.sec c = true → t.right (.col c) = .col c ∧ t.left (.col c) = .col c
  size : ∀ c, t.size c = (σ.colCells c).length
  covCell : ∀ k < σ.n, t.covered (.cell k) = false
  covCol : ∀ c, t.covered (.col c) = false
  colorCol : ∀ c, t.color (.col c) = 0

theorem path_of_getElem {N : Type} {next prior : N → N} (l : List N)
    (h : ∀ i (hi : i + 1 < l.length), next l[i] = l[i + 1] ∧ prior l[i + 1] = l[i]) : Path next prior l := by
  induction l with
  | nil => trivial
  | cons a t ih =>
    cases t with
    | nil => trivial
    | cons b t =>
      have h0 := h 0 (by simp)
      refine ⟨h0.1, h0.2, ih ?_⟩
      intro i hi
      exact h (i + 1) (by simpa using hi)

theorem built_init (rows cols : Nat) (hc : 0 < cols) : Built (shapeOf cols [] []) (Toroid.init rows cols) (List.range cols) := by
  refine ⟨rfl, by simp [shapeOf], by simp [shapeOf], by simp [shapeOf], ?_, ?_, ?_, List.nodup_range, by simp [shapeOf], by simp [shapeOf],
    by simp [shapeOf, Toroid.init, Shape.colCells], by simp [shapeOf], fun _ => rfl, fun _ => rfl⟩
  · intro c; exact ⟨rfl, rfl, trivial⟩
  · intro c; exact ⟨rfl, rfl, trivial⟩
  · apply path_of_getElem
    intro i hi
    simp only [List.length_cons, List.length_append, List.length_map, List.length_range, List.length_nil] at hi
    rcases Nat.eq_zero_or_pos i with rfl | hpos
    · simp [Toroid.init, List.getElem_append, hc]
    · obtain ⟨j, rfl⟩ : ∃ j, i = j + 1 := ⟨i - 1, by omega⟩
      have hj : j < cols := by omega
      by_cases hl : j + 1 < cols
      · simp only [List.getElem_cons_succ, List.getElem_append, List.length_map, List.length_range, hj, hl, dif_pos, List.getElem_map,
          List.getElem_range, Toroid.init]
        constructor
        · rw [if_neg (by omega)]
        · rw [if_neg (by omega)]; simp
      · have : j = cols - 1 := by omega
        subst this
        simp [Toroid.init, List.getElem_append, hj, hl]

variable {cols : Nat} {es : List Entry} {secs : List Nat} {t : Toroid} {H : List Nat}

theorem shape_snoc_lt (e : Entry) {k : Nat} (hk : k < es.length) :
    (shapeOf cols (es ++ [e]) secs).colOf k = (shapeOf cols es secs).colOf k ∧
    (shapeOf cols (es ++ [e]) secs).rowOf k = (shapeOf cols es secs).rowOf k ∧
    (shapeOf cols (es ++ [e]) secs).colr k = (shapeOf cols es secs).colr k := by
  simp [shapeOf, List.getD_eq_getElem?_getD, List.getElem?_append_left hk]

theorem shape_snoc_last (e : Entry) :
    (shapeOf cols (es ++ [e]) secs).colOf es.length = e.col ∧ (shapeOf cols (es ++ [e]) secs).rowOf es.length = e.row ∧
    (shapeOf cols (es ++ [e]) secs).colr es.length = e.color := by
  simp [shapeOf, List.getD_eq_getElem?_getD]

theorem colCells_snoc (e : Entry) (c : Nat) :
    (shapeOf cols (es ++ [e]) secs).colCells c = (shapeOf cols es secs).colCells c ++ if e.col = c then [es.length] else [] := by
  unfold Shape.colCells
  rw [show (shapeOf cols (es ++ [e]) secs).n = es.length + 1 by simp [shapeOf], show (shapeOf cols es secs).n = es.length from rfl,
    List.range_succ, List.filter_append]
  congr 1
  · apply List.filter_congr
    intro k hk
    rw [(shape_snoc_lt e (List.mem_range.1 hk)).1]
  · rw [List.filter_cons, (shape_snoc_last e).1]; simp

theorem row_snoc (e : Entry) (r : Nat) :
    (shapeOf cols (es ++ [e]) secs).row r = (shapeOf cols es secs).row r ++ if e.row = r then [es.length] else [] := by
  unfold Shape.row
  rw [show (shapeOf cols (es ++ [e]) secs).n = es.length + 1 by simp [shapeOf], show (shapeOf cols es secs).n = es.length from rfl,
    List.range_succ, List.filter_append]
  congr 1
  · apply List.filter_congr
    intro k hk
    rw [(shape_snoc_lt e (List.mem_range.1 hk)).2.1]
  · rw [List.filter_cons, (shape_snoc_last e).2.1]; simp

/-- appending a new node to a ring -/
theorem ring_append {N : Type} [DecidableEq N] {next prior : N → N} {s x : N} {l : List N} (h : Ring next prior s l) (nd : (s :: (l ++ [x])).Nodup) :
    Ring (upd (upd next x s) (prior s) x) (upd (upd prior x (prior s)) s x) s (l ++ [x]) := by
  have hp : prior s = lastOf s l := (ring_ends h).2
  have := ring_insert (A := l) (B := []) (x := x) (by simpa using h) nd
  simp only [ring_next_last (A := l) (B := []) (by simpa using h), firstOf_nil] at this
  rw [hp]
  have hne : x ≠ lastOf s l := by
    intro e
    have hm := lastOf_mem s l
    rw [← e] at hm
    rw [List.nodup_cons, List.nodup_append] at nd
    rcases List.mem_cons.1 hm with rfl | hm
    · exact nd.1 (by simp)
    · exact nd.2.2.2 x hm x (by simp) rfl
  have hcomm : upd (upd next x s) (lastOf s l) x = upd (upd next (lastOf s l) x) x s := by
    funext y; simp only [upd]; split_ifs with h1 h2 <;> first | rfl | (exfalso; exact hne (h2.symm.trans h1))
  rw [hcomm]
  exact this

theorem built_set (h : Built (shapeOf cols es secs) t H) (e : Entry) : Built (shapeOf cols (es ++ [e]) secs) (t.set e.row e.col e.color) H := by
  obtain ⟨σ, hσ⟩ : ∃ σ, σ = shapeOf cols es secs := ⟨_, rfl⟩
  have hn : t.cells = es.length := h.cells
  have hrow : ∀ r, ∀ k ∈ (shapeOf cols es secs).row r, k < es.length ∧ (shapeOf cols es secs).rowOf k = r := by
    intro r k hk; simpa [Shape.row, shapeOf] using hk
  have hcolc : ∀ c, ∀ k ∈ (shapeOf cols es secs).colCells c, k < es.length ∧ (shapeOf cols es secs).colOf k = c := by
    intro r k hk; simpa [Shape.colCells, shapeOf] using hk
  have hleft : t.left (.row e.row) ∈ Node.row e.row :: ((shapeOf cols es secs).row e.row).map .cell := by
    rw [(ring_ends (h.rowRing e.row)).2]; exact lastOf_mem _ _
  have hup : t.up (.col e.col) ∈ Node.col e.col :: ((shapeOf cols es secs).colCells e.col).map .cell := by
    rw [(ring_ends (h.vert e.col)).2]; exact lastOf_mem _ _
  have er : (t.set e.row e.col e.color).right = upd (upd t.right (.cell es.length) (.row e.row)) (t.left (.row e.row)) (.cell es.length) := by
    simp only [Toroid.set, hn, upd_ne _ _ (Node.row e.row) _ (show Node.row e.row ≠ .cell es.length from nofun)]
  have el : (t.set e.row e.col e.color).left = upd (upd t.left (.cell es.length) (t.left (.row e.row))) (.row e.row) (.cell es.length) := by
    simp only [Toroid.set, hn]
  have ed : (t.set e.row e.col e.color).down = upd (upd t.down (.cell es.length) (.col e.col)) (t.up (.col e.col)) (.cell es.length) := by
    simp only [Toroid.set, hn, upd_ne _ _ (Node.col e.col) _ (show Node.col e.col ≠ .cell es.length from nofun)]
  have eu : (t.set e.row e.col e.color).up = upd (upd t.up (.cell es.length) (t.up (.col e.col))) (.col e.col) (.cell es.length) := by
    simp only [Toroid.set, hn]
  have ec : (t.set e.row e.col e.color).column = upd t.column (.cell es.length) e.col := by simp only [Toroid.set, hn]
  have ew : (t.set e.row e.col e.color).rowOf = upd t.rowOf (.cell es.length) e.row := by simp only [Toroid.set, hn]
  have eo : (t.set e.row e.col e.color).color = upd t.color (.cell es.length) e.color := by simp only [Toroid.set, hn]
  have ev : (t.set e.row e.col e.color).covered = upd t.covered (.cell es.length) false := by simp only [Toroid.set, hn]
  have es' : (t.set e.row e.col e.color).size = upd t.size e.col (t.size e.col + 1) := rfl
  have hlt : ∀ k, k < (shapeOf cols (es ++ [e]) secs).n → k < es.length ∨ k = es.length := by
    intro k hk; simp [shapeOf] at hk; omega
  have cne : ∀ {k : Nat}, k < es.length → Node.cell k ≠ .cell es.length := by intro k hk e'; injection e' with e'; omega
  refine ⟨by simp [Toroid.set, hn, shapeOf], ?_, ?_, ?_, ?_, ?_, ?_, h.hdrNodup, h.hdrMem, ?_, ?_, ?_, ?_, ?_⟩
  · intro k hk
    rw [ec]
    rcases hlt k hk with hk | rfl
    · rw [upd_ne _ _ _ _ (cne hk), h.column k hk, (shape_snoc_lt e hk).1]
    · rw [upd_same, (shape_snoc_last e).1]
  · intro k hk
    rw [ew]
    rcases hlt k hk with hk | rfl
    · rw [upd_ne _ _ _ _ (cne hk), h.rowOf k hk, (shape_snoc_lt e hk).2.1]
    · rw [upd_same, (shape_snoc_last e).2.1]
  · intro k hk
    rw [eo]
    rcases hlt k hk with hk | rfl
    · rw [upd_ne _ _ _ _ (cne hk), h.color k hk, (shape_snoc_lt e hk).2.2]
    · rw [upd_same, (shape_snoc_last e).2.2]
  · intro c
    rw [colCells_snoc, ed, eu]
    by_cases hc : e.col = c
    · subst hc
      rw [if_pos rfl, List.map_append]
      refine ring_append (h.vert e.col) ?_
      rw [List.nodup_cons]
      refine ⟨by simp, ?_⟩
      have := nodup_map_cell ((List.nodup_range (n := es.length)).filter (fun k => (shapeOf cols es secs).colOf k = e.col))
      rw [List.nodup_append]
      refine ⟨this, by simp, ?_⟩
      intro a ha b hb
      simp only [List.map_cons, List.map_nil, List.mem_singleton] at hb
      subst hb
      obtain ⟨k, hk, rfl⟩ := List.mem_map.1 ha
      exact cne (hcolc _ k hk).1
    · rw [if_neg hc, List.append_nil]
      refine ring_congr (h.vert c) ?_
      intro x hx
      have hx' : x ≠ .cell es.length ∧ x ≠ .col e.col ∧ x ≠ t.up (.col e.col) := by
        rcases List.mem_cons.1 hx with rfl | hx
        · refine ⟨nofun, by intro e'; injection e' with e'; exact hc e'.symm, ?_⟩
          intro e'; rw [← e'] at hup
          rcases List.mem_cons.1 hup with hu | hu
          · injection hu with hu; exact hc hu.symm
          · obtain ⟨_, _, hu⟩ := List.mem_map.1 hu; cases hu
        · obtain ⟨k, hk, rfl⟩ := List.mem_map.1 hx
          refine ⟨cne (hcolc _ k hk).1, nofun, ?_⟩
          intro e'; rw [← e'] at hup
          rcases List.mem_cons.1 hup with hu | hu
          · cases hu
          · obtain ⟨k', hk', hu⟩ := List.mem_map.1 hu
            injection hu with hu; subst hu
            exact hc ((hcolc _ _ hk').2.symm.trans (hcolc _ _ hk).2)
      rw [upd_ne _ _ _ _ hx'.2.2, upd_ne _ _ _ _ hx'.1, upd_ne _ _ _ _ hx'.2.1, upd_ne _ _ _ _ hx'.1]
      exact ⟨rfl, rfl⟩
  · intro r
    rw [row_snoc, er, el]
    by_cases hc : e.row = r
    · subst hc
      rw [if_pos rfl, List.map_append]
      refine ring_append (h.rowRing e.row) ?_
      rw [List.nodup_cons]
      refine ⟨by simp, ?_⟩
      have := nodup_map_cell ((List.nodup_range (n := es.length)).filter (fun k => (shapeOf cols es secs).rowOf k = e.row))
      rw [List.nodup_append]
      refine ⟨this, by simp, ?_⟩
      intro a ha b hb
      simp only [List.map_cons, List.map_nil, List.mem_singleton] at hb
      subst hb
      obtain ⟨k, hk, rfl⟩ := List.mem_map.1 ha
      exact cne (hrow _ k hk).1
    · rw [if_neg hc, List.append_nil]
      refine ring_congr (h.rowRing r) ?_
      intro x hx
      have hx' : x ≠ .cell es.length ∧ x ≠ .row e.row ∧ x ≠ t.left (.row e.row) := by
        rcases List.mem_cons.1 hx with rfl | hx
        · refine ⟨nofun, by intro e'; injection e' with e'; exact hc e'.symm, ?_⟩
          intro e'; rw [← e'] at hleft
          rcases List.mem_cons.1 hleft with hu | hu
          · injection hu with hu; exact hc hu.symm
          · obtain ⟨_, _, hu⟩ := List.mem_map.1 hu; cases hu
        · obtain ⟨k, hk, rfl⟩ := List.mem_map.1 hx
          refine ⟨cne (hrow _ k hk).1, nofun, ?_⟩
          intro e'; rw [← e'] at hleft
          rcases List.mem_cons.1 hleft with hu | hu
          · cases hu
          · obtain ⟨k', hk', hu⟩ := List.mem_map.1 hu
            injection hu with hu; subst hu
            exact hc ((hrow _ _ hk').2.symm.trans (hrow _ _ hk).2)
      rw [upd_ne _ _ _ _ hx'.2.2, upd_ne _ _ _ _ hx'.1, upd_ne _ _ _ _ hx'.2.1, upd_ne _ _ _ _ hx'.1]
      exact ⟨rfl, rfl⟩
  · rw [er, el]
    refine ring_congr h.hdr ?_
    intro x hx
    have hx' : x ≠ .cell es.length ∧ x ≠ .row e.row ∧ x ≠ t.left (.row e.row) := by
      have hx2 : (∀ k, x ≠ .cell k) ∧ ∀ k, x ≠ .row k := by
        rcases List.mem_cons.1 hx with rfl | hx
        · exact ⟨nofun, nofun⟩
        · obtain ⟨k, _, rfl⟩ := List.mem_map.1 hx
          exact ⟨nofun, nofun⟩
      refine ⟨hx2.1 _, hx2.2 _, ?_⟩
      rintro rfl
      rcases List.mem_cons.1 hleft with hu | hu
      · exact hx2.2 _ hu
      · obtain ⟨k, _, hu⟩ := List.mem_map.1 hu; exact hx2.1 k hu.symm
    rw [upd_ne _ _ _ _ hx'.2.2, upd_ne _ _ _ _ hx'.1, upd_ne _ _ _ _ hx'.2.1, upd_ne _ _ _ _ hx'.1]
    exact ⟨rfl, rfl⟩
  · intro c hc hs
    have := h.secs c hc hs
    have hne : Node.col c ≠ t.left (.row e.row) := by
      intro e'; rw [← e'] at hleft
      rcases List.mem_cons.1 hleft with hu | hu
      · cases hu
      · obtain ⟨k, _, hu⟩ := List.mem_map.1 hu; cases hu
    rw [er, el, upd_ne _ _ _ _ hne, upd_ne _ (Node.cell es.length) (Node.col c) _ nofun, upd_ne _ (Node.row e.row) (Node.col c) _ nofun,
      upd_ne _ (Node.cell es.length) (Node.col c) _ nofun]
    exact this
  · intro c
    rw [es', colCells_snoc]
    by_cases hc : e.col = c
    · subst hc; rw [upd_same, h.size]; simp
    · rw [upd_ne _ _ _ _ (Ne.symm hc), h.size, if_neg hc]; simp
  · intro k hk
    rw [ev]
    rcases hlt k hk with hk | rfl
    · rw [upd_ne _ _ _ _ (cne hk), h.covCell k hk]
    · rw [upd_same]
  · intro c; rw [ev, upd_ne _ (Node.cell es.length) (Node.col c) _ nofun]; exact h.covCol c
  · intro c; rw [eo, upd_ne _ (Node.cell es.length) (Node.col c) _ nofun]; exact h.colorCol c

theorem built_secondary (h : Built (shapeOf cols es secs) t H) {c : Nat} (hc : c < cols) :
    Built (shapeOf cols es (secs ++ [c])) (t.setSecondary c) (H.filter (· ≠ c)) := by
  have hsec : ∀ d, (shapeOf cols es (secs ++ [c])).sec d = decide (d ∈ secs ∨ d = c) := by intro d; simp [shapeOf]
  have hsec0 : ∀ d, (shapeOf cols es secs).sec d = decide (d ∈ secs) := fun d => rfl
  have hmem : ∀ d, d ∈ H.filter (· ≠ c) ↔ d < (shapeOf cols es (secs ++ [c])).cols ∧ (shapeOf cols es (secs ++ [c])).sec d = false := by
    intro d
    rw [List.mem_filter, h.hdrMem, hsec, hsec0]
    simp only [decide_eq_true_eq, ne_eq, decide_eq_false_iff_not, not_or]
    exact ⟨fun ⟨⟨a, b⟩, d⟩ => ⟨a, b, d⟩, fun ⟨a, b, d⟩ => ⟨⟨a, b⟩, d⟩⟩
  by_cases hin : c ∈ secs
  · -- nothing changes
    have hs := h.secs c hc (by rw [hsec0]; simpa using hin)
    have e1 : t.setSecondary c = t := by
      unfold Toroid.setSecondary
      apply toroid_ext <;> try rfl
      · simp only [hs.1, hs.2, upd_same, upd_upd]
        exact upd_self _ _ _ hs.2
      · simp only [hs.1, hs.2, upd_upd]
        exact upd_self _ _ _ hs.1
    have hH : H.filter (· ≠ c) = H := by
      rw [List.filter_eq_self]
      intro d hd
      simp only [ne_eq, decide_eq_true_eq]
      rintro rfl
      have := ((h.hdrMem d).1 hd).2
      rw [hsec0] at this; simp [hin] at this
    rw [hH] at hmem ⊢
    rw [e1]
    refine ⟨h.cells, h.column, h.rowOf, h.color, h.vert, h.rowRing, h.hdr, h.hdrNodup, hmem, ?_, h.size, h.covCell, h.covCol, h.colorCol⟩
    intro d hd hs'
    apply h.secs d hd
    rw [hsec] at hs'
    rw [hsec0]
    simp only [decide_eq_true_eq] at hs' ⊢
    rcases hs' with hs' | rfl
    · exact hs'
    · exact hin
  · have hcH : c ∈ H := (h.hdrMem c).2 ⟨hc, by rw [hsec0]; simpa using hin⟩
    obtain ⟨e1, e2, n1, n2, m1, m2⟩ := ring_local h.hdr (by simp) (List.mem_map_of_mem hcH) (nodup_map_col h.hdrNodup)
    have er : (t.setSecondary c).right = upd (upd t.right (t.left (.col c)) (t.right (.col c))) (.col c) (.col c) := rfl
    have el : (t.setSecondary c).left = upd (upd t.left (t.right (.col c)) (t.left (.col c))) (.col c) (.col c) := by
      simp only [Toroid.setSecondary, upd_ne _ _ (Node.col c) _ n2.symm]
    have hr : ∀ x : Node, (∀ d, x ≠ .col d) → x ≠ .head → (t.setSecondary c).right x = t.right x ∧ (t.setSecondary c).left x = t.left x := by
      intro x hx hx2
      have a1 : x ≠ t.left (.col c) := by
        rintro rfl
        rcases List.mem_cons.1 m2 with hu | hu
        · exact hx2 hu
        · obtain ⟨k, _, hu⟩ := List.mem_map.1 hu; exact hx k hu.symm
      have a2 : x ≠ t.right (.col c) := by
        rintro rfl
        rcases List.mem_cons.1 m1 with hu | hu
        · exact hx2 hu
        · obtain ⟨k, _, hu⟩ := List.mem_map.1 hu; exact hx k hu.symm
      rw [er, el, upd_ne _ _ _ _ (hx c), upd_ne _ _ _ _ a1, upd_ne _ _ _ _ (hx c), upd_ne _ _ _ _ a2]
      exact ⟨rfl, rfl⟩
    refine ⟨h.cells, h.column, h.rowOf, h.color, h.vert, ?_, ?_, h.hdrNodup.filter _, hmem, ?_, h.size, h.covCell, h.covCol, h.colorCol⟩
    · intro r
      refine ring_congr (h.rowRing r) ?_
      intro x hx
      refine hr x ?_ ?_
      · intro d e
        rcases List.mem_cons.1 hx with hx | hx
        · rw [hx] at e; cases e
        · obtain ⟨k, _, hu⟩ := List.mem_map.1 hx; rw [← hu] at e; cases e
      · intro e
        rcases List.mem_cons.1 hx with hx | hx
        · rw [hx] at e; cases e
        · obtain ⟨k, _, hu⟩ := List.mem_map.1 hx; rw [← hu] at e; cases e
    · obtain ⟨P, Q, e⟩ := List.append_of_mem hcH
      have ndH := h.hdrNodup
      have efil : H.filter (· ≠ c) = P ++ Q := by
        rw [e] at ndH ⊢
        rw [List.nodup_append, List.nodup_cons] at ndH
        rw [List.filter_append, List.filter_cons]
        rw [List.filter_eq_self.2, List.filter_eq_self.2]
        · simp
        · intro k hk; simp; rintro rfl; exact ndH.2.1.1 hk
        · intro k hk; simp; rintro rfl; exact ndH.2.2 _ hk _ (by simp) rfl
      rw [er, el, efil]
      have hrem : Ring (upd t.right (t.left (.col c)) (t.right (.col c))) (upd t.left (t.right (.col c)) (t.left (.col c))) .head
          ((P ++ Q).map .col) := by
        rw [List.map_append]
        apply ring_remove (x := Node.col c)
        · have := h.hdr
          rw [e] at this; simpa using this
        · have := nodup_map_col ndH
          rw [e] at this
          rw [List.nodup_cons]
          exact ⟨by simp, by simpa using this⟩
      refine ring_congr hrem ?_
      intro x hx
      have hxc : x ≠ .col c := by
        rintro rfl
        rcases List.mem_cons.1 hx with hx | hx
        · cases hx
        · obtain ⟨k, hk, hu⟩ := List.mem_map.1 hx
          injection hu with hu; subst hu
          rw [← efil] at hk
          simp at hk
      rw [upd_ne _ _ _ _ hxc, upd_ne _ _ _ _ hxc]
      exact ⟨rfl, rfl⟩
    · intro d hd hs'
      rw [er, el]
      by_cases hdc : d = c
      · subst hdc; simp
      · have hne : Node.col d ≠ .col c := by intro e; injection e with e; exact hdc e
        have hds : (shapeOf cols es secs).sec d = true := by
          rw [hsec] at hs'; rw [hsec0]; simp only [decide_eq_true_eq] at hs' ⊢
          exact hs'.resolve_right hdc
        have hdH : d ∉ H := fun hh => by have := ((h.hdrMem d).1 hh).2; rw [hds] at this; cases this
        have a1 : Node.col d ≠ t.left (.col c) := by
          intro e; rw [← e] at m2; simp at m2; exact hdH m2
        have a2 : Node.col d ≠ t.right (.col c) := by
          intro e; rw [← e] at m1; simp at m1; exact hdH m1
        rw [upd_ne _ _ _ _ hne, upd_ne _ _ _ _ a1, upd_ne _ _ _ _ hne, upd_ne _ _ _ _ a2]
        exact h.secs d hd hds

/-! ### finalize -/

/-- after the first `m` rows of `finalize` -/
structure Fin (σ : Shape) (t t' : Toroid) (m : Nat) : Prop where
  same : t' = { t with left := t'.left, right := t'.right }
  keep : ∀ x : Node, (∀ k, x ≠ .cell k) → (∀ k, x ≠ .row k) → t'.right x = t.right x ∧ t'.left x = t.left x
  todo : ∀ r, m ≤ r → Ring t'.right t'.left (.row r) ((σ.row r).map .cell)
  rows : ∀ k, k < σ.n → σ.rowOf k < m → Ring t'.right t'.left (.cell k) ((σ.oth k).map .cell)

theorem mem_row (σ : Shape) {k r : Nat} : k ∈ σ.row r ↔ k < σ.n ∧ σ.rowOf k = r := by simp [Shape.row]

theorem fin_step {σ : Shape} {t t' : Toroid} {m : Nat} (h : Fin σ t t' m) : Fin σ t (t'.finalizeRow m) (m + 1) := by
  have hring := h.todo m (Nat.le_refl _)
  have hends := ring_ends hring
  rcases hcase : σ.row m with _ | ⟨k0, R⟩
  · rw [hcase] at hends
    simp only [List.map_nil, firstOf_nil, lastOf_nil] at hends
    have e : t'.finalizeRow m = t' := by
      unfold Toroid.finalizeRow
      apply toroid_ext <;> try rfl
      · simp only [hends.1, hends.2, upd_same]; exact upd_self _ _ _ hends.2
      · simp only [hends.1, hends.2]; exact upd_self _ _ _ hends.1
    rw [e]
    refine ⟨h.same, h.keep, fun r hr => h.todo r (by omega), ?_⟩
    intro k hk hlt
    by_cases hm : σ.rowOf k = m
    · have : k ∈ σ.row m := (mem_row σ).2 ⟨hk, hm⟩
      rw [hcase] at this; cases this
    · exact h.rows k hk (by omega)
  · have hl : t'.left (.row m) ∈ ((σ.row m).map Node.cell) := by
      rw [hends.2]
      have := lastOf_mem (Node.row m) ((σ.row m).map Node.cell)
      rcases List.mem_cons.1 this with hu | hu
      · exfalso
        obtain ⟨P, hP⟩ := split_last (Node.row m) ((σ.row m).map Node.cell)
        rw [hu, hcase] at hP
        have h1 : (Node.row m :: (k0 :: R).map Node.cell).getLast? = some (.row m) := by rw [hP]; simp
        rw [List.getLast?_cons, List.map_cons, List.getLast?_cons] at h1
        simp only [Option.getD_some, Option.some.injEq] at h1
        cases hR : (R.map Node.cell).getLast? with
        | none => rw [hR] at h1; cases h1
        | some x =>
          rw [hR] at h1
          simp only [Option.getD_some] at h1
          subst h1
          have := List.mem_of_getLast? hR
          simp at this
      · exact hu
    have hr : t'.right (.row m) ∈ ((σ.row m).map Node.cell) := by
      rw [hends.1, hcase]; simp
    have hne : t'.left (.row m) ≠ .row m := by intro e; rw [e] at hl; simp at hl
    have er : (t'.finalizeRow m).right = upd t'.right (t'.left (.row m)) (t'.right (.row m)) := rfl
    have el : (t'.finalizeRow m).left = upd t'.left (t'.right (.row m)) (t'.left (.row m)) := by
      simp only [Toroid.finalizeRow, upd_ne _ _ (Node.row m) _ hne.symm]
    have hframe : ∀ x : Node, x ∉ (σ.row m).map Node.cell → (t'.finalizeRow m).right x = t'.right x ∧ (t'.finalizeRow m).left x = t'.left x := by
      intro x hx
      rw [er, el, upd_ne _ _ _ _ (by rintro rfl; exact hx hl), upd_ne _ _ _ _ (by rintro rfl; exact hx hr)]
      exact ⟨rfl, rfl⟩
    refine ⟨?_, ?_, ?_, ?_⟩
    · conv_lhs => rw [show t'.finalizeRow m = { t' with left := (t'.finalizeRow m).left, right := (t'.finalizeRow m).right } from rfl]
      rw [h.same]
    · intro x h1 h2
      have := hframe x (by intro hm; obtain ⟨k, _, e⟩ := List.mem_map.1 hm; exact h1 k e.symm)
      rw [this.1, this.2]; exact h.keep x h1 h2
    · intro r hr'
      refine ring_congr (h.todo r (by omega)) ?_
      intro x hx
      apply hframe
      intro hm
      obtain ⟨k, hk, rfl⟩ := List.mem_map.1 hm
      simp only [List.mem_cons, List.mem_map] at hx
      rcases hx with hx | ⟨k', hk', hx⟩
      · cases hx
      · injection hx with hx; subst hx
        rw [mem_row] at hk hk'
        omega
    · intro k hk hlt
      by_cases hm : σ.rowOf k = m
      · obtain ⟨P, Q, e, hP, ho⟩ := row_split σ hk
        rw [hm] at e
        have hrg := hring
        rw [e, List.map_append, List.map_cons] at hrg
        have hrot := ring_rotate hrg
        have nd : (σ.row m).Nodup := List.nodup_range.filter _
        rw [e] at nd
        rw [er, el, ho, List.map_append]
        apply ring_remove (x := Node.row m) hrot
        have h1 := nodup_map_cell nd
        rw [List.map_append, List.map_cons] at h1
        have h2 : (Node.row m :: (P.map Node.cell ++ Node.cell k :: Q.map Node.cell)).Nodup := by
          rw [List.nodup_cons]; exact ⟨by simp, h1⟩
        have hp : (Node.row m :: (P.map Node.cell ++ Node.cell k :: Q.map Node.cell)).Perm
            (Node.cell k :: (Q.map Node.cell ++ Node.row m :: P.map Node.cell)) := by
          have a : (Node.row m :: (P.map Node.cell ++ Node.cell k :: Q.map Node.cell)).Perm
              ((Node.cell k :: Q.map Node.cell) ++ (Node.row m :: P.map Node.cell)) := by
            rw [show Node.row m :: (P.map Node.cell ++ Node.cell k :: Q.map Node.cell) =
              (Node.row m :: P.map Node.cell) ++ (Node.cell k :: Q.map Node.cell) by simp]
            exact List.perm_append_comm
          simpa using a
        exact hp.nodup_iff.1 h2
      · refine ring_congr (h.rows k hk (by omega)) ?_
        intro x hx
        apply hframe
        intro hm'
        obtain ⟨k', hk', rfl⟩ := List.mem_map.1 hm'
        rw [mem_row] at hk'
        simp only [List.mem_cons, List.mem_map] at hx
        rcases hx with hx | ⟨j, hj, hx⟩
        · injection hx with hx; subst hx; exact hm hk'.2
        · injection hx with hx; subst hx
          have := (mem_oth σ hk).1 hj
          exact hm (this.2.1.symm.trans hk'.2)

theorem fin_fold {σ : Shape} {t : Toroid} (h : Fin σ t t 0) (m : Nat) : Fin σ t ((List.range m).foldl Toroid.finalizeRow t) m := by
  induction m with
  | zero => exact h
  | succ m ih => rw [List.range_succ, List.foldl_append]; exact fin_step ih

/-- the state in which the search starts -/
theorem start (h : Built (shapeOf cols es secs) t H) (hr : ∀ e ∈ es, e.row < t.rows) :
    SInv (shapeOf cols es secs) t.finalize (shapeOf cols es secs).colCells H (fun _ => True) (fun _ => True) := by
  have h0 : Fin (shapeOf cols es secs) t t 0 := ⟨rfl, fun _ _ _ => ⟨rfl, rfl⟩, fun r _ => h.rowRing r, fun k _ hk => absurd hk (by omega)⟩
  have hf : Fin (shapeOf cols es secs) t t.finalize t.rows := fin_fold h0 t.rows
  obtain ⟨t', ht'⟩ : ∃ t', t' = t.finalize := ⟨_, rfl⟩
  rw [← ht'] at hf ⊢
  have hs := hf.same
  have hrow : ∀ k, k < (shapeOf cols es secs).n → (shapeOf cols es secs).rowOf k < t.rows := by
    intro k hk
    have hk' : k < es.length := hk
    show (es.getD k ⟨0, 0, 0⟩).row < t.rows
    rw [List.getD_eq_getElem?_getD, List.getElem?_eq_getElem hk']
    exact hr _ (List.getElem_mem hk')
  have hcc : ∀ c k, k ∈ (shapeOf cols es secs).colCells c ↔ k < (shapeOf cols es secs).n ∧ (shapeOf cols es secs).colOf k = c := by
    intro c k; simp [Shape.colCells]
  refine ⟨⟨⟨?_, ?_, ?_, ?_, ?_, ?_, ?_, ?_, h.hdrNodup, fun c hc => ((h.hdrMem c).1 hc).2, ?_, ?_, ?_⟩, ?_, ?_, ?_, ?_, ?_⟩, ?_⟩
  · rw [hs]; exact h.cells
  · rw [hs]; exact h.column
  · rw [hs]; exact h.rowOf
  · intro c; rw [hs]; exact h.vert c
  · intro c; exact List.nodup_range.filter _
  · intro c k hk; exact (hcc c k).1 hk
  · intro k hk; exact hf.rows k hk (hrow k hk)
  · refine ring_congr h.hdr ?_
    intro x hx
    apply hf.keep
    · rintro k rfl; simp at hx
    · rintro k rfl; simp at hx
  · intro c hc hsec
    have := hf.keep (.col c) nofun nofun
    rw [this.1, this.2]; exact h.secs c hc hsec
  · intro c; rw [hs]; exact h.size c
  · intro c k hk; rw [hs]; exact h.covCell k ((hcc c k).1 hk).1
  · intro c; rw [h.hdrMem]; simp
  · intro c _ _; rw [hs]; exact ⟨h.covCol c, h.colorCol c⟩
  · intro c _ _ k; rw [hcc]; simp
  · intro k hk _; rw [hcc]; exact ⟨hk, rfl⟩
  · intro k hk _; rw [hs]; exact h.color k hk
  · intro k _ _ hno; exact absurd trivial hno

end Verif.Dlx
