import Verif.Dlx.Lemmas
import Mathlib.Data.List.Nodup
/-
The toroid as lists: what a toroid with given columns looks like, and the elementary steps on it.
-/
namespace Verif.Dlx
open Verif.Ring

/-- the matrix -/
structure Shape where
  cols : Nat
  n : Nat
  colOf : Nat → Nat
  rowOf : Nat → Nat
  colr : Nat → Int
  sec : Nat → Bool

/-- the cells of a row -/
def Shape.row (σ : Shape) (ρ : Nat) : List Nat := (List.range σ.n).filter fun k => σ.rowOf k = ρ

/-- the other cells of the row of a cell, from left to right -/
def Shape.oth (σ : Shape) (k : Nat) : List Nat :=
  ((σ.row (σ.rowOf k)).dropWhile (· ≠ k)).tail ++ (σ.row (σ.rowOf k)).takeWhile (· ≠ k)

theorem row_split (σ : Shape) {k : Nat} (hk : k < σ.n) :
    ∃ A B, σ.row (σ.rowOf k) = A ++ k :: B ∧ k ∉ A ∧ σ.oth k = B ++ A := by
  have hm : k ∈ σ.row (σ.rowOf k) := by simp [Shape.row, hk]
  obtain ⟨A, B, e, hA⟩ := List.append_of_mem hm |>.elim fun A h => h.elim fun B h => by
    have nd : (σ.row (σ.rowOf k)).Nodup := List.nodup_range.filter _
    exact (⟨A, B, h, by rw [h, List.nodup_append] at nd; exact fun hh => nd.2.2 k hh k (by simp) rfl⟩ :
      ∃ A B, σ.row (σ.rowOf k) = A ++ k :: B ∧ k ∉ A)
  refine ⟨A, B, e, hA, ?_⟩
  unfold Shape.oth
  rw [e]
  have h1 : ∀ x ∈ A, decide (x ≠ k) = true := by intro x hx; simp; rintro rfl; exact hA hx
  rw [List.dropWhile_append_of_pos h1, List.takeWhile_append_of_pos h1]
  simp

theorem mem_oth (σ : Shape) {k j : Nat} (hk : k < σ.n) : j ∈ σ.oth k ↔ j < σ.n ∧ σ.rowOf j = σ.rowOf k ∧ j ≠ k := by
  obtain ⟨A, B, e, hA, ho⟩ := row_split σ hk
  have nd : (σ.row (σ.rowOf k)).Nodup := List.nodup_range.filter _
  have hm : j ∈ σ.row (σ.rowOf k) ↔ j < σ.n ∧ σ.rowOf j = σ.rowOf k := by simp [Shape.row]
  rw [e] at nd hm
  rw [ho]
  have hB : k ∉ B := by rw [List.nodup_append, List.nodup_cons] at nd; exact nd.2.1.1
  grind

theorem nodup_oth (σ : Shape) {k : Nat} (hk : k < σ.n) : (σ.oth k).Nodup := by
  obtain ⟨A, B, e, hA, ho⟩ := row_split σ hk
  have nd : (σ.row (σ.rowOf k)).Nodup := List.nodup_range.filter _
  rw [e] at nd
  rw [ho, List.nodup_append_comm]
  exact (List.Sublist.append (List.Sublist.refl A) (List.sublist_cons_self k B)).nodup nd

theorem length_oth (σ : Shape) {k : Nat} (hk : k < σ.n) : (σ.oth k).length < σ.n + 1 := by
  obtain ⟨A, B, e, hA, ho⟩ := row_split σ hk
  have : (σ.row (σ.rowOf k)).length ≤ σ.n := by
    have := List.length_filter_le (fun k' => decide (σ.rowOf k' = σ.rowOf k)) (List.range σ.n)
    simpa [Shape.row] using this
  rw [e] at this
  rw [ho]
  simp at this ⊢
  omega

/-- `A c` are the cells that are linked in column `c`, `H` the headers in the list of headers -/
structure Rep (σ : Shape) (t : Toroid) (A : Nat → List Nat) (H : List Nat) : Prop where
  cells : t.cells = σ.n
  column : ∀ k < σ.n, t.column (.cell k) = σ.colOf k
  rowOf : ∀ k < σ.n, t.rowOf (.cell k) = σ.rowOf k
  vert : ∀ c, Ring t.down t.up (.col c) ((A c).map .cell)
  nodup : ∀ c, (A c).Nodup
  mem : ∀ c, ∀ k ∈ A c, k < σ.n ∧ σ.colOf k = c
  rows : ∀ k < σ.n, Ring t.right t.left (.cell k) ((σ.oth k).map .cell)
  hdr : Ring t.right t.left .head (H.map .col)
  hdrNodup : H.Nodup
  hdrSec : ∀ c ∈ H, σ.sec c = false
  secs : ∀ c, c < σ.cols → σ.sec c = true → t.right (.col c) = .col c ∧ t.left (.col c) = .col c
  size : ∀ c, t.size c = (A c).length
  cov : ∀ c, ∀ k ∈ A c, t.covered (.cell k) = false

theorem nodup_map_cell {l : List Nat} (h : l.Nodup) : (l.map Node.cell).Nodup := h.map fun a b e => by injection e

theorem nodup_map_col {l : List Nat} (h : l.Nodup) : (l.map Node.col).Nodup := h.map fun a b e => by injection e

/-- what the removal of a linked cell needs -/
structure Linked (t : Toroid) (j : Node) : Prop where
  ud : t.up (t.down j) = j
  du : t.down (t.up j) = j
  dn : t.down j ≠ j
  un : t.up j ≠ j
  pos : 0 < t.size (t.column j)
  cov : t.covered j = false

variable {σ : Shape} {t : Toroid} {A : Nat → List Nat} {H : List Nat}

theorem Rep.linked (h : Rep σ t A H) {j : Nat} (hj : j ∈ A (σ.colOf j)) : Linked t (.cell j) := by
  have hr := ring_local (h.vert (σ.colOf j)) (by simp) (List.mem_map_of_mem hj) (nodup_map_cell (h.nodup _))
  refine ⟨hr.1, hr.2.1, hr.2.2.1, hr.2.2.2.1, ?_, h.cov _ _ hj⟩
  rw [h.column _ (h.mem _ _ hj).1, h.size]
  exact List.length_pos_of_mem hj

theorem toroid_ext {t t' : Toroid} (h1 : t.left = t'.left) (h2 : t.right = t'.right) (h3 : t.up = t'.up) (h4 : t.down = t'.down)
    (h5 : t.column = t'.column) (h6 : t.rowOf = t'.rowOf) (h7 : t.color = t'.color) (h8 : t.covered = t'.covered) (h9 : t.size = t'.size)
    (h10 : t.rows = t'.rows) (h11 : t.cols = t'.cols) (h12 : t.cells = t'.cells) : t = t' := by
  cases t; cases t'; simp_all

theorem upd_upd {N V : Type} [DecidableEq N] (f : N → V) (a : N) (v w : V) : upd (upd f a v) a w = upd f a w := by
  funext x; simp only [upd]; split <;> rfl

theorem upd_self {N V : Type} [DecidableEq N] (f : N → V) (a : N) (v : V) (h : f a = v) : upd f a v = f := by
  funext x; simp only [upd]; split
  · next e => rw [e, h]
  · rfl

theorem relink_unlink {j : Node} (h : Linked t j) : (t.unlink j).relink j = t := by
  obtain ⟨ud, du, dn, un, pos, cov⟩ := h
  unfold Toroid.unlink Toroid.relink
  apply toroid_ext <;> try rfl
  · simp only [upd_ne _ _ _ _ dn.symm, upd_ne _ _ _ _ un.symm, upd_upd]
    exact upd_self _ _ _ ud
  · simp only [upd_ne _ _ _ _ dn.symm, upd_ne _ _ _ _ un.symm, upd_upd]
    exact upd_self _ _ _ du
  · simp only [upd_upd]; exact upd_self _ _ _ cov
  · simp only [upd_upd, upd_same]; exact upd_self _ _ _ (by omega)

theorem unlinkP_eq {j : Node} (h : Linked t j) : t.unlinkP j = t.unlink j := by
  obtain ⟨ud, du, dn, un, pos, cov⟩ := h
  unfold Toroid.unlink Toroid.unlinkP
  simp only [upd_ne _ _ _ _ dn.symm, upd_ne _ _ _ _ un.symm]

theorem relinkP_eq {j : Node} (h : Linked t j) : (t.unlink j).relinkP j = (t.unlink j).relink j := by
  obtain ⟨ud, du, dn, un, pos, cov⟩ := h
  unfold Toroid.unlink Toroid.relinkP Toroid.relink
  simp only [upd_ne _ _ _ _ dn.symm, upd_ne _ _ _ _ un.symm]

theorem Rep.unlink (h : Rep σ t A H) {j : Nat} (hj : j ∈ A (σ.colOf j)) :
    Rep σ (t.unlink (.cell j)) (fun d => (A d).filter (· ≠ j)) H := by
  have hl := h.linked hj
  have hr := ring_local (h.vert (σ.colOf j)) (by simp) (List.mem_map_of_mem hj) (nodup_map_cell (h.nodup _))
  have hjn := (h.mem _ _ hj).1
  have hother : ∀ d, d ≠ σ.colOf j → (A d).filter (· ≠ j) = A d := by
    intro d hd
    apply List.filter_eq_self.2
    intro k hk
    simp only [ne_eq, decide_eq_true_eq]
    rintro rfl
    exact hd (h.mem _ _ hk).2.symm
  have hup : (upd t.up (t.down (.cell j)) (t.up (.cell j))) (.cell j) = t.up (.cell j) := upd_ne _ _ _ _ hl.dn.symm
  have hdown : (t.unlink (.cell j)).down = upd t.down (t.up (.cell j)) (t.down (.cell j)) := by
    simp only [Toroid.unlink, hup]
  have hup' : (t.unlink (.cell j)).up = upd t.up (t.down (.cell j)) (t.up (.cell j)) := rfl
  obtain ⟨P, Q, e⟩ := List.append_of_mem hj
  have ndj := h.nodup (σ.colOf j)
  have efil : (A (σ.colOf j)).filter (· ≠ j) = P ++ Q := by
    rw [e] at ndj ⊢
    rw [List.nodup_append, List.nodup_cons] at ndj
    rw [List.filter_append, List.filter_cons]
    rw [List.filter_eq_self.2, List.filter_eq_self.2]
    · simp
    · intro k hk; simp; rintro rfl; exact ndj.2.1.1 hk
    · intro k hk; simp; rintro rfl; exact ndj.2.2 _ hk _ (by simp) rfl
  refine ⟨h.cells, h.column, h.rowOf, ?_, fun c => (h.nodup c).filter _, ?_, h.rows, h.hdr, h.hdrNodup, h.hdrSec, h.secs, ?_, ?_⟩
  · intro c
    rw [hdown, hup']
    by_cases hc : c = σ.colOf j
    · subst hc
      rw [efil, List.map_append]
      apply ring_remove (x := Node.cell j)
      · have := h.vert (σ.colOf j)
        rw [e] at this; simpa using this
      · have := nodup_map_cell ndj
        rw [e] at this
        rw [List.nodup_cons]
        exact ⟨by simp, by simpa using this⟩
    · simp only [hother c hc]
      apply ring_frame (h.vert c)
      · have := hr.2.2.2.2.2
        intro hm
        simp only [List.mem_cons, List.mem_map] at this hm
        rcases this with e1 | ⟨a, ha, e1⟩ <;> rcases hm with e2 | ⟨b, hb, e2⟩
        · rw [e1] at e2; injection e2 with e2; exact hc e2.symm
        · rw [e1] at e2; cases e2
        · rw [← e1] at e2; cases e2
        · rw [← e1] at e2; injection e2 with e2; subst e2; exact hc ((h.mem _ _ hb).2.symm.trans (h.mem _ _ ha).2)
      · have := hr.2.2.2.2.1
        intro hm
        simp only [List.mem_cons, List.mem_map] at this hm
        rcases this with e1 | ⟨a, ha, e1⟩ <;> rcases hm with e2 | ⟨b, hb, e2⟩
        · rw [e1] at e2; injection e2 with e2; exact hc e2.symm
        · rw [e1] at e2; cases e2
        · rw [← e1] at e2; cases e2
        · rw [← e1] at e2; injection e2 with e2; subst e2; exact hc ((h.mem _ _ hb).2.symm.trans (h.mem _ _ ha).2)
  · intro c k hk
    exact h.mem c k (List.mem_filter.1 hk).1
  · intro c
    show upd t.size (t.column (.cell j)) (t.size (t.column (.cell j)) - 1) c = _
    rw [h.column _ hjn]
    by_cases hc : c = σ.colOf j
    · subst hc
      rw [upd_same, efil, h.size, e]
      simp
    · rw [upd_ne _ _ _ _ hc, hother c hc, h.size]
  · intro c k hk
    rw [List.mem_filter] at hk
    show upd t.covered (.cell j) true (.cell k) = false
    rw [upd_ne _ _ _ _ (by intro e; injection e with e; simp [e] at hk)]
    exact h.cov c k hk.1

/-! ### sequences of steps -/

/-- a step of cover or purify: a cell leaves its column; a cell is marked as purified (it had the colour `x`) -/
inductive Act where
  | unlink (j : Nat)
  | mark (r : Nat) (x : Int)

def Act.exec (t : Toroid) : Act → Toroid
  | .unlink j => t.unlink (.cell j)
  | .mark r _ => { t with color := upd t.color (.cell r) (-1) }

def Act.undo (t : Toroid) : Act → Toroid
  | .unlink j => t.relink (.cell j)
  | .mark r x => { t with color := upd t.color (.cell r) x }

/-- the cells that leave -/
def unl : List Act → List Nat
  | [] => []
  | .unlink j :: as => j :: unl as
  | .mark _ _ :: as => unl as

/-- the cells that are marked -/
def mrk : List Act → List Nat
  | [] => []
  | .unlink _ :: as => mrk as
  | .mark r _ :: as => r :: mrk as

theorem unl_append (a b : List Act) : unl (a ++ b) = unl a ++ unl b := by
  induction a with
  | nil => rfl
  | cons x a ih => cases x <;> simp [unl, ih]

theorem mrk_append (a b : List Act) : mrk (a ++ b) = mrk a ++ mrk b := by
  induction a with
  | nil => rfl
  | cons x a ih => cases x <;> simp [mrk, ih]

def execAll (t : Toroid) (as : List Act) : Toroid := as.foldl Act.exec t

def undoAll (t : Toroid) (as : List Act) : Toroid := as.reverse.foldl Act.undo t

theorem execAll_append (t : Toroid) (a b : List Act) : execAll t (a ++ b) = execAll (execAll t a) b := List.foldl_append

theorem Rep.mark (h : Rep σ t A H) (f : Node → Int) : Rep σ { t with color := f } A H :=
  ⟨h.cells, h.column, h.rowOf, h.vert, h.nodup, h.mem, h.rows, h.hdr, h.hdrNodup, h.hdrSec, h.secs, h.size, h.cov⟩

theorem Rep.execAll (h : Rep σ t A H) (as : List Act) (nd : (unl as).Nodup) (hl : ∀ j ∈ unl as, j ∈ A (σ.colOf j)) :
    Rep σ (execAll t as) (fun d => (A d).filter (· ∉ unl as)) H := by
  induction as generalizing t A with
  | nil =>
    have : (fun d => (A d).filter (· ∉ unl [])) = A := by funext d; simp [unl]
    rw [this]; exact h
  | cons a as ih =>
    cases a with
    | unlink j =>
      simp only [unl, List.nodup_cons, List.mem_cons, forall_eq_or_imp] at nd hl
      have h1 := h.unlink hl.1
      have := ih h1 nd.2 (by
        intro k hk
        rw [List.mem_filter]
        refine ⟨hl.2 k hk, ?_⟩
        simp; rintro rfl; exact nd.1 hk)
      show Rep σ (Dlx.execAll (t.unlink (.cell j)) as) _ H
      convert this using 2 with d
      rw [List.filter_filter]
      apply List.filter_congr
      intro k _
      simp [unl, not_or, Bool.and_comm]
    | mark r x =>
      exact ih (h.mark _) nd hl

/-- steps change nothing else -/
structure SameFrame (t t' : Toroid) : Prop where
  left : t'.left = t.left
  right : t'.right = t.right
  column : t'.column = t.column
  rowOf : t'.rowOf = t.rowOf
  rows : t'.rows = t.rows
  cols : t'.cols = t.cols
  cells : t'.cells = t.cells
  covered : ∀ c, t'.covered (.col c) = t.covered (.col c)

theorem execAll_frame (t : Toroid) (as : List Act) : SameFrame t (execAll t as) := by
  induction as generalizing t with
  | nil => constructor <;> intros <;> rfl
  | cons a as ih =>
    have h1 := ih (a.exec t)
    have h2 : SameFrame t (a.exec t) := by
      cases a <;> constructor <;> intros <;> rfl
    show SameFrame t (execAll (a.exec t) as)
    exact ⟨h1.left.trans h2.left, h1.right.trans h2.right, h1.column.trans h2.column, h1.rowOf.trans h2.rowOf, h1.rows.trans h2.rows,
      h1.cols.trans h2.cols, h1.cells.trans h2.cells, fun c => (h1.covered c).trans (h2.covered c)⟩

theorem execAll_color (t : Toroid) (as : List Act) (n : Node) :
    (execAll t as).color n = if n ∈ (mrk as).map Node.cell then -1 else t.color n := by
  induction as generalizing t with
  | nil => simp [execAll, mrk]
  | cons a as ih =>
    show (execAll (a.exec t) as).color n = _
    rw [ih]
    cases a with
    | unlink j => simp [mrk, Act.exec, Toroid.unlink]
    | mark r x =>
      simp only [mrk, Act.exec, List.map_cons, List.mem_cons]
      by_cases h1 : n ∈ (mrk as).map Node.cell
      · simp [h1]
      · by_cases h2 : n = .cell r
        · subst h2; simp
        · simp [h1, h2, upd_ne]

theorem undo_exec (h : Rep σ t A H) (as : List Act) (nd : (unl as).Nodup) (hl : ∀ j ∈ unl as, j ∈ A (σ.colOf j))
    (nm : (mrk as).Nodup) (hm : ∀ r x, Act.mark r x ∈ as → t.color (.cell r) = x) : undoAll (execAll t as) as = t := by
  induction as generalizing t A with
  | nil => rfl
  | cons a as ih =>
    have e : undoAll (execAll t (a :: as)) (a :: as) = Act.undo (undoAll (execAll (a.exec t) as) as) a := by
      simp [undoAll, execAll, List.foldl_append]
    rw [e]
    cases a with
    | unlink j =>
      simp only [unl, List.nodup_cons, List.mem_cons, forall_eq_or_imp] at nd hl
      rw [ih (t := Act.exec t (.unlink j)) (A := fun d => (A d).filter (· ≠ j)) (h.unlink hl.1) nd.2 (by
        intro k hk
        rw [List.mem_filter]
        refine ⟨hl.2 k hk, ?_⟩
        simp; rintro rfl; exact nd.1 hk) nm (by
        intro r x hx
        have := hm r x (List.mem_cons_of_mem _ hx)
        simpa [Act.exec, Toroid.unlink] using this)]
      exact relink_unlink (h.linked hl.1)
    | mark r x =>
      simp only [mrk, List.nodup_cons] at nm
      rw [ih (t := Act.exec t (.mark r x)) (A := A) (h.mark _) nd hl nm.2 (by
        intro r' x' hx
        have hne : r' ≠ r := by
          rintro rfl
          apply nm.1
          clear ih h nd hl nm hm e
          induction as with
          | nil => cases hx
          | cons a as ih2 =>
            rcases List.mem_cons.1 hx with rfl | hx'
            · simp [mrk]
            · cases a <;> simp [mrk, ih2 hx']
        have := hm r' x' (List.mem_cons_of_mem _ hx)
        show upd t.color (.cell r) (-1) (.cell r') = x'
        rw [upd_ne _ _ _ _ (by simpa using hne)]
        exact this)]
      show { t with color := upd (upd t.color (.cell r) (-1)) (.cell r) x } = t
      rw [upd_upd, upd_self _ _ _ (hm r x (by simp))]

end Verif.Dlx
