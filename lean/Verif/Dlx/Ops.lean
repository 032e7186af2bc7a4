import Verif.Dlx.Rep
import Mathlib.Data.List.Perm.Subperm
/-
cover_column, uncover_column, purify, unpurify on a represented toroid.
-/
namespace Verif.Dlx
open Verif.Ring

variable {σ : Shape} {t : Toroid} {A : Nat → List Nat} {H : List Nat}

/-- the number of a cell -/
def Node.idx : Node → Nat
  | .cell k => k
  | _ => 0

theorem map_idx_cell (l : List Nat) : (l.map Node.cell).map Node.idx = l := by
  rw [List.map_map]; exact List.map_id'' (fun _ => rfl) l

theorem unl_map (l : List Nat) : unl (l.map Act.unlink) = l := by
  induction l with
  | nil => rfl
  | cons a l ih => simp [unl, ih]

theorem mrk_map (l : List Nat) : mrk (l.map Act.unlink) = [] := by
  induction l with
  | nil => rfl
  | cons a l ih => simp [mrk, ih]

/-- a row leaves its columns, except for one -/
theorem row_loops (h : Rep σ t A H) {i : Nat} (hi : i < σ.n) (hl : ∀ j ∈ σ.oth i, j ∈ A (σ.colOf j))
    (u r : Toroid → Node → Toroid) (hu : ∀ t j, Linked t j → u t j = t.unlink j) (hr : ∀ t j, Linked t j → r (t.unlink j) j = t)
    (f : Nat) (hf : f = σ.n + 1) :
    loop Toroid.right (fun j t => some (u t j)) (.cell i) f (t.right (.cell i)) t = some (execAll t ((σ.oth i).map .unlink)) ∧
    loop Toroid.left (fun j t => some (r t j)) (.cell i) f ((execAll t ((σ.oth i).map .unlink)).left (.cell i))
      (execAll t ((σ.oth i).map .unlink)) = some t := by
  subst hf
  let S : List Node → Toroid := fun q => execAll t ((q.map Node.idx).map .unlink)
  have s0 : S [] = t := rfl
  have s1 : S ((σ.oth i).map .cell) = execAll t ((σ.oth i).map .unlink) := by simp only [S, map_idx_cell]
  have hst : Node.cell i ∉ (σ.oth i).map Node.cell := by
    simp only [List.mem_map, not_exists, not_and]
    intro j hj e; injection e with e; subst e
    exact ((mem_oth σ hi).1 hj).2.2 rfl
  have ring : ∀ pre post, (σ.oth i).map .cell = pre ++ post → Ring (S pre).right (S pre).left (.cell i) ((σ.oth i).map .cell) := by
    intro pre post _
    rw [(execAll_frame t _).right, (execAll_frame t _).left]
    exact h.rows i hi
  have step : ∀ pre j post, (σ.oth i).map Node.cell = pre ++ j :: post →
      ∃ k, j = .cell k ∧ Linked (S pre) (.cell k) ∧ S (pre ++ [.cell k]) = (S pre).unlink (.cell k) := by
    intro pre j post e
    have hj : j ∈ (σ.oth i).map Node.cell := by rw [e]; simp
    obtain ⟨k, hk, rfl⟩ := List.mem_map.1 hj
    have e' : σ.oth i = pre.map Node.idx ++ k :: post.map Node.idx := by
      have := congrArg (List.map Node.idx) e
      rw [map_idx_cell] at this
      simpa [Node.idx] using this
    have nd := nodup_oth σ hi
    rw [e'] at nd hl
    refine ⟨k, rfl, ?_, ?_⟩
    · rw [List.nodup_append] at nd
      refine (h.execAll ((pre.map Node.idx).map .unlink) (by rw [unl_map]; exact nd.1)
        (by rw [unl_map]; intro j hj; exact hl j (by simp [hj]))).linked (j := k) ?_
      rw [List.mem_filter]
      refine ⟨hl k (by simp), ?_⟩
      rw [unl_map]
      simp only [decide_eq_true_eq]
      intro hm
      exact nd.2.2 k hm k (by simp) rfl
    · simp [S, execAll, Node.idx, Act.exec, List.foldl_append]
  have hlen : ((σ.oth i).map Node.cell).length < σ.n + 1 := by simpa using length_oth σ hi
  constructor
  · have := loop_fwd Toroid.right Toroid.left (fun j t => some (u t j)) (.cell i) _ S (σ.n + 1) hst ring ?_ hlen
    · rw [s0, s1] at this; exact this
    · intro pre j post e
      obtain ⟨k, rfl, lk, e2⟩ := step pre j post e
      rw [e2, hu _ _ lk]
  · have := loop_bwd Toroid.right Toroid.left (fun j t => some (r t j)) (.cell i) _ S (σ.n + 1) hst ring ?_ hlen
    · rw [s0, s1] at this; exact this
    · intro pre j post e
      obtain ⟨k, rfl, lk, e2⟩ := step pre j post e
      rw [e2, hr _ _ lk]

/-- a column is traversed, with a block of steps for each of its cells -/
theorem column_loops (h : Rep σ t A H) (c : Nat) (blk : Nat → List Act) (nd : (unl ((A c).flatMap blk)).Nodup)
    (hl : ∀ j ∈ unl ((A c).flatMap blk), j ∈ A (σ.colOf j) ∧ σ.colOf j ≠ c)
    (body bodyU : Node → Toroid → Option Toroid)
    (hb : ∀ pre i post, A c = pre ++ i :: post →
      body (.cell i) (execAll t (pre.flatMap blk)) = some (execAll (execAll t (pre.flatMap blk)) (blk i)) ∧
      bodyU (.cell i) (execAll (execAll t (pre.flatMap blk)) (blk i)) = some (execAll t (pre.flatMap blk)))
    (f : Nat) (hf : f = σ.n + 1) :
    loop Toroid.down body (.col c) f (t.down (.col c)) t = some (execAll t ((A c).flatMap blk)) ∧
    loop Toroid.up bodyU (.col c) f ((execAll t ((A c).flatMap blk)).up (.col c)) (execAll t ((A c).flatMap blk)) = some t := by
  subst hf
  let S : List Node → Toroid := fun q => execAll t ((q.map Node.idx).flatMap blk)
  have s0 : S [] = t := rfl
  have s1 : S ((A c).map .cell) = execAll t ((A c).flatMap blk) := by simp only [S, map_idx_cell]
  have hst : Node.col c ∉ (A c).map Node.cell := by simp
  have ring : ∀ pre post, (A c).map .cell = pre ++ post → Ring (S pre).down (S pre).up (.col c) ((A c).map .cell) := by
    intro pre post e
    have e' : A c = pre.map Node.idx ++ post.map Node.idx := by
      have := congrArg (List.map Node.idx) e
      rw [map_idx_cell] at this
      simpa using this
    have hsub : ∀ j ∈ unl ((pre.map Node.idx).flatMap blk), j ∈ unl ((A c).flatMap blk) := by
      intro j hj
      rw [e', List.flatMap_append, unl_append]; simp [hj]
    have h2 := (h.execAll ((pre.map Node.idx).flatMap blk) (by
      rw [e', List.flatMap_append, unl_append, List.nodup_append] at nd
      exact nd.1) (fun j hj => (hl j (hsub j hj)).1)).vert c
    rw [List.filter_eq_self.2] at h2
    · exact h2
    · intro k hk
      simp only [decide_eq_true_eq]
      intro hm
      exact (hl k (hsub k hm)).2 (h.mem _ _ hk).2
  have step : ∀ pre j post, (A c).map Node.cell = pre ++ j :: post →
      ∃ k, j = .cell k ∧ A c = pre.map Node.idx ++ k :: post.map Node.idx ∧ S (pre ++ [.cell k]) = execAll (S pre) (blk k) := by
    intro pre j post e
    have hj : j ∈ (A c).map Node.cell := by rw [e]; simp
    obtain ⟨k, hk, rfl⟩ := List.mem_map.1 hj
    refine ⟨k, rfl, ?_, ?_⟩
    · have := congrArg (List.map Node.idx) e
      rw [map_idx_cell] at this
      simpa [Node.idx] using this
    · simp [S, execAll, Node.idx, List.foldl_append]
  have hlen : ((A c).map Node.cell).length < σ.n + 1 := by
    have : (A c).length ≤ (List.range σ.n).length :=
      (List.subperm_of_subset (h.nodup c) (fun k hk => List.mem_range.2 (h.mem _ _ hk).1)).length_le
    simp at this ⊢
    omega
  constructor
  · have := loop_fwd Toroid.down Toroid.up body (.col c) _ S (σ.n + 1) hst ring ?_ hlen
    · rw [s0, s1] at this; exact this
    · intro pre j post e
      obtain ⟨k, rfl, e1, e2⟩ := step pre j post e
      rw [e2]
      exact (hb _ _ _ e1).1
  · have := loop_bwd Toroid.down Toroid.up bodyU (.col c) _ S (σ.n + 1) hst ring ?_ hlen
    · rw [s0, s1] at this; exact this
    · intro pre j post e
      obtain ⟨k, rfl, e1, e2⟩ := step pre j post e
      rw [e2]
      exact (hb _ _ _ e1).2

/-! ### the header list -/

def Toroid.dropHeader (t : Toroid) (c : Nat) : Toroid :=
  let left := upd t.left (t.right (.col c)) (t.left (.col c))
  let right := upd t.right (left (.col c)) (t.right (.col c))
  { t with left := left, right := right }

def Toroid.putHeader (t : Toroid) (c : Nat) : Toroid :=
  let left := upd t.left (t.right (.col c)) (.col c)
  let right := upd t.right (left (.col c)) (.col c)
  { t with left := left, right := right }

theorem header_undo (h : Rep σ t A H) {c : Nat} (hc : c < σ.cols) (ho : c ∈ H ∨ σ.sec c = true) :
    (t.dropHeader c).putHeader c = t ∧ Rep σ (t.dropHeader c) A (H.filter (· ≠ c)) := by
  rcases ho with ho | ho
  · have hr := ring_local h.hdr (by simp) (List.mem_map_of_mem ho) (nodup_map_col h.hdrNodup)
    obtain ⟨e1, e2, n1, n2, m1, m2⟩ := hr
    have d : t.dropHeader c = { t with
        left := upd t.left (t.right (.col c)) (t.left (.col c)), right := upd t.right (t.left (.col c)) (t.right (.col c)) } := by
      simp only [Toroid.dropHeader, upd_ne _ _ _ _ n1.symm]
    have hne : ∀ k : Nat, Node.cell k ≠ t.right (.col c) ∧ Node.cell k ≠ t.left (.col c) := by
      intro k
      constructor
      · intro e; rw [← e] at m1; simp at m1
      · intro e; rw [← e] at m2; simp at m2
    refine ⟨?_, ?_⟩
    · rw [d]
      simp only [Toroid.putHeader]
      apply toroid_ext <;> try rfl
      · simp only [upd_ne _ _ _ _ n2.symm, upd_upd]
        exact upd_self _ _ _ e1
      · simp only [upd_ne _ _ _ _ n2.symm, upd_ne _ _ _ _ n1.symm, upd_upd]
        exact upd_self _ _ _ e2
    · rw [d]
      obtain ⟨P, Q, e⟩ := List.append_of_mem ho
      have ndH := h.hdrNodup
      have efil : H.filter (· ≠ c) = P ++ Q := by
        rw [e] at ndH ⊢
        rw [List.nodup_append, List.nodup_cons] at ndH
        rw [List.filter_append, List.filter_cons]
        rw [List.filter_eq_self.2, List.filter_eq_self.2]
        · simp
        · intro k hk; simp; rintro rfl; exact ndH.2.1.1 hk
        · intro k hk; simp; rintro rfl; exact ndH.2.2 _ hk _ (by simp) rfl
      refine ⟨h.cells, h.column, h.rowOf, h.vert, h.nodup, h.mem, ?_, ?_, h.hdrNodup.filter _, fun d hd => h.hdrSec d (List.mem_filter.1 hd).1,
        ?_, h.size, h.cov⟩
      · intro k hk
        refine ring_congr (h.rows k hk) ?_
        intro x hx
        have : ∃ k, x = Node.cell k := by
          simp only [List.mem_cons, List.mem_map] at hx
          rcases hx with rfl | ⟨a, _, rfl⟩
          · exact ⟨_, rfl⟩
          · exact ⟨_, rfl⟩
        obtain ⟨k', rfl⟩ := this
        exact ⟨upd_ne _ _ _ _ (hne k').2, upd_ne _ _ _ _ (hne k').1⟩
      · rw [efil, List.map_append]
        apply ring_remove (x := Node.col c)
        · have := h.hdr
          rw [e] at this; simpa using this
        · have := nodup_map_col ndH
          rw [e] at this
          rw [List.nodup_cons]
          exact ⟨by simp, by simpa using this⟩
      · intro d hd hs
        have hdn : d ∉ H := fun hh => by have := h.hdrSec d hh; rw [hs] at this; cases this
        have := h.secs d hd hs
        refine ⟨?_, ?_⟩
        · show upd t.right _ _ (.col d) = _
          rw [upd_ne]
          · exact this.1
          · intro e; rw [← e] at m2; simp at m2; exact hdn m2
        · show upd t.left _ _ (.col d) = _
          rw [upd_ne]
          · exact this.2
          · intro e; rw [← e] at m1; simp at m1; exact hdn m1
  · have hs := h.secs c hc ho
    have hcn : c ∉ H := fun hh => by have := h.hdrSec c hh; rw [ho] at this; cases this
    have d : t.dropHeader c = t := by
      simp only [Toroid.dropHeader]
      apply toroid_ext <;> try rfl
      · exact upd_self _ _ _ (by rw [hs.1])
      · simp only [hs.1, hs.2, upd_same]
        exact upd_self _ _ _ hs.1
    rw [d]
    refine ⟨?_, ?_⟩
    · simp only [Toroid.putHeader]
      apply toroid_ext <;> try rfl
      · exact upd_self _ _ _ (by rw [hs.1, hs.2])
      · simp only [hs.1, upd_same]
        exact upd_self _ _ _ hs.1
    · rw [List.filter_eq_self.2]
      · exact h
      · intro k hk; simp; rintro rfl; exact hcn hk

/-! ### the state of a search -/

/-- `al`: the rows that can still be chosen; `op`: the columns that are not yet covered or purified -/
structure Inv (σ : Shape) (t : Toroid) (A : Nat → List Nat) (H : List Nat) (al op : Nat → Prop) : Prop extends Rep σ t A H where
  open_hdr : ∀ c, c ∈ H ↔ c < σ.cols ∧ op c ∧ σ.sec c = false
  open_plain : ∀ c, c < σ.cols → op c → t.covered (.col c) = false ∧ t.color (.col c) = 0
  open_cells : ∀ c, c < σ.cols → op c → ∀ k, k ∈ A c ↔ k < σ.n ∧ σ.colOf k = c ∧ al (σ.rowOf k)
  alive : ∀ k, k < σ.n → al (σ.rowOf k) → k ∈ A (σ.colOf k)
  open_color : ∀ k, k < σ.n → op (σ.colOf k) → t.color (.cell k) = σ.colr k

structure Shape.Wf (σ : Shape) : Prop where
  col_lt : ∀ k, k < σ.n → σ.colOf k < σ.cols
  one : ∀ k l, k < σ.n → l < σ.n → σ.rowOf k = σ.rowOf l → σ.colOf k = σ.colOf l → k = l
  color : ∀ k, k < σ.n → 0 ≤ σ.colr k
  plain : ∀ k, k < σ.n → σ.sec (σ.colOf k) = false → σ.colr k = 0

theorem unl_flatMap (l : List Nat) (f : Nat → List Nat) : unl (l.flatMap fun i => (f i).map Act.unlink) = l.flatMap f := by
  induction l with
  | nil => rfl
  | cons a l ih => simp [unl_append, unl_map, ih]

theorem mrk_flatMap (l : List Nat) (f : Nat → List Nat) : mrk (l.flatMap fun i => (f i).map Act.unlink) = [] := by
  induction l with
  | nil => rfl
  | cons a l ih => simp [mrk_append, mrk_map, ih]

/-- rows of different cells of a column have no cell in common -/
theorem nodup_flatMap_oth (w : σ.Wf) {c : Nat} (l : List Nat) (nd : l.Nodup) (hl : ∀ k ∈ l, k < σ.n ∧ σ.colOf k = c) :
    (l.flatMap σ.oth).Nodup := by
  rw [List.nodup_flatMap]
  refine ⟨fun k hk => nodup_oth σ (hl k hk).1, ?_⟩
  refine nd.imp_of_mem ?_
  intro k k' hk hk' hne
  simp only [Function.onFun]
  intro j hj hj'
  rw [mem_oth σ (hl k hk).1] at hj
  rw [mem_oth σ (hl k' hk').1] at hj'
  exact hne (w.one k k' (hl k hk).1 (hl k' hk').1 (hj.2.1.symm.trans hj'.2.1) ((hl k hk).2.trans (hl k' hk').2.symm))

variable {al op : Nat → Prop}

theorem cover_eq (t : Toroid) (c : Nat) : t.cover c =
    (loop Toroid.down (fun i t => loop Toroid.right (fun j t => some (t.unlink j)) i (t.cells + 1) (t.right i) t) (.col c)
      ((t.dropHeader c).cells + 1) ((t.dropHeader c).down (.col c)) (t.dropHeader c)).bind
      fun t => some { t with covered := upd t.covered (.col c) true } := rfl

theorem uncover_eq (t : Toroid) (c : Nat) : t.uncover c =
    (loop Toroid.up (fun i t => loop Toroid.left (fun j t => some (t.relink j)) i (t.cells + 1) (t.left i) t) (.col c)
      (t.cells + 1) (t.up (.col c)) { t with covered := upd t.covered (.col c) false }).bind
      fun t => some (t.putHeader c) := rfl

/-- covering an open column: the rows in it can no longer be chosen; uncovering it restores everything -/
theorem cover_inv (w : σ.Wf) (h : Inv σ t A H al op) {c : Nat} (hc : c < σ.cols) (ho : op c) :
    ∃ t' A', t.cover c = some t' ∧ t'.uncover c = some t ∧ t'.color = t.color ∧ A' c = A c ∧
      Inv σ t' A' (H.filter (· ≠ c)) (fun ρ => al ρ ∧ ∀ k, k < σ.n → σ.rowOf k = ρ → σ.colOf k ≠ c) (fun d => op d ∧ d ≠ c) := by
  have hch : c ∈ H ∨ σ.sec c = true := by
    cases hs : σ.sec c with
    | true => exact Or.inr rfl
    | false => exact Or.inl ((h.open_hdr c).2 ⟨hc, ho, hs⟩)
  obtain ⟨hu, hd⟩ := header_undo h.toRep hc hch
  have hAc := h.open_cells c hc ho
  have hmem : ∀ k ∈ A c, k < σ.n ∧ σ.colOf k = c := h.mem c
  let blk : Nat → List Act := fun i => (σ.oth i).map .unlink
  have hlink : ∀ i ∈ A c, ∀ j ∈ σ.oth i, j ∈ A (σ.colOf j) ∧ σ.colOf j ≠ c := by
    intro i hi j hj
    have hi' := (hAc i).1 hi
    have hj' := (mem_oth σ hi'.1).1 hj
    refine ⟨h.alive j hj'.1 (by rw [hj'.2.1]; exact hi'.2.2), ?_⟩
    intro e
    exact hj'.2.2 (w.one j i hj'.1 hi'.1 hj'.2.1 (e.trans hi'.2.1.symm))
  have hunl : unl ((A c).flatMap blk) = (A c).flatMap σ.oth := unl_flatMap _ _
  have hmrk : mrk ((A c).flatMap blk) = [] := mrk_flatMap _ _
  have hnd : (unl ((A c).flatMap blk)).Nodup := by
    rw [hunl]; exact nodup_flatMap_oth w _ (h.nodup c) hmem
  have hl : ∀ j ∈ unl ((A c).flatMap blk), j ∈ A (σ.colOf j) ∧ σ.colOf j ≠ c := by
    rw [hunl]
    intro j hj
    obtain ⟨i, hi, hj⟩ := List.mem_flatMap.1 hj
    exact hlink i hi j hj
  obtain ⟨f1, f2⟩ := column_loops hd c blk hnd hl
    (fun i t => loop Toroid.right (fun j t => some (t.unlink j)) i (t.cells + 1) (t.right i) t)
    (fun i t => loop Toroid.left (fun j t => some (t.relink j)) i (t.cells + 1) (t.left i) t) (by
      intro pre i post e
      have hi : i ∈ A c := by rw [e]; simp
      have hpre : ∀ j ∈ unl (pre.flatMap blk), j ∈ unl ((A c).flatMap blk) := by
        intro j hj; rw [e, List.flatMap_append, unl_append]; simp [hj]
      have nd' := hnd
      rw [e, List.flatMap_append, List.flatMap_cons, unl_append, unl_append, List.nodup_append, List.nodup_append] at nd'
      have hrep := hd.execAll (pre.flatMap blk) nd'.1 (fun j hj => (hl j (hpre j hj)).1)
      have hrow := row_loops hrep (hmem i hi).1 (by
        intro j hj
        rw [List.mem_filter]
        refine ⟨(hlink i hi j hj).1, ?_⟩
        simp only [decide_eq_true_eq]
        intro hm
        have hj2 : j ∈ unl (blk i) := by simp only [blk, unl_map]; exact hj
        exact nd'.2.2 j hm j (by simp [hj2]) rfl)
        Toroid.unlink Toroid.relink (fun _ _ _ => rfl) (fun _ _ h => relink_unlink h) (σ.n + 1) rfl
      have e1 : (execAll (t.dropHeader c) (pre.flatMap blk)).cells = σ.n := hrep.cells
      have e2 : (execAll (execAll (t.dropHeader c) (pre.flatMap blk)) (blk i)).cells = σ.n := (execAll_frame _ _).cells.trans e1
      constructor
      · show loop _ _ _ _ _ _ = _
        rw [e1]; exact hrow.1
      · show loop _ _ _ _ _ _ = _
        rw [e2]; exact hrow.2) (σ.n + 1) rfl
  have hcells : (t.dropHeader c).cells = σ.n := h.cells
  have hfr := execAll_frame (t.dropHeader c) ((A c).flatMap blk)
  have hcovc : (execAll (t.dropHeader c) ((A c).flatMap blk)).covered (.col c) = false :=
    (hfr.covered c).trans (h.open_plain c hc ho).1
  refine ⟨{ execAll (t.dropHeader c) ((A c).flatMap blk) with
      covered := upd (execAll (t.dropHeader c) ((A c).flatMap blk)).covered (.col c) true },
    fun d => (A d).filter (· ∉ unl ((A c).flatMap blk)), ?_, ?_, ?_, ?_, ?_⟩
  rotate_left 4
  · have hrep := hd.execAll ((A c).flatMap blk) hnd (fun j hj => (hl j hj).1)
    have hin : ∀ d, d < σ.cols → op d → d ≠ c → ∀ k, k ∈ (A d).filter (· ∉ unl ((A c).flatMap blk)) ↔
        k < σ.n ∧ σ.colOf k = d ∧ al (σ.rowOf k) ∧ ∀ k', k' < σ.n → σ.rowOf k' = σ.rowOf k → σ.colOf k' ≠ c := by
      intro d hd' hop hne k
      rw [List.mem_filter, h.open_cells d hd' hop, hunl]
      simp only [decide_eq_true_eq, List.mem_flatMap, not_exists, not_and]
      constructor
      · rintro ⟨⟨h1, h2, h3⟩, h4⟩
        refine ⟨h1, h2, h3, ?_⟩
        intro k' hk' er ec
        refine h4 k' ((hAc k').2 ⟨hk', ec, by rw [er]; exact h3⟩) ((mem_oth σ hk').2 ⟨h1, er.symm, ?_⟩)
        rintro rfl; exact hne (h2.symm.trans ec)
      · rintro ⟨h1, h2, h3, h4⟩
        refine ⟨⟨h1, h2, h3⟩, ?_⟩
        intro i hi hk
        have hi' := (hAc i).1 hi
        have := (mem_oth σ hi'.1).1 hk
        exact h4 i hi'.1 this.2.1.symm hi'.2.1
    refine ⟨⟨hrep.cells, hrep.column, hrep.rowOf, hrep.vert, hrep.nodup, hrep.mem, hrep.rows, hrep.hdr, hrep.hdrNodup, hrep.hdrSec, hrep.secs,
      hrep.size, ?_⟩, ?_, ?_, ?_, ?_, ?_⟩
    · intro d k hk
      refine (upd_ne (execAll (t.dropHeader c) ((A c).flatMap blk)).covered (.col c) (.cell k) true nofun).trans ?_
      exact hrep.cov d k hk
    · intro d
      rw [List.mem_filter, h.open_hdr]
      simp only [decide_eq_true_eq, ne_eq]
      tauto
    · intro d hd' hop
      have hne : Node.col d ≠ .col c := by intro e; injection e with e; exact hop.2 e
      refine ⟨?_, ?_⟩
      · refine (upd_ne (execAll (t.dropHeader c) ((A c).flatMap blk)).covered (.col c) _ _ hne).trans ?_
        rw [hfr.covered]
        exact (h.open_plain d hd' hop.1).1
      · show (execAll _ _).color _ = _
        rw [execAll_color, hmrk]
        rw [if_neg (by simp)]
        exact (h.open_plain d hd' hop.1).2
    · intro d hd' hop k
      exact hin d hd' hop.1 hop.2 k
    · intro k hk hal
      have hkA := h.alive k hk hal.1
      rw [List.mem_filter]
      refine ⟨hkA, ?_⟩
      rw [hunl]
      simp only [decide_eq_true_eq, List.mem_flatMap, not_exists, not_and]
      intro i hi hk'
      have hi' := (hAc i).1 hi
      have := (mem_oth σ hi'.1).1 hk'
      exact hal.2 i hi'.1 this.2.1.symm hi'.2.1
    · intro k hk hop
      show (execAll _ _).color _ = _
      rw [execAll_color, hmrk]
      rw [if_neg (by simp)]
      exact h.open_color k hk hop.1
  · rw [cover_eq, hcells, f1]; rfl
  · rw [uncover_eq]
    have e0 : ({ execAll (t.dropHeader c) ((A c).flatMap blk) with
      covered := upd (upd (execAll (t.dropHeader c) ((A c).flatMap blk)).covered (.col c) true) (.col c) false } : Toroid) =
        execAll (t.dropHeader c) ((A c).flatMap blk) := by
      rw [upd_upd, upd_self _ _ _ hcovc]
    show (loop _ _ _ ((execAll (t.dropHeader c) ((A c).flatMap blk)).cells + 1) ((execAll (t.dropHeader c) ((A c).flatMap blk)).up (.col c)) _).bind _ = _
    rw [e0, hfr.cells, hcells, f2]
    exact congrArg some hu
  · funext n
    show (execAll _ _).color n = _
    rw [execAll_color, hmrk]; rfl
  · show (A c).filter _ = A c
    rw [List.filter_eq_self]
    intro k hk
    simp only [decide_eq_true_eq]
    intro hm
    exact (hl k hm).2 (hmem k hk).2

/-! ### purify -/

/-- the steps of purify for a cell of the column -/
def Shape.pblk (σ : Shape) (k0 i : Nat) : List Act :=
  if σ.colr i ≠ σ.colr k0 then (σ.oth i).map .unlink else if i ≠ k0 then [.mark i (σ.colr k0)] else []

theorem mem_unl_pblk {k0 : Nat} {l : List Nat} {j : Nat} :
    j ∈ unl (l.flatMap (σ.pblk k0)) ↔ ∃ i ∈ l, σ.colr i ≠ σ.colr k0 ∧ j ∈ σ.oth i := by
  induction l with
  | nil => simp [unl]
  | cons a l ih =>
    rw [List.flatMap_cons, unl_append, List.mem_append, ih]
    simp only [List.mem_cons, exists_eq_or_imp]
    apply or_congr_left
    unfold Shape.pblk
    split_ifs with h1 h2 <;> simp [unl, unl_map, h1] <;> tauto

theorem mem_mrk_pblk {k0 : Nat} {l : List Nat} {j : Nat} :
    j ∈ mrk (l.flatMap (σ.pblk k0)) ↔ j ∈ l ∧ σ.colr j = σ.colr k0 ∧ j ≠ k0 := by
  induction l with
  | nil => simp [mrk]
  | cons a l ih =>
    rw [List.flatMap_cons, mrk_append, List.mem_append, ih]
    simp only [List.mem_cons]
    have : j ∈ mrk (σ.pblk k0 a) ↔ j = a ∧ σ.colr j = σ.colr k0 ∧ j ≠ k0 := by
      unfold Shape.pblk
      split_ifs with h1 h2
      · rw [mrk_map]; simp; rintro rfl h; exact absurd h h1
      · simp only [mrk, List.mem_singleton]
        constructor
        · rintro rfl; exact ⟨rfl, by simpa using h1, h2⟩
        · exact fun h => h.1
      · simp only [mrk, List.not_mem_nil, false_iff]; rintro ⟨rfl, _, h⟩; exact h2 h
    rw [this]; tauto

theorem nodup_unl_pblk (w : σ.Wf) {k0 c : Nat} (l : List Nat) (nd : l.Nodup) (hl : ∀ k ∈ l, k < σ.n ∧ σ.colOf k = c) :
    (unl (l.flatMap (σ.pblk k0))).Nodup := by
  have e : unl (l.flatMap (σ.pblk k0)) = (l.filter fun i => σ.colr i ≠ σ.colr k0).flatMap σ.oth := by
    clear nd hl
    induction l with
    | nil => rfl
    | cons a l ih =>
      rw [List.flatMap_cons, unl_append, ih, List.filter_cons]
      unfold Shape.pblk
      by_cases h1 : σ.colr a ≠ σ.colr k0
      · simp [h1, unl_map]
      · simp only [h1, if_false, decide_false]
        split_ifs <;> simp_all [unl]
  rw [e]
  exact nodup_flatMap_oth w _ (nd.filter _) fun k hk => hl k (List.mem_filter.1 hk).1

theorem purify_eq (t : Toroid) (p : Node) : t.purify p =
    loop Toroid.down (fun rr s =>
      if s.color rr ≠ t.color p then loop Toroid.right (fun nn t => some (t.unlinkP nn)) rr (s.cells + 1) (s.right rr) s
      else if rr ≠ p then some { s with color := upd s.color rr (-1) }
      else some s) (.col (t.column p)) (t.cells + 1) (t.down (.col (t.column p))) { t with color := upd t.color (.col (t.column p)) (t.color p) } := rfl

theorem unpurify_eq (t : Toroid) (p : Node) : t.unpurify p =
    (loop Toroid.up (fun rr s =>
      if s.color rr < 0 then some { s with color := upd s.color rr (t.color p) }
      else if rr ≠ p then loop Toroid.left (fun nn t => some (t.relinkP nn)) rr (s.cells + 1) (s.left rr) s
      else some s) (.col (t.column p)) (t.cells + 1) (t.up (.col (t.column p))) t).bind
      fun s => some { s with color := upd s.color (.col (t.column p)) 0 } := rfl

/-- purifying an open column: rows with another colour in it can no longer be chosen; unpurifying it restores everything -/
theorem purify_inv (w : σ.Wf) (h : Inv σ t A H al op) {k0 : Nat} (hk0 : k0 < σ.n) (ho : op (σ.colOf k0)) (hx : 0 < σ.colr k0) :
    ∃ t' A', t.purify (.cell k0) = some t' ∧ t'.unpurify (.cell k0) = some t ∧
      (∀ k, t'.color (.cell k) = if k ∈ A (σ.colOf k0) ∧ σ.colr k = σ.colr k0 ∧ k ≠ k0 then -1 else t.color (.cell k)) ∧
      Inv σ t' A' H (fun ρ => al ρ ∧ ∀ k, k < σ.n → σ.rowOf k = ρ → σ.colOf k = σ.colOf k0 → σ.colr k = σ.colr k0)
        (fun d => op d ∧ d ≠ σ.colOf k0) := by
  obtain ⟨c, hcdef⟩ : ∃ c, c = σ.colOf k0 := ⟨_, rfl⟩
  rw [← hcdef] at ho ⊢
  have hc : c < σ.cols := by rw [hcdef]; exact w.col_lt k0 hk0
  have hsec : σ.sec c = true := by
    cases hs : σ.sec c with
    | true => rfl
    | false => have := w.plain k0 hk0 (by rw [← hcdef]; exact hs); omega
  have hcol : t.column (.cell k0) = c := by rw [h.column k0 hk0, hcdef]
  have hclr : t.color (.cell k0) = σ.colr k0 := h.open_color k0 hk0 (by rw [← hcdef]; exact ho)
  obtain ⟨t0, ht0⟩ : ∃ t0, t0 = { t with color := upd t.color (.col c) (σ.colr k0) } := ⟨_, rfl⟩
  have hrep0 : Rep σ t0 A H := by rw [ht0]; exact h.toRep.mark _
  have hAc := h.open_cells c hc ho
  have hmem : ∀ k ∈ A c, k < σ.n ∧ σ.colOf k = c := h.mem c
  have hlink : ∀ i ∈ A c, ∀ j ∈ σ.oth i, j ∈ A (σ.colOf j) ∧ σ.colOf j ≠ c := by
    intro i hi j hj
    have hi' := (hAc i).1 hi
    have hj' := (mem_oth σ hi'.1).1 hj
    refine ⟨h.alive j hj'.1 (by rw [hj'.2.1]; exact hi'.2.2), ?_⟩
    intro e
    exact hj'.2.2 (w.one j i hj'.1 hi'.1 hj'.2.1 (e.trans hi'.2.1.symm))
  have hnd : (unl ((A c).flatMap (σ.pblk k0))).Nodup := nodup_unl_pblk w _ (h.nodup c) hmem
  have hl : ∀ j ∈ unl ((A c).flatMap (σ.pblk k0)), j ∈ A (σ.colOf j) ∧ σ.colOf j ≠ c := by
    intro j hj
    obtain ⟨i, hi, _, hj⟩ := mem_unl_pblk.1 hj
    exact hlink i hi j hj
  have hcolor : ∀ i ∈ A c, t0.color (.cell i) = σ.colr i := by
    intro i hi
    rw [ht0]
    refine (upd_ne t.color (.col c) (.cell _) (σ.colr k0) nofun).trans ?_
    exact h.open_color i (hmem i hi).1 (by rw [(hmem i hi).2]; exact ho)
  obtain ⟨f1, f2⟩ := column_loops hrep0 c (σ.pblk k0) hnd hl
    (fun rr s =>
      if s.color rr ≠ σ.colr k0 then loop Toroid.right (fun nn t => some (t.unlinkP nn)) rr (s.cells + 1) (s.right rr) s
      else if rr ≠ .cell k0 then some { s with color := upd s.color rr (-1) }
      else some s)
    (fun rr s =>
      if s.color rr < 0 then some { s with color := upd s.color rr (σ.colr k0) }
      else if rr ≠ .cell k0 then loop Toroid.left (fun nn t => some (t.relinkP nn)) rr (s.cells + 1) (s.left rr) s
      else some s) (by
      intro pre i post e
      have hi : i ∈ A c := by rw [e]; simp
      have hpre : ∀ j ∈ unl (pre.flatMap (σ.pblk k0)), j ∈ unl ((A c).flatMap (σ.pblk k0)) := by
        intro j hj; rw [e, List.flatMap_append, unl_append]; simp [hj]
      have nd' := hnd
      rw [e, List.flatMap_append, List.flatMap_cons, unl_append, unl_append, List.nodup_append, List.nodup_append] at nd'
      have hrep := hrep0.execAll (pre.flatMap (σ.pblk k0)) nd'.1 (fun j hj => (hl j (hpre j hj)).1)
      obtain ⟨s, hs⟩ : ∃ s, s = execAll t0 (pre.flatMap (σ.pblk k0)) := ⟨_, rfl⟩
      rw [← hs] at hrep ⊢
      have hsi : s.color (.cell i) = σ.colr i := by
        rw [hs, execAll_color, if_neg, hcolor i hi]
        intro hm
        obtain ⟨i', hi', e'⟩ := List.mem_map.1 hm
        injection e' with e'; subst e'
        have := (mem_mrk_pblk.1 hi').1
        have nd := h.nodup c
        rw [e, List.nodup_append] at nd
        exact nd.2.2 _ this _ (by simp) rfl
      have e1 : s.cells = σ.n := hrep.cells
      by_cases h1 : σ.colr i ≠ σ.colr k0
      · have hb : σ.pblk k0 i = (σ.oth i).map .unlink := by rw [Shape.pblk, if_pos h1]
        have hik : i ≠ k0 := by rintro rfl; exact h1 rfl
        have hrow := row_loops hrep (hmem i hi).1 (by
          intro j hj
          rw [List.mem_filter]
          refine ⟨(hlink i hi j hj).1, ?_⟩
          simp only [decide_eq_true_eq]
          intro hm
          have hj2 : j ∈ unl (σ.pblk k0 i) := by rw [hb, unl_map]; exact hj
          exact nd'.2.2 j hm j (by simp [hj2]) rfl)
          Toroid.unlinkP Toroid.relinkP (fun _ _ h => unlinkP_eq h) (fun _ _ h => (relinkP_eq h).trans (relink_unlink h)) (σ.n + 1) rfl
        rw [hb]
        constructor
        · rw [hsi, if_pos h1, e1]; exact hrow.1
        · have hge := w.color i (hmem i hi).1
          have hsi' : (execAll s ((σ.oth i).map .unlink)).color (.cell i) = σ.colr i := by
            rw [execAll_color, mrk_map, if_neg (by simp), hsi]
          rw [hsi', (execAll_frame s _).cells, e1, if_neg (by omega), if_pos (by simpa using hik)]
          exact hrow.2
      · have hb : σ.pblk k0 i = if i ≠ k0 then [.mark i (σ.colr k0)] else [] := by rw [Shape.pblk, if_neg h1]
        by_cases h2 : i ≠ k0
        · rw [hb, if_pos h2]
          have hs' : execAll s [.mark i (σ.colr k0)] = { s with color := upd s.color (.cell i) (-1) } := rfl
          rw [hs']
          constructor
          · rw [hsi, if_neg h1, if_pos (by simpa using h2)]
          · rw [if_pos (by simp)]
            simp only [upd_upd]
            rw [upd_self _ _ _ (by rw [hsi]; simpa using h1)]
        · rw [hb, if_neg h2]
          have hs' : execAll s [] = s := rfl
          rw [hs']
          constructor
          · rw [hsi, if_neg h1, if_neg (by simpa using h2)]
          · rw [hsi]
            have hge := w.color i (hmem i hi).1
            rw [if_neg (by omega), if_neg (by simpa using h2)]) (σ.n + 1) rfl
  have hfr := execAll_frame t0 ((A c).flatMap (σ.pblk k0))
  have hk0m : Node.cell k0 ∉ (mrk ((A c).flatMap (σ.pblk k0))).map Node.cell := by
    intro hm
    obtain ⟨i, hi, e⟩ := List.mem_map.1 hm
    injection e with e; subst e
    exact (mem_mrk_pblk.1 hi).2.2 rfl
  have hcolumn : (execAll t0 ((A c).flatMap (σ.pblk k0))).column (.cell k0) = c := by rw [hfr.column, ht0]; exact hcol
  have hcc : (execAll t0 ((A c).flatMap (σ.pblk k0))).color (.cell k0) = σ.colr k0 := by
    rw [execAll_color, if_neg hk0m, ht0]
    exact (upd_ne t.color (.col c) (.cell _) (σ.colr k0) nofun).trans hclr
  have hcell : ∀ k, (execAll t0 ((A c).flatMap (σ.pblk k0))).color (.cell k) =
      if k ∈ A c ∧ σ.colr k = σ.colr k0 ∧ k ≠ k0 then -1 else t.color (.cell k) := by
    intro k
    rw [execAll_color]
    have : Node.cell k ∈ (mrk ((A c).flatMap (σ.pblk k0))).map Node.cell ↔ k ∈ A c ∧ σ.colr k = σ.colr k0 ∧ k ≠ k0 := by
      rw [← mem_mrk_pblk]; simp
    simp only [this]
    congr 1
    rw [ht0]; exact upd_ne t.color (.col c) (.cell k) (σ.colr k0) nofun
  refine ⟨execAll t0 ((A c).flatMap (σ.pblk k0)), fun d => (A d).filter (· ∉ unl ((A c).flatMap (σ.pblk k0))), ?_, ?_, hcell, ?_⟩
  · rw [purify_eq, hcol, hclr, ← ht0, show t.cells = σ.n from h.cells, show t.down (.col c) = t0.down (.col c) by rw [ht0]]
    exact f1
  · rw [unpurify_eq, hcolumn, hcc, hfr.cells, hrep0.cells, f2]
    rw [ht0]
    show some { t with color := upd (upd t.color (.col c) (σ.colr k0)) (.col c) 0 } = some t
    rw [upd_upd, upd_self _ _ _ (h.open_plain c hc ho).2]
  · have hrep := hrep0.execAll ((A c).flatMap (σ.pblk k0)) hnd (fun j hj => (hl j hj).1)
    refine ⟨hrep, ?_, ?_, ?_, ?_, ?_⟩
    · intro d
      rw [h.open_hdr]
      constructor
      · rintro ⟨h1, h2, h3⟩
        refine ⟨h1, ⟨h2, ?_⟩, h3⟩
        rintro rfl; rw [hsec] at h3; cases h3
      · rintro ⟨h1, h2, h3⟩; exact ⟨h1, h2.1, h3⟩
    · intro d hd' hop
      have hne : Node.col d ≠ .col c := by intro e; injection e with e; exact hop.2 e
      refine ⟨?_, ?_⟩
      · rw [hfr.covered, ht0]
        exact (h.open_plain d hd' hop.1).1
      · rw [execAll_color, if_neg (by simp), ht0]
        refine (upd_ne t.color (.col c) _ _ hne).trans ?_
        exact (h.open_plain d hd' hop.1).2
    · intro d hd' hop k
      rw [List.mem_filter, h.open_cells d hd' hop.1]
      simp only [decide_eq_true_eq, mem_unl_pblk, not_exists, not_and]
      constructor
      · rintro ⟨⟨h1, h2, h3⟩, h4⟩
        refine ⟨h1, h2, h3, ?_⟩
        intro k' hk' er ec
        by_contra hne
        refine h4 k' ((hAc k').2 ⟨hk', ec, by rw [er]; exact h3⟩) hne ((mem_oth σ hk').2 ⟨h1, er.symm, ?_⟩)
        rintro rfl; exact hop.2 (h2.symm.trans ec)
      · rintro ⟨h1, h2, h3, h4⟩
        refine ⟨⟨h1, h2, h3⟩, ?_⟩
        intro i hi hne hk
        have hi' := (hAc i).1 hi
        have := (mem_oth σ hi'.1).1 hk
        exact hne (h4 i hi'.1 this.2.1.symm hi'.2.1)
    · intro k hk hal
      have hkA := h.alive k hk hal.1
      rw [List.mem_filter]
      refine ⟨hkA, ?_⟩
      simp only [decide_eq_true_eq, mem_unl_pblk, not_exists, not_and]
      intro i hi hne hk'
      have hi' := (hAc i).1 hi
      have := (mem_oth σ hi'.1).1 hk'
      exact hne (hal.2 i hi'.1 this.2.1.symm hi'.2.1)
    · intro k hk hop
      rw [hcell, if_neg]
      · exact h.open_color k hk hop.1
      · rintro ⟨h1, _, _⟩; exact hop.2 (hmem k h1).2

end Verif.Dlx
