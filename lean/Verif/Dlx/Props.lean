import Verif.Dlx.Setup
import Mathlib.Data.Multiset.Defs
/-
C38: uncover undoes cover, unpurify undoes purify, in any nesting.
C39: the search reports the exact covers, each of them once.
-/
namespace Verif.Dlx
open Verif.Ring

/-! ### from the calls to the state -/

theorem wf_of_valid {p : Problem} (v : p.Valid) : (shapeOf p.cols p.entries p.secondary).Wf := by
  have get : ∀ k, k < p.entries.length → ∃ e ∈ p.entries, p.entries.getD k ⟨0, 0, 0⟩ = e := by
    intro k hk
    exact ⟨p.entries[k], List.getElem_mem hk, by rw [List.getD_eq_getElem?_getD, List.getElem?_eq_getElem hk]; rfl⟩
  refine ⟨?_, ?_, ?_, ?_⟩
  · intro k hk
    obtain ⟨e, he, eq⟩ := get k hk
    show (p.entries.getD k ⟨0, 0, 0⟩).col < p.cols
    rw [eq]; exact v.col_lt e he
  · intro k l hk hl hr hc
    have hk' : k < p.entries.length := hk
    have hl' : l < p.entries.length := hl
    change (p.entries.getD k ⟨0, 0, 0⟩).row = (p.entries.getD l ⟨0, 0, 0⟩).row at hr
    change (p.entries.getD k ⟨0, 0, 0⟩).col = (p.entries.getD l ⟨0, 0, 0⟩).col at hc
    rw [List.getD_eq_getElem?_getD, List.getElem?_eq_getElem hk', List.getD_eq_getElem?_getD, List.getElem?_eq_getElem hl'] at hr hc
    simp only [Option.getD_some] at hr hc
    have nd := v.distinct
    have hk2 : k < (p.entries.map fun e => (e.row, e.col)).length := by simpa using hk'
    have hl2 : l < (p.entries.map fun e => (e.row, e.col)).length := by simpa using hl'
    refine (nd.getElem_inj_iff (hi := hk2) (hj := hl2)).1 ?_
    simp [hr, hc]
  · intro k hk
    obtain ⟨e, he, eq⟩ := get k hk
    show 0 ≤ (p.entries.getD k ⟨0, 0, 0⟩).color
    rw [eq]; exact v.color_nonneg e he
  · intro k hk hs
    obtain ⟨e, he, eq⟩ := get k hk
    change decide ((p.entries.getD k ⟨0, 0, 0⟩).col ∈ p.secondary) = false at hs
    show (p.entries.getD k ⟨0, 0, 0⟩).color = 0
    rw [eq] at hs ⊢
    exact v.primary_plain e he (by simpa using hs)

theorem built_run (rows cols : Nat) (hc : 0 < cols) (cmds : List Command) (hs : ∀ c ∈ (problemOf rows cols cmds).secondary, c < cols) :
    (cmds.foldl Command.run (Toroid.init rows cols)).rows = rows ∧ (cmds.foldl Command.run (Toroid.init rows cols)).cols = cols ∧
    ∃ H, Built (shapeOf cols (problemOf rows cols cmds).entries (problemOf rows cols cmds).secondary)
      (cmds.foldl Command.run (Toroid.init rows cols)) H ∧ H.length ≤ cols := by
  induction cmds using List.reverseRecOn with
  | nil => exact ⟨rfl, rfl, List.range cols, built_init rows cols hc, by simp⟩
  | append_singleton cmds c ih =>
    have he : (problemOf rows cols (cmds ++ [c])).entries = (problemOf rows cols cmds).entries ++
        (match c with | .set r c x => [⟨r, c, x⟩] | .secondary _ => []) := by
      cases c <;> simp [problemOf, List.filterMap_append]
    have hse : (problemOf rows cols (cmds ++ [c])).secondary = (problemOf rows cols cmds).secondary ++
        (match c with | .set _ _ _ => [] | .secondary c => [c]) := by
      cases c <;> simp [problemOf, List.filterMap_append]
    obtain ⟨i1, i2, H, i3, i4⟩ := ih (fun d hd => hs d (by rw [hse]; simp [hd]))
    rw [List.foldl_append, he, hse]
    cases c with
    | set r c x =>
      simp only [List.append_nil]
      exact ⟨i1, i2, H, built_set i3 ⟨r, c, x⟩, i4⟩
    | secondary c =>
      simp only [List.append_nil]
      exact ⟨i1, i2, _, built_secondary i3 (hs c (by rw [hse]; simp)), (List.length_filter_le _ _).trans i4⟩

/-- the toroid at the beginning of the search -/
def ready (rows cols : Nat) (cmds : List Command) : Toroid := (setup rows cols cmds).toroid.finalize

theorem ready_inv {rows cols : Nat} {cmds : List Command} (v : (problemOf rows cols cmds).Valid) :
    ∃ A H, SInv (shapeOf cols (problemOf rows cols cmds).entries (problemOf rows cols cmds).secondary) (ready rows cols cmds) A H
      (fun _ => True) (fun _ => True) ∧ H.length ≤ cols := by
  obtain ⟨h1, _, H, h2, h3⟩ := built_run rows cols v.cols_pos cmds v.sec_lt
  exact ⟨_, H, start h2 (by intro e he; show e.row < (cmds.foldl Command.run (Toroid.init rows cols)).rows; rw [h1]; exact v.row_lt e he), h3⟩

/-! ### C38 -/

/-- what a client of the toroid does (and undoes): cover a column, purify the column of the node of the k-th call of `set` -/
inductive Op where
  | cover (c : Nat)
  | purify (k : Nat)

def Op.perform (t : Toroid) : Op → Option Toroid
  | .cover c => t.cover c
  | .purify k => t.purify (.cell k)

def Op.undo (t : Toroid) : Op → Option Toroid
  | .cover c => t.uncover c
  | .purify k => t.unpurify (.cell k)

/-- the column that is covered or purified -/
def Op.column (p : Problem) : Op → Nat
  | .cover c => c
  | .purify k => (p.entries.getD k ⟨0, 0, 0⟩).col

/-- columns exist, and only coloured nodes are purified -/
def Op.Ok (p : Problem) : Op → Prop
  | .cover c => c < p.cols
  | .purify k => ∃ h : k < p.entries.length, 0 < (p.entries[k]).color

/-- operations in stack order: perform one, run something, undo it -/
inductive Script where
  | skip
  | seq (a b : Script)
  | within (op : Op) (s : Script)

def Script.run (t : Toroid) : Script → Option Toroid
  | .skip => some t
  | .seq a b => (a.run t).bind fun t => b.run t
  | .within op s => (op.perform t).bind fun t => (s.run t).bind fun t => op.undo t

/-- a column is not covered or purified while it is already -/
def Script.Ok (p : Problem) (used : List Nat) : Script → Prop
  | .skip => True
  | .seq a b => a.Ok p used ∧ b.Ok p used
  | .within op s => op.Ok p ∧ op.column p ∉ used ∧ s.Ok p (op.column p :: used)

theorem script_inv {p : Problem} (v : p.Valid) (s : Script) :
    ∀ (t : Toroid) (A : Nat → List Nat) (H : List Nat) (al op : Nat → Prop) (used : List Nat),
      Inv (shapeOf p.cols p.entries p.secondary) t A H al op → (∀ c, c ∉ used → op c) → s.Ok p used → s.run t = some t := by
  have w := wf_of_valid v
  induction s with
  | skip => intros; rfl
  | seq a b iha ihb =>
    intro t A H al op used h hu hok
    rw [Script.run, iha t A H al op used h hu hok.1]
    exact ihb t A H al op used h hu hok.2
  | within o s ih =>
    intro t A H al op used h hu hok
    obtain ⟨h1, h2, h3⟩ := hok
    have key : ∃ t' A' H' al' op', o.perform t = some t' ∧ o.undo t' = some t ∧ Inv (shapeOf p.cols p.entries p.secondary) t' A' H' al' op' ∧
        ∀ c, c ∉ o.column p :: used → op' c := by
      cases o with
      | cover c =>
        obtain ⟨t', A', g1, g2, _, _, g3⟩ := cover_inv w h h1 (hu c h2)
        refine ⟨t', A', _, _, _, g1, g2, g3, ?_⟩
        intro d hd
        simp only [List.mem_cons, not_or] at hd
        exact ⟨hu d hd.2, hd.1⟩
      | purify k =>
        obtain ⟨hk, hpos⟩ := h1
        have hx : 0 < (shapeOf p.cols p.entries p.secondary).colr k := by
          show 0 < (p.entries.getD k ⟨0, 0, 0⟩).color
          rw [List.getD_eq_getElem?_getD, List.getElem?_eq_getElem hk]; exact hpos
        obtain ⟨t', A', g1, g2, _, g3⟩ := purify_inv w h hk (hu _ h2) hx
        refine ⟨t', A', _, _, _, g1, g2, g3, ?_⟩
        intro d hd
        simp only [List.mem_cons, not_or] at hd
        exact ⟨hu d hd.2, hd.1⟩
    obtain ⟨t', A', H', al', op', g1, g2, g3, g4⟩ := key
    rw [Script.run, g1]
    show (s.run t').bind _ = _
    rw [ih t' A' H' al' op' _ g3 g4 h3]
    exact g2

/-- **C38.** In every problem that is set up by calls of `set` and `set_secondary_column` (in any order), operations on columns that are performed and
    undone in stack order -- covers and purifications, nested as one likes -- terminate and restore the toroid completely: each link, size, colour
    and flag of each node. -/
theorem C38_undo {rows cols : Nat} {cmds : List Command} (v : (problemOf rows cols cmds).Valid) (s : Script)
    (hs : s.Ok (problemOf rows cols cmds) []) : s.run (ready rows cols cmds) = some (ready rows cols cmds) := by
  obtain ⟨A, H, h, _⟩ := ready_inv v
  exact script_inv v s _ A H _ _ [] h.toInv (fun _ _ => trivial) hs

/-! ### C39 -/

theorem comp_iff {p : Problem} (X : List Nat) :
    Comp (shapeOf p.cols p.entries p.secondary) (fun _ => True) ((shapeOf p.cols p.entries p.secondary).Prim fun _ => True) X ↔ p.Solution X := by
  have get : ∀ k (hk : k < p.entries.length), p.entries.getD k ⟨0, 0, 0⟩ = p.entries[k] := by
    intro k hk; rw [List.getD_eq_getElem?_getD, List.getElem?_eq_getElem hk]; rfl
  have hits : ∀ r c, (shapeOf p.cols p.entries p.secondary).Hits r c ↔ p.Hits r c := by
    intro r c
    constructor
    · rintro ⟨k, hk, e1, e2⟩
      have hk' : k < p.entries.length := hk
      change (p.entries.getD k ⟨0, 0, 0⟩).row = r at e1
      change (p.entries.getD k ⟨0, 0, 0⟩).col = c at e2
      rw [get k hk'] at e1 e2
      exact ⟨_, List.getElem_mem hk', e1, e2⟩
    · rintro ⟨e, he, e1, e2⟩
      obtain ⟨k, hk, rfl⟩ := List.mem_iff_getElem.1 he
      refine ⟨k, hk, ?_, ?_⟩
      · show (p.entries.getD k ⟨0, 0, 0⟩).row = r
        rw [get k hk, e1]
      · show (p.entries.getD k ⟨0, 0, 0⟩).col = c
        rw [get k hk, e2]
  have agree : ∀ r r', (shapeOf p.cols p.entries p.secondary).Agree r r' ↔ p.Agree r r' := by
    intro r r'
    constructor
    · intro h e he e' he' h1 h2 h3
      obtain ⟨k, hk, rfl⟩ := List.mem_iff_getElem.1 he
      obtain ⟨l, hl, rfl⟩ := List.mem_iff_getElem.1 he'
      have := h k l hk hl
      simp only [shapeOf, get k hk, get l hl] at this
      exact this h1 h2 h3
    · intro h k l hk hl h1 h2 h3
      have hk' : k < p.entries.length := hk
      have hl' : l < p.entries.length := hl
      simp only [shapeOf, get k hk', get l hl'] at h1 h2 h3 ⊢
      exact h _ (List.getElem_mem hk') _ (List.getElem_mem hl') h1 h2 h3
  have prim : ∀ c, (shapeOf p.cols p.entries p.secondary).Prim (fun _ => True) c ↔ c < p.cols ∧ c ∉ p.secondary := by
    intro c; simp [Shape.Prim, shapeOf]
  constructor
  · intro h
    refine ⟨h.nodup, ?_, fun r hr r' hr' hne => (agree r r').1 (h.agree r hr r' hr' hne), ?_⟩
    · intro r hr
      obtain ⟨_, c, hc, hh⟩ := h.useful r hr
      exact ⟨c, ((prim c).1 hc).1, ((prim c).1 hc).2, (hits r c).1 hh⟩
    · intro c hc hs
      obtain ⟨r, hr, hh⟩ := h.cover c ((prim c).2 ⟨hc, hs⟩)
      exact ⟨r, hr, (hits r c).1 hh⟩
  · intro h
    refine ⟨h.nodup, ?_, fun r hr r' hr' hne => (agree r r').2 (h.agree r hr r' hr' hne), ?_⟩
    · intro r hr
      obtain ⟨c, h1, h2, hh⟩ := h.useful r hr
      exact ⟨trivial, c, (prim c).2 ⟨h1, h2⟩, (hits r c).2 hh⟩
    · intro c hc
      obtain ⟨r, hr, hh⟩ := h.cover c ((prim c).1 hc).1 ((prim c).1 hc).2
      exact ⟨r, hr, (hits r c).2 hh⟩

theorem finalize_cols (t : Toroid) : t.finalize.cols = t.cols := by
  unfold Toroid.finalize
  have : ∀ (l : List Nat) (t : Toroid), (l.foldl Toroid.finalizeRow t).cols = t.cols := by
    intro l
    induction l with
    | nil => intro t; rfl
    | cons a l ih => intro t; rw [List.foldl_cons, ih]; rfl
  exact this _ _

/-- **C39.** For every problem and every heuristic that chooses one of the columns in the header list, and a limit of at least 1: there is a list of all
    solutions, each of them once, such that the search reports its first members, up to the limit, one after the other, with the last row of each
    marked, and returns how many that are.  (In particular the search ends, and never writes behind the end of its stack of rows.) -/
theorem C39_search {rows cols : Nat} {cmds : List Command} (v : (problemOf rows cols cmds).Valid) {max : Nat} (hmax : 0 < max)
    {heuristic : Toroid → Node} (ha : Admissible heuristic) :
    ∃ L, (problemOf rows cols cmds).Enumerates L ∧
      search (setup rows cols cmds) max heuristic = some (min max L.length, (L.take max).flatMap report) := by
  have w := wf_of_valid v
  obtain ⟨A, H, h, hH⟩ := ready_inv v
  have hcols : (setup rows cols cmds).toroid.finalize.cols = cols := by
    rw [finalize_cols]
    exact (built_run rows cols v.cols_pos cmds v.sec_lt).2.1
  obtain ⟨s', L, e1, e2, e3⟩ := search_correct w ha (cols + 1) 0 { setup rows cols cmds with toroid := ready rows cols cmds } A H _ _ [] h hmax
    (by simp) rfl (by simp) (by simp [setup]; exact hH) (by omega)
  refine ⟨L, ⟨fun X hX => (comp_iff X).1 (e2.sound X hX), fun Y hY => e2.complete Y ((comp_iff Y).2 hY), e2.once⟩, ?_⟩
  have hc := e3.calls
  have hs := e3.solutions
  simp only [setup, List.map_nil, List.nil_append, Nat.sub_zero, Nat.zero_add] at hc hs
  have hdef : search (setup rows cols cmds) max heuristic =
      match doSearch max heuristic ((setup rows cols cmds).toroid.finalize.cols + 1) 0 { setup rows cols cmds with toroid := ready rows cols cmds } with
      | none => none
      | some s => some (s.solutions, s.calls) := rfl
  rw [hdef, hcols, e1]
  simp only [hs, hc]

/-- all lists of all solutions have the same length -/
theorem C39_number {p : Problem} {L L' : List (List Nat)} (h : p.Enumerates L) (h' : p.Enumerates L') : L.length = L'.length := by
  have half : ∀ L L' : List (List Nat), p.Enumerates L → p.Enumerates L' → L.length ≤ L'.length := by
    intro L L' h h'
    have nd : (L.map (fun X : List Nat => (X : Multiset Nat))).Nodup := by
      rw [List.Nodup, List.pairwise_map]
      exact h.once.imp fun hn e => hn (Multiset.coe_eq_coe.1 e)
    have hsub : ∀ x ∈ L.map (fun X : List Nat => (X : Multiset Nat)), x ∈ L'.map (fun X : List Nat => (X : Multiset Nat)) := by
      intro x hx
      obtain ⟨X, hX, rfl⟩ := List.mem_map.1 hx
      obtain ⟨Y, hY, hp⟩ := h'.complete X (h.sound X hX)
      exact List.mem_map.2 ⟨Y, hY, Multiset.coe_eq_coe.2 hp⟩
    have := (List.subperm_of_subset nd hsub).length_le
    simpa using this
  exact Nat.le_antisymm (half L L' h h') (half L' L h' h)

/-- **C39.** The number that is returned is the number of solutions, if the limit is larger. -/
theorem C39_count {rows cols : Nat} {cmds : List Command} (v : (problemOf rows cols cmds).Valid) {max : Nat} (hmax : 0 < max)
    {heuristic : Toroid → Node} (ha : Admissible heuristic) {L : List (List Nat)} (hL : (problemOf rows cols cmds).Enumerates L) :
    (search (setup rows cols cmds) max heuristic).map Prod.fst = some (min max L.length) := by
  obtain ⟨L', h1, h2⟩ := C39_search v hmax ha
  rw [h2, C39_number hL h1]; rfl

/-- **C39.** Both heuristics that come with the library choose a column of the header list. -/
theorem C39_select_right : Admissible selectRight := by
  intro t H hr _ hne
  have := (ring_ends hr).1
  cases H with
  | nil => exact absurd rfl hne
  | cons c H => exact ⟨c, by simp, by simpa [selectRight] using this⟩

theorem constrained_mem {t : Toroid} {H : List Nat} (hr : Ring t.right t.left .head (H.map .col)) :
    ∀ (n : Nat) (post pre : List Nat) (c : Node) (sz : Nat) (r : Node), H = pre ++ post → (∃ d ∈ H, c = .col d) →
      constrainedLoop t n (firstOf (post.map .col) .head) c sz = some r → ∃ d ∈ H, r = .col d := by
  intro n
  induction n with
  | zero => intro post pre c sz r _ _ h; simp [constrainedLoop] at h
  | succ n ih =>
    intro post pre c sz r hH hc h
    rw [constrainedLoop] at h
    cases post with
    | nil =>
      simp only [List.map_nil, firstOf_nil, if_true, Option.some.injEq] at h
      rw [← h]; exact hc
    | cons d post =>
      simp only [List.map_cons, firstOf_cons] at h
      rw [if_neg nofun] at h
      have hnext : t.right (.col d) = firstOf (post.map .col) .head := by
        have h2 := hr
        rw [hH, List.map_append, List.map_cons] at h2
        exact (ring_mid h2).2
      rw [hnext] at h
      have hd : d ∈ H := by rw [hH]; simp
      by_cases h1 : t.size (Node.col d).index < sz
      · simp only [h1, if_true] at h
        split_ifs at h with h2
        · simp only [Option.some.injEq] at h; exact ⟨d, hd, h.symm⟩
        · exact ih post (pre ++ [d]) _ _ r (by simp [hH]) ⟨d, hd, rfl⟩ h
      · simp only [h1, if_false] at h
        split_ifs at h with h2
        · simp only [Option.some.injEq] at h; rw [← h]; exact hc
        · exact ih post (pre ++ [d]) _ _ r (by simp [hH]) hc h

theorem C39_select_most_constrained : Admissible selectMostConstrained := by
  intro t H hr _ hne
  have hfirst := (ring_ends hr).1
  cases hH : H with
  | nil => exact absurd hH hne
  | cons c H' =>
    rw [hH] at hr
    rw [hH, List.map_cons, firstOf_cons] at hfirst
    have hnext : t.right (.col c) = firstOf (H'.map .col) .head := by
      have h2 := hr
      rw [show (c :: H').map Node.col = [] ++ Node.col c :: H'.map .col by simp] at h2
      exact (ring_mid h2).2
    unfold selectMostConstrained
    simp only [hfirst, hnext]
    cases hl : constrainedLoop t (t.cols + 1) (firstOf (H'.map Node.col) Node.head) (.col c) (t.size (Node.col c).index) with
    | none => exact ⟨c, by simp, rfl⟩
    | some r => exact constrained_mem hr _ H' [c] _ _ r (by simp) ⟨c, by simp, rfl⟩ hl

/-! ### examples -/

/-- the matrix of Knuth's paper -/
def knuth : List Command :=
  [.set 0 2 0, .set 0 4 0, .set 0 5 0, .set 1 0 0, .set 1 3 0, .set 1 6 0, .set 2 1 0, .set 2 2 0, .set 2 5 0, .set 3 0 0, .set 3 3 0,
   .set 4 1 0, .set 4 6 0, .set 5 3 0, .set 5 4 0, .set 5 6 0]

/-- two primary columns and a coloured secondary one: rows 0 and 2 have colour 1 in it, row 1 has colour 2 -/
def coloured : List Command :=
  [.secondary 2, .set 0 0 0, .set 0 2 1, .set 1 1 0, .set 1 2 2, .set 2 1 0, .set 2 2 1, .set 3 1 0]

theorem valid_of_check (p : Problem) (h : (decide (0 < p.rows) && decide (0 < p.cols) && p.entries.all (fun e => decide (e.row < p.rows)) &&
    p.entries.all (fun e => decide (e.col < p.cols)) && p.secondary.all (fun c => decide (c < p.cols)) &&
    decide ((p.entries.map fun e => (e.row, e.col)).Nodup) && p.entries.all (fun e => decide (0 ≤ e.color)) &&
    p.entries.all (fun e => decide (e.col ∉ p.secondary → e.color = 0))) = true) : p.Valid := by
  simp only [Bool.and_eq_true, decide_eq_true_eq, List.all_eq_true] at h
  obtain ⟨⟨⟨⟨⟨⟨⟨h1, h2⟩, h3⟩, h4⟩, h5⟩, h6⟩, h7⟩, h8⟩ := h
  exact ⟨h1, h2, h3, h4, h5, h6, h7, h8⟩

example : (problemOf 6 7 knuth).Valid := valid_of_check _ (by decide +kernel)
example : (problemOf 4 3 coloured).Valid := valid_of_check _ (by decide +kernel)

example : search (setup 6 7 knuth) 10 selectMostConstrained = some (1, [(3, false), (0, false), (4, true)]) := by decide +kernel
example : search (setup 4 3 coloured) 10 selectRight = some (2, [(0, false), (2, true), (0, false), (3, true)]) := by decide +kernel
example : search (setup 4 3 coloured) 1 selectRight = some (1, [(0, false), (2, true)]) := by decide +kernel

/-- a script that meets the conditions of C38 -/
example : (Script.within (.cover 0) (.seq (.within (.purify 1) (.within (.cover 1) .skip)) (.within (.cover 1) .skip))).Ok
    (problemOf 4 3 coloured) [] := by
  simp [Script.Ok, Op.Ok, Op.column, problemOf, coloured]

/-- **C39, the limit 0.** The count is compared with the limit only after a solution has been reported: with the limit 0 a solution is reported
    nevertheless. -/
theorem C39_limit_zero_violated : ∃ rows cols cmds, (problemOf rows cols cmds).Valid ∧
    search (setup rows cols cmds) 0 selectMostConstrained = some (1, [(0, true)]) :=
  ⟨1, 1, [.set 0 0 0], valid_of_check _ (by decide +kernel), by decide +kernel⟩

end Verif.Dlx
