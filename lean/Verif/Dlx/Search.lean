import Verif.Dlx.Enum
/-
The search finds what there is to find.
-/
namespace Verif.Dlx
open Verif.Ring

/-- a heuristic chooses one of the columns in the list of headers -/
def Admissible (h : Toroid → Node) : Prop :=
  ∀ (t : Toroid) (H : List Nat), Ring t.right t.left .head (H.map .col) → H.Nodup → H ≠ [] → ∃ c ∈ H, h t = .col c

/-- the open primary columns -/
def Shape.Prim (σ : Shape) (op : Nat → Prop) (c : Nat) : Prop := c < σ.cols ∧ op c ∧ σ.sec c = false

/-- what a part of the search does: it reports the list of completions `L` of the rows `S`, until there are `max` solutions -/
structure Out (max : Nat) (S : List Nat) (k : Nat) (s : Search) (t : Toroid) (L : List (List Nat)) (s' : Search) : Prop where
  calls : s'.calls = s.calls ++ (L.take (max - s.solutions)).flatMap fun X => report (S ++ X)
  solutions : s'.solutions = min max (s.solutions + L.length)
  length : s'.output.length = s.output.length
  rest : s.solutions + L.length < max → s'.toroid = t ∧ s'.output.take k = s.output.take k

variable {σ : Shape} {A : Nat → List Nat} {H : List Nat} {al op : Nat → Prop} {max : Nat} {heur : Toroid → Node}

/-- `do_search` is correct for this much fuel -/
def Correct (σ : Shape) (max : Nat) (heur : Toroid → Node) (n : Nat) : Prop :=
  ∀ (k : Nat) (s : Search) (A : Nat → List Nat) (H : List Nat) (al op : Nat → Prop) (ks : List Nat),
    SInv σ s.toroid A H al op → s.solutions < max → s.output.take k = ks.map .cell → ks.length = k → (∀ i ∈ ks, i < σ.n) →
    k + H.length ≤ s.output.length → H.length < n →
    ∃ (s' : Search) (L : List (List Nat)), doSearch max heur n k s = some s' ∧ Enum σ al (σ.Prim op) L ∧ Out max (ks.map σ.rowOf) k s s.toroid L s'

theorem found_report (s : Search) (k : Nat) (ks : List Nat) (h : Rep σ s.toroid A H) (ho : s.output.take k = ks.map .cell) (hk : ks.length = k)
    (hks : ∀ i ∈ ks, i < σ.n) (hle : k ≤ s.output.length) :
    found s k = some { s with solutions := s.solutions + 1, calls := s.calls ++ report (ks.map σ.rowOf) } := by
  rw [found, if_pos hle, ho]
  congr 3
  unfold report
  apply List.ext_getElem
  · simp
  · intro i h1 h2
    simp only [List.getElem_mapIdx, List.getElem_map, List.length_map, hk]
    rw [h.rowOf _ (hks _ (List.getElem_mem _))]

theorem branches_correct (w : σ.Wf) {n : Nat} (hn : Correct σ max heur n) {t0 : Toroid} {A0 : Nat → List Nat} {H : List Nat} {al op : Nat → Prop}
    (h0 : SInv σ t0 A0 H al op) {c0 : Nat} (hc0 : c0 ∈ H) {tc : Toroid} {Ac : Nat → List Nat} (hA : Ac c0 = A0 c0)
    (hc : SInv σ tc Ac (H.filter (· ≠ c0)) (fun ρ => al ρ ∧ ∀ k, k < σ.n → σ.rowOf k = ρ → σ.colOf k ≠ c0) (fun d => op d ∧ d ≠ c0))
    (hclr : tc.color = t0.color) (hun : tc.uncover c0 = some t0) (k : Nat) (ks : List Nat) (hks : ks.length = k) (hksn : ∀ i ∈ ks, i < σ.n)
    (hfuel : H.length < n + 1) (ali Pi : Nat → Nat → Prop)
    (hali : ∀ i ρ, ali i ρ ↔ al ρ ∧ σ.Agree (σ.rowOf i) ρ) (hPi : ∀ i c, Pi i c ↔ σ.Prim op c ∧ ¬ σ.Hits (σ.rowOf i) c) :
    ∀ (post pre : List Nat) (m : Nat) (s : Search), A0 c0 = pre ++ post → post.length < m → s.toroid = tc → s.solutions < max →
      s.output.take k = ks.map .cell → k + H.length ≤ s.output.length →
      ∃ (s' : Search) (Lf : Nat → List (List Nat)), (∀ i ∈ post, Enum σ (ali i) (Pi i) (Lf i)) ∧
        branches max (doSearch max heur n (k + 1)) k m (firstOf (post.map .cell) (.col c0)) (.col c0) s = some s' ∧
        Out max (ks.map σ.rowOf) k s t0 (post.flatMap fun i => (Lf i).map (σ.rowOf i :: ·)) s' := by
  have hprim := (h0.open_hdr c0).1 hc0
  have hcells := h0.open_cells c0 hprim.1 hprim.2.1
  have hHlen : 0 < H.length := List.length_pos_of_mem hc0
  intro post
  induction post with
  | nil =>
    intro pre m s hpre hm ht hs ho hlen
    obtain ⟨m, rfl⟩ : ∃ m', m = m' + 1 := ⟨m - 1, by simp at hm; omega⟩
    refine ⟨{ s with toroid := t0 }, fun _ => [], by simp, ?_, ?_⟩
    · simp only [List.map_nil, firstOf_nil]
      rw [branches, if_pos rfl, ht]
      simp only [Node.index, hun]
    · refine ⟨by simp, ?_, rfl, fun _ => ⟨rfl, rfl⟩⟩
      simp; omega
  | cons i post ih =>
    intro pre m s hpre hm ht hs ho hlen
    obtain ⟨m, rfl⟩ : ∃ m', m = m' + 1 := ⟨m - 1, by simp at hm; omega⟩
    have hi : i ∈ A0 c0 := by rw [hpre]; simp
    have hi' := (hcells i).1 hi
    -- the row is tried
    obtain ⟨tp, Ap, Hp, e1, e2, e3⟩ := try_row w hc hi'.1 (fun hh => hh.2 i hi'.1 rfl hi'.2.1) (by
      intro j hj hno
      have hj' := (mem_oth σ hi'.1).1 hj
      rw [hclr]
      refine (h0.closed j hj'.1 (by rw [hj'.2.1]; exact hi'.2.2) ?_).1
      intro hop
      apply hno
      refine ⟨hop, ?_⟩
      intro e
      exact hj'.2.2 (w.one j i hj'.1 hi'.1 hj'.2.1 (e.trans hi'.2.1.symm)))
    have hcol0 : σ.colr i = 0 := w.plain i hi'.1 (by rw [hi'.2.1]; exact hprim.2.2)
    -- the rows and columns that are left
    have e4 : SInv σ tp Ap Hp (ali i) (fun d => op d ∧ ¬ σ.Hits (σ.rowOf i) d) := by
      refine e3.congr ?_ ?_
      · intro ρ
        rw [hali]
        constructor
        · rintro ⟨ha, hag⟩
          refine ⟨⟨ha, ?_⟩, ?_⟩
          · intro k hk er ec
            have := (hag i k hi'.1 hk rfl er (hi'.2.1.trans ec.symm)).2
            omega
          · intro j hj _ k hk er ec
            have hj' := (mem_oth σ hi'.1).1 hj
            have := hag j k hj'.1 hk hj'.2.1 er ec.symm
            exact ⟨this.1.symm, this.2⟩
        · rintro ⟨⟨ha, hno⟩, hag⟩
          refine ⟨ha, ?_⟩
          intro j l hj hl er1 er2 ec
          by_cases hji : j = i
          · subst hji
            exact absurd (ec.symm.trans hi'.2.1) (hno l hl er2)
          · have hjc : σ.colOf j ≠ c0 := fun e => hji (w.one j i hj hi'.1 er1 (e.trans hi'.2.1.symm))
            by_cases hop : op (σ.colOf j)
            · have := hag j ((mem_oth σ hi'.1).2 ⟨hj, er1, hji⟩) ⟨hop, hjc⟩ l hl er2 ec.symm
              exact ⟨this.1.symm, this.2⟩
            · have := h0.closed j hj (by rw [er1]; exact hi'.2.2) hop
              exact ⟨(this.2.2 l hl (by rw [er2]; exact ha) ec.symm).symm, this.2.1⟩
      · intro d
        have : σ.Hits (σ.rowOf i) d ↔ d = c0 ∨ d ∈ (σ.oth i).map σ.colOf := by
          constructor
          · rintro ⟨k, hk, er, ec⟩
            by_cases hki : k = i
            · subst hki; left; rw [← ec, hi'.2.1]
            · right; exact List.mem_map.2 ⟨k, (mem_oth σ hi'.1).2 ⟨hk, er, hki⟩, ec⟩
          · rintro (rfl | hm)
            · exact ⟨i, hi'.1, rfl, hi'.2.1⟩
            · obtain ⟨k, hk, ec⟩ := List.mem_map.1 hm
              have hk' := (mem_oth σ hi'.1).1 hk
              exact ⟨k, hk'.1, hk'.2.1, ec⟩
        rw [this, not_or]; tauto
    have hHp : Hp.length < H.length := by
      have h1 : ∀ c ∈ Hp, c ∈ H.erase c0 := by
        intro c hcm
        have := (e4.open_hdr c).1 hcm
        rw [h0.hdrNodup.mem_erase_iff]
        refine ⟨?_, (h0.open_hdr c).2 ⟨this.1, this.2.1.1, this.2.2⟩⟩
        rintro rfl
        exact this.2.1.2 ⟨i, hi'.1, rfl, hi'.2.1⟩
      have h2 := (List.subperm_of_subset e4.hdrNodup h1).length_le
      rw [List.length_erase_of_mem hc0] at h2
      omega
    have hPiEq : Pi i = σ.Prim (fun d => op d ∧ ¬ σ.Hits (σ.rowOf i) d) := by
      funext c
      apply propext
      rw [hPi]
      unfold Shape.Prim
      tauto
    -- the recursion
    have hk : k < s.output.length := by omega
    have hset : (s.output.set k (.cell i)).take (k + 1) = (ks ++ [i]).map .cell := by
      rw [List.take_succ_eq_append_getElem (by simpa using hk)]
      simp only [List.getElem_set_self, List.take_set, List.map_append, List.map_cons, List.map_nil, ho]
      rw [List.set_eq_of_length_le (by simp [hks])]
    obtain ⟨s2, Li, r1, r2, r3⟩ := hn (k + 1) { s with output := s.output.set k (.cell i), toroid := tp } Ap Hp (ali i) _ (ks ++ [i]) e4 hs hset
      (by simp [hks]) (by intro j hj; rcases List.mem_append.1 hj with hj | hj
                          · exact hksn j hj
                          · rw [List.mem_singleton] at hj; subst hj; exact hi'.1)
      (by simp; omega) (by omega)
    rw [← hPiEq] at r2
    have hout : ¬ s.output.length ≤ k := by omega
    have hnode : ¬ Node.cell i = Node.col c0 := nofun
    have hstep : branches max (doSearch max heur n (k + 1)) k (m + 1) (.cell i) (.col c0) s =
        if max ≤ s2.solutions then some s2
        else match untryRow (s2.output.getD k .head) s2.toroid with
          | none => none
          | some t => branches max (doSearch max heur n (k + 1)) k m (t.down (s2.output.getD k .head)) (Node.col (s2.toroid.column (s2.output.getD k .head)))
              { s2 with toroid := t } := by
      rw [branches, if_neg hnode, if_neg hout, ht]
      simp only [e1, r1]
      rfl
    have hcalls := r3.calls
    have hsols := r3.solutions
    have hlen2 : s2.output.length = s.output.length := by rw [r3.length]; simp
    simp only at hcalls hsols
    have hrep : ∀ X : List Nat, (ks ++ [i]).map σ.rowOf ++ X = ks.map σ.rowOf ++ (σ.rowOf i :: X) := by intro X; simp
    simp only [hrep] at hcalls
    simp only [List.map_cons, firstOf_cons]
    by_cases hstop : max ≤ s2.solutions
    · -- the limit is reached
      rw [hstep, if_pos hstop]
      have hge : max ≤ s.solutions + Li.length := by omega
      refine ⟨s2, fun j => if j = i then Li else (enum_exists σ (ali j) (Pi j)).choose, ?_, rfl, ?_⟩
      · intro j hj
        by_cases hji : j = i
        · subst hji; simpa using r2
        · simp only [if_neg hji]; exact (enum_exists σ (ali j) (Pi j)).choose_spec
      · simp only [List.flatMap_cons, if_true]
        refine ⟨?_, ?_, hlen2, ?_⟩
        · rw [hcalls, List.take_append_of_le_length (by simp; omega), ← List.map_take, List.flatMap_map]
        · simp; omega
        · intro hlt; simp at hlt; omega
    · have hlt : s.solutions + Li.length < max := by omega
      obtain ⟨q1, q2⟩ := r3.rest hlt
      simp only at q1 q2
      have hget : s2.output.getD k .head = .cell i := by
        have hk2 : k < s2.output.length := by omega
        have : (s2.output.take (k + 1)).getD k .head = (((ks ++ [i]).map Node.cell)).getD k .head := by rw [q2, hset]
        rw [List.getD_eq_getElem?_getD, List.getElem?_take_of_lt (by omega)] at this
        rw [List.getD_eq_getElem?_getD, this]
        simp [List.getElem?_append, hks]
      have hcolumn : s2.toroid.column (.cell i) = c0 := by rw [q1, e4.column i hi'.1, hi'.2.1]
      rw [hget, q1, e2] at hstep
      simp only [if_neg hstop] at hstep
      rw [← q1, hcolumn] at hstep
      have hdown : tc.down (.cell i) = firstOf (post.map .cell) (.col c0) := by
        have := hc.vert c0
        rw [hA, hpre, List.map_append, List.map_cons] at this
        exact (ring_mid this).2
      rw [hdown] at hstep
      have hs2 : s2.solutions = s.solutions + Li.length := by omega
      have ho2 : s2.output.take k = ks.map .cell := by
        have := congrArg (List.take k) q2
        rw [hset, List.take_take, Nat.min_eq_left (by omega)] at this
        rw [this, List.map_append, List.take_left' (by simp [hks])]
      obtain ⟨s', Lf, f1, f2, f3⟩ := ih (pre ++ [i]) m { s2 with toroid := tc } (by simp [hpre]) (by simpa using hm) rfl (by simp; omega) ho2
        (by simp; omega)
      have hnotin : i ∉ post := by
        have := h0.nodup c0
        rw [hpre, List.nodup_append, List.nodup_cons] at this
        exact this.2.1.1
      refine ⟨s', fun j => if j = i then Li else Lf j, ?_, hstep.trans f2, ?_⟩
      · intro j hj
        by_cases hji : j = i
        · subst hji; simpa using r2
        · simp only [if_neg hji]
          rcases List.mem_cons.1 hj with e | hj
          · exact absurd e hji
          · exact f1 j hj
      · have hflat : (post.flatMap fun j => (if j = i then Li else Lf j).map (σ.rowOf j :: ·)) = post.flatMap fun j => (Lf j).map (σ.rowOf j :: ·) := by
          rw [List.flatMap_def, List.flatMap_def]
          congr 1
          apply List.map_congr_left
          intro j hj
          rw [if_neg (by rintro rfl; exact hnotin hj)]
        simp only [List.flatMap_cons, if_true, hflat]
        obtain ⟨g1, g2, g3, g4⟩ := f3
        simp only at g1 g2 g3 g4
        refine ⟨?_, ?_, ?_, ?_⟩
        · rw [g1, hcalls, List.take_of_length_le (by omega : Li.length ≤ max - s.solutions), List.take_append, List.length_map,
            List.take_of_length_le (l := Li.map (σ.rowOf i :: ·)) (by simp; omega), List.flatMap_append, List.flatMap_map, hs2, Nat.sub_add_eq, List.append_assoc]
        · rw [g2, hs2]; simp; omega
        · rw [g3, hlen2]
        · intro hlt2
          obtain ⟨a1, a2⟩ := g4 (by rw [hs2]; simp at hlt2 ⊢; omega)
          exact ⟨a1, a2.trans (ho2.trans ho.symm)⟩

theorem search_correct (w : σ.Wf) (ha : Admissible heur) : ∀ n, Correct σ max heur n := by
  intro n
  induction n using Nat.strong_induction_on with
  | _ n ih =>
    intro k s A H al op ks h hs ho hks hksn hlen hfuel
    obtain ⟨n, rfl⟩ : ∃ m, n = m + 1 := ⟨n - 1, by omega⟩
    have hr := (ring_ends h.hdr).1
    cases hH : H with
    | nil =>
      rw [hH] at hr hlen hfuel
      simp only [List.map_nil, firstOf_nil] at hr
      refine ⟨{ s with solutions := s.solutions + 1, calls := s.calls ++ report (ks.map σ.rowOf) }, [[]], ?_, enum_done ?_, ?_⟩
      · rw [doSearch, if_pos hr]
        exact found_report s k ks h.toRep ho hks hksn (by simpa using hlen)
      · intro c hc
        have := (h.open_hdr c).2 hc
        rw [hH] at this; cases this
      · refine ⟨?_, ?_, rfl, fun _ => ⟨rfl, rfl⟩⟩
        · rw [List.take_of_length_le (by simp; omega)]; simp
        · simp; omega
    | cons c H' =>
      have hne : H ≠ [] := by rw [hH]; simp
      rw [hH] at hr
      simp only [List.map_cons, firstOf_cons] at hr
      obtain ⟨c0, hc0, hheur⟩ := ha s.toroid H h.hdr h.hdrNodup hne
      have hprim := (h.open_hdr c0).1 hc0
      obtain ⟨tc, Ac, g1, g2, g3, g4, g5⟩ := h.cover w hprim.1 hprim.2.1
      have hHl : 0 < H.length := List.length_pos_of_mem hc0
      have hdown : tc.down (.col c0) = firstOf ((A c0).map .cell) (.col c0) := by
        rw [← g4]; exact (ring_ends (g5.vert c0)).1
      obtain ⟨s', Lf, f1, f2, f3⟩ := branches_correct w (ih n (by omega)) h hc0 g4 g5 g3 g2 k ks hks hksn (by omega)
        (fun i ρ => al ρ ∧ σ.Agree (σ.rowOf i) ρ) (fun i c => σ.Prim op c ∧ ¬ σ.Hits (σ.rowOf i) c) (fun _ _ => Iff.rfl) (fun _ _ => Iff.rfl)
        (A c0) [] (σ.n + 1) { s with toroid := tc } rfl (by
          have : (A c0).length ≤ (List.range σ.n).length :=
            (List.subperm_of_subset (h.nodup c0) (fun k hk => List.mem_range.2 (h.mem _ _ hk).1)).length_le
          simp at this; omega) rfl hs ho hlen
      refine ⟨s', _, ?_, enum_branch w (al := al) (P := σ.Prim op) hprim (fun c hc => hc.2.2) (A c0) (h.nodup c0)
        (h.open_cells c0 hprim.1 hprim.2.1) _ _ (fun i _ ρ => Iff.rfl) (fun i _ c => Iff.rfl) Lf f1, ?_⟩
      · rw [doSearch, if_neg (by rw [hr]; simp), hheur]
        simp only [Node.index, g1]
        rw [hdown, g5.cells]
        exact f2
      · exact ⟨f3.calls, f3.solutions, f3.length, f3.rest⟩

end Verif.Dlx
