import Verif.Adam.Total
/-! The second half of `update`: the output cells, the invariants, the notifications. -/
namespace Verif.Adam
variable {N V : Type} [DecidableEq N] [DecidableEq V] [Values V]
variable {s0 : Sheet N V}

/-- The input halves of the interface cells once the output cells in `done` have been processed. -/
def Links (s0 s : Sheet N V) (done : List Nat) : Prop :=
  ∀ n i j, s0.nameIndex.find n = some i → (s0.cell i).input = some j →
    (((s0.cell j).linked = true ∧ i ∈ done) → (s.cell i).evaluated = true ∧ (s.cell j).state = (s.cell i).state) ∧
    (¬ ((s0.cell j).linked = true ∧ i ∈ done) → (s.cell j).state = (s0.cell j).state)

theorem input_spec (hw : WF s0) {n : N} {i j : Nat} (hn : s0.nameIndex.find n = some i) (hj : (s0.cell i).input = some j) :
    (s0.cell i).spec = .interfaceOutput ∧ (s0.cell j).spec = .interfaceInput := by
  have hsp : (s0.cell i).spec = .interfaceOutput := by
    by_contra h; rw [hw.noInput i h] at hj; cases hj
  obtain ⟨j', hj', _, hsp', _⟩ := hw.iface n i hn hsp
  rw [hj] at hj'; cases hj'
  exact ⟨hsp, hsp'⟩

/-- Evaluated cells do not change their value. -/
theorem Ev.same_state {s s' : Sheet N V} (h : Ev s0 s) (h' : Ev s0 s') {n : N} {i : Nat} (hn : s0.nameIndex.find n = some i)
    (he : (s.cell i).evaluated = true) (he' : (s'.cell i).evaluated = true) : (s'.cell i).state = (s.cell i).state := by
  by_cases hb : (s0.cell i).spec = .input ∨ (s0.cell i).spec = .constant
  · rw [(h.base i hb).1, (h'.base i hb).1]
  · obtain ⟨L, v, b, h1, h2, _⟩ := h.memo n i hn hb he
    have hd : den s0 (L + 1) n = some (v, b) := rhs_mono s0 (restr_le s0 s L) n _ h1
    rw [h2, (h'.value hn he' hd).1]

theorem Links.post {s s' : Sheet N V} {done : List Nat} {L : Nat} {b : Bits} (hw : WF s0) (h : Links s0 s done) (hs : Ev s0 s)
    (hp : Post s0 L s s' b) : Links s0 s' done := by
  intro n i j hn hj
  obtain ⟨h1, h2⟩ := h n i j hn hj
  rw [hp.inp j (input_spec hw hn hj).2]
  refine ⟨fun hd => ?_, h2⟩
  obtain ⟨h3, h4⟩ := h1 hd
  have h5 := hp.ext i h3
  exact ⟨h5, by rw [h4, hs.same_state hp.ev hn h3 h5]⟩

/-- Applying the output of a cell to its linked input. -/
def link (i : Nat) (s : Sheet N V) : Sheet N V := match (s.cell i).input with
    | none => s
    | some j => if (s.cell j).linked then s.modCell j fun c => { c with state := (s.cell i).state } else s

theorem link_ok (hw : WF s0) {n : N} {i : Nat} (hn : s0.nameIndex.find n = some i) {s : Sheet N V} (hs : Ev s0 s)
    (he : (s.cell i).evaluated = true) {done : List Nat} (hl : Links s0 s done) :
    Ev s0 (link i s) ∧ (link i s).getStack = s.getStack ∧ (∀ k, ((link i s).cell k).evaluated = (s.cell k).evaluated) ∧
      Links s0 (link i s) (i :: done) := by
  cases hj : (s0.cell i).input with
  | none =>
      have : link i s = s := by unfold link; rw [stat_input hs.stat, hj]
      rw [this]
      refine ⟨hs, rfl, fun _ => rfl, ?_⟩
      intro m k j hm hkj
      have hki : k ≠ i := by rintro rfl; rw [hj] at hkj; cases hkj
      have := hl m k j hm hkj
      simpa [hki] using this
  | some j =>
      obtain ⟨hspi, hspj⟩ := input_spec hw hn hj
      have hij : i ≠ j := by rintro rfl; rw [hspi] at hspj; cases hspj
      have hlk := stat_linked hs.stat j
      by_cases hlink : (s0.cell j).linked = true
      · have hlnk : link i s = s.modCell j fun c => { c with state := (s.cell i).state } := by
          unfold link
          simp only [stat_input hs.stat, hj, hlk, hlink, if_true]
        have hstat : (s.modCell j fun c => { c with state := (s.cell i).state }).stat = s.stat := modCell_stat _ _ _ fun _ => rfl
        have hother : ∀ k, k ≠ j → (s.modCell j fun c => { c with state := (s.cell i).state }).cell k = s.cell k :=
          fun k hk => modCell_other _ _ hk
        have hev : ∀ k, ((s.modCell j fun c => { c with state := (s.cell i).state }).cell k).evaluated = (s.cell k).evaluated := by
          intro k; simp only [Sheet.modCell]; split <;> rfl
        have hcon : ∀ k, ((s.modCell j fun c => { c with state := (s.cell i).state }).cell k).contributing = (s.cell k).contributing := by
          intro k; simp only [Sheet.modCell]; split <;> rfl
        have named_ne : ∀ m k, s0.nameIndex.find m = some k → k ≠ j := by
          rintro m k hm rfl; exact hw.spec m k hm hspj
        rw [hlnk]
        refine ⟨⟨hstat.trans hs.stat, ?_, ?_, ?_, ?_, ?_⟩, rfl, hev, ?_⟩
        · intro k hk
          have : k ≠ j := by rintro rfl; rw [hspj] at hk; simp at hk
          rw [hother k this]; exact hs.base k hk
        · intro k hk; rw [hcon]; exact hs.inContrib k hk
        · intro m k j' hm hkj hk
          rw [hev] at hk
          have hne : j' ≠ j := by
            rintro rfl
            have := hw.ifaceInj m n k i j' hm hn hkj hj
            subst this
            rw [he] at hk; cases hk
          rw [hother j' hne]; exact hs.inState m k j' hm hkj hk
        · intro m k hm hk
          rw [hother k (named_ne m k hm)] at hk ⊢; exact hs.fresh m k hm hk
        · intro m k hm hkb hk
          rw [hother k (named_ne m k hm)] at hk ⊢
          obtain ⟨L, v, b, h1, h2⟩ := hs.memo m k hm hkb hk
          refine ⟨L, v, b, ?_, h2⟩
          rw [restr_congr (s := s) (s' := s.modCell j fun c => { c with state := (s.cell i).state }) rfl hev]; exact h1
        · intro m k j' hm hkj
          have hk : k ≠ j := named_ne m k hm
          by_cases hki : k = i
          · subst hki
            rw [hj] at hkj; cases hkj
            refine ⟨fun _ => ⟨by rw [hev]; exact he, ?_⟩, fun h => absurd ⟨hlink, by simp⟩ h⟩
            rw [modCell_self, hother k hk]
          · have hne : j' ≠ j := by
              rintro rfl; exact hki (hw.ifaceInj m n k i j' hm hn hkj hj)
            obtain ⟨h1, h2⟩ := hl m k j' hm hkj
            rw [hother j' hne, hother k hk]
            simp only [List.mem_cons, hki, false_or]
            exact ⟨h1, h2⟩
      · have hlnk : link i s = s := by
          unfold link
          simp only [stat_input hs.stat, hj, hlk, hlink]
          rfl
        rw [hlnk]
        refine ⟨hs, rfl, fun _ => rfl, ?_⟩
        intro m k j' hm hkj
        have := hl m k j' hm hkj
        by_cases hki : k = i
        · subst hki
          rw [hj] at hkj; cases hkj
          simpa [hlink] using this
        · simpa [hki] using this

/-- One output cell. -/
theorem calcOutput_ok (hw : WF s0) {n : N} {i : Nat} (hn : s0.nameIndex.find n = some i)
    (hb : ¬ ((s0.cell i).spec = .input ∨ (s0.cell i).spec = .constant)) {K : Nat} {w : V × Bits} (hd : den s0 K n = some w)
    {s : Sheet N V} (hs : Ev s0 s) (hst : s.getStack = []) {done : List Nat} (hl : Links s0 s done) :
    ∃ s', calcOutput i s = (.ok (), s') ∧ Ev s0 s' ∧ s'.getStack = [] ∧ (s'.cell i).evaluated = true ∧
      (∀ k, (s.cell k).evaluated = true → (s'.cell k).evaluated = true) ∧ Links s0 s' (i :: done) := by
  cases he : (s.cell i).evaluated with
  | true =>
      obtain ⟨h1, h2, h3, h4⟩ := link_ok hw hn hs he hl
      refine ⟨link i s, ?_, h1, h2.trans hst, by rw [h3]; exact he, fun k hk => by rw [h3]; exact hk, h4⟩
      unfold calcOutput
      simp only [bind_gets, he, if_true, bind_pure, modify_run]
      rfl
  | false =>
      -- the least level at which the cell has a value
      obtain ⟨L, hL0, hL1⟩ : ∃ L, den s0 L n = none ∧ den s0 (L + 1) n = some w := by
        clear hs hst hl he
        induction K with
        | zero => simp [den] at hd
        | succ K ih =>
            cases hk : den s0 K n with
            | none => exact ⟨K, hk, hd⟩
            | some w' => have := den_det s0 hd hk; subst this; exact ih hk
      obtain ⟨v, b⟩ := w
      have hwt := wt_step s0 hn hL0 hL1
      have hsize := wt_le_size hw (L + 1)
      have hszs : s.size = s0.size := stat_size hs.stat
      have hwpos : 1 ≤ weight s0 i := by unfold weight; split <;> omega
      have hans : ∀ f, wt s0 L + 1 ≤ f → Answers s0 (get f) L := fun f hf => get_answers hw 1 (fun _ _ => Nat.le_refl _) L f hf
      have hs1 : Ev s0 { s with accumulate := 0, getStack := if (s0.cell i).spec = .interfaceOutput then [(n, false)] else [] } :=
        hs.of_cells rfl rfl
      obtain ⟨s', hc, hp, hne, hrr, hstk⟩ := calculate_ok hw hn hb (f := s.size) (hans _ (by omega)) hL0 hL1 (by
          intro hsp
          have : weight s0 i = 2 := by unfold weight; rw [if_pos hsp]
          exact ⟨by omega, fun _ => ⟨by omega, hans _ (by omega)⟩⟩) hs1 he [] (by
          by_cases hsp : (s0.cell i).spec = .interfaceOutput
          · simp [hsp]
          · simp [hsp, TopFree])
      obtain ⟨x, hx, hbt⟩ := hp.acc
      have hx' : s'.accumulate = x := by simpa using hx
      -- the state once the cell has been recorded
      have hev' : Ev s0 ({ (((s'.modCell i fun c => { c with dirty := decide (v ≠ c.state), state := v, evaluated := true })).modCell i
          fun c => { c with contributing := s'.accumulate ||| s'.condContributing }) with getStack := [] }) := by
        refine finish hw hn hb hp.ev hne hrr (x := x ||| s0.condContributing) hbt.cond ?_ ?_ ?_
        · unfold Sheet.modCell Sheet.stat
          congr 1
          funext k
          dsimp only
          by_cases hk : k = i <;> simp [hk, Cell.stat]
        · simp only [Sheet.modCell, if_true, hx', stat_cond hp.ev.stat]
        · intro k hk
          simp [Sheet.modCell, hk]
      have hlinks : Links s0 ({ (((s'.modCell i fun c => { c with dirty := decide (v ≠ c.state), state := v, evaluated := true })).modCell i
          fun c => { c with contributing := s'.accumulate ||| s'.condContributing }) with getStack := [] }) done := by
        refine Links.post hw (b := b) (L := L + 1) (s := { s with accumulate := 0, getStack := if (s0.cell i).spec = .interfaceOutput then [(n, false)] else [] }) (by simpa only [Links] using hl) hs1 ⟨hev', ?_, ?_, ⟨x, ?_, hbt⟩, ?_⟩
        · intro k hk
          have := hp.ext k hk
          simp only [Sheet.modCell]
          by_cases h : k = i <;> simp [h, this]
        · intro m k hm h h'
          by_cases hki : k = i
          · subst hki
            have hmn : m = n := by rw [← (hw.name m k hm).2, ← (hw.name n k hn).2]
            subst hmn
            exact ⟨_, hL1⟩
          · have h'' : (s'.cell k).evaluated = true := by simpa [Sheet.modCell, hki] using h'
            obtain ⟨w, hw'⟩ := hp.new m k hm h h''
            exact ⟨w, den_succ s0 L m w hw'⟩
        · simp [Sheet.modCell, hx']
        · intro j hj
          have : j ≠ i := by rintro rfl; exact hw.spec n j hn hj
          rw [← hp.inp j hj]
          simp [Sheet.modCell, this]
      obtain ⟨h1, h2, h3, h4⟩ := link_ok hw hn hev' (by simp [Sheet.modCell]) hlinks
      refine ⟨_, ?_, h1, h2, by rw [h3]; simp [Sheet.modCell], ?_, h4⟩
      · have hspec := stat_spec hs.stat i
        have hname : (s.cell i).name = n := by rw [stat_name hs.stat]; exact (hw.name n i hn).2
        unfold calcOutput
        simp only [bind_gets, he, Bool.false_eq_true, if_false, bind_modify, hspec, hname]
        by_cases hsp : (s0.cell i).spec = .interfaceOutput
        · rw [if_pos hsp] at hstk
          obtain ⟨fl, hstk⟩ := hstk
          simp only [hsp, if_true] at hc
          simp only [hsp, if_true, bind_modify, bind_gets, hst]
          rw [bind_ok hc]
          simp only [bind_modify, modify_run]
          rw [show (({ s'.modCell i (fun c => { c with dirty := decide (v ≠ c.state), state := v, evaluated := true }) with
            getStack := (s'.modCell i (fun c => { c with dirty := decide (v ≠ c.state), state := v, evaluated := true })).getStack.tail } : Sheet N V)) =
            { s'.modCell i (fun c => { c with dirty := decide (v ≠ c.state), state := v, evaluated := true }) with getStack := [] } by
            simp [Sheet.modCell, hstk]]
          rfl
        · rw [if_neg hsp] at hstk
          simp only [hsp, if_false] at hc
          simp only [hsp, if_false, bind_pure, bind_gets]
          rw [show ({ s with accumulate := 0 } : Sheet N V) = { s with accumulate := 0, getStack := [] } by rw [← hst]]
          rw [bind_ok hc]
          simp only [bind_pure, bind_modify, modify_run]
          have hstk' : s' = { s' with getStack := [] } := by rw [← hstk]
          rw [hstk']
          rfl
      · intro k hk
        rw [h3]
        have := hp.ext k hk
        simp only [Sheet.modCell]
        by_cases h : k = i <;> simp [h, this]

theorem calcOutputs_ok (hw : WF s0) : ∀ (ord : List Nat) (s : Sheet N V) (done : List Nat), Ev s0 s → s.getStack = [] → Links s0 s done →
    (∀ i ∈ ord, ∃ n, s0.nameIndex.find n = some i ∧ ¬ ((s0.cell i).spec = .input ∨ (s0.cell i).spec = .constant) ∧ Defined s0 n) →
    ∃ s', calcOutputs ord s = (.ok (), s') ∧ Ev s0 s' ∧ s'.getStack = [] ∧ (∀ i ∈ ord, (s'.cell i).evaluated = true) ∧
      (∀ k, (s.cell k).evaluated = true → (s'.cell k).evaluated = true) ∧ Links s0 s' (ord.reverse ++ done)
  | [], s, done, hs, hst, hl, _ => ⟨s, rfl, hs, hst, by simp, fun _ h => h, hl⟩
  | i :: ord, s, done, hs, hst, hl, hd => by
      obtain ⟨n, hn, hb, K, w, hw'⟩ := hd i (by simp)
      obtain ⟨s1, h1, h2, h3, h4, h5, h6⟩ := calcOutput_ok hw hn hb hw' hs hst hl
      obtain ⟨s2, g1, g2, g3, g4, g5, g6⟩ := calcOutputs_ok hw ord s1 (i :: done) h2 h3 h6 (fun k hk => hd k (by simp [hk]))
      refine ⟨s2, ?_, g2, g3, ?_, fun k hk => g5 k (h5 k hk), by simpa using g6⟩
      · unfold calcOutputs; rw [bind_ok h1]; exact g1
      · intro k hk
        rcases List.mem_cons.mp hk with rfl | hk
        · exact g5 _ h4
        · exact g4 k hk

end Verif.Adam
