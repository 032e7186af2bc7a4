import Verif.Adam.Eval
/-! `get` computes the values of the equations whenever they have one. -/
namespace Verif.Adam
variable {N V : Type} [DecidableEq N] [DecidableEq V] [Values V]

theorem isEval_congr {s s' : Sheet N V} (hn : s'.nameIndex = s.nameIndex) (hc : ∀ i, (s'.cell i).evaluated = (s.cell i).evaluated) (m : N) :
    isEval s' m = isEval s m := by
  unfold isEval; rw [hn]; split
  · exact hc _
  · rfl

theorem restr_congr {s0 s s' : Sheet N V} (hn : s'.nameIndex = s.nameIndex)
    (hc : ∀ i, (s'.cell i).evaluated = (s.cell i).evaluated) (L : Nat) : restr s0 s' L = restr s0 s L := by
  funext m; unfold restr; rw [isEval_congr hn hc]

/-- Changes outside of the cells do not matter. -/
theorem Ev.of_cells {s0 s s' : Sheet N V} (h : Ev s0 s) (hst : s'.stat = s.stat) (hc : s'.cell = s.cell) : Ev s0 s' where
  stat := hst.trans h.stat
  base := by rw [hc]; exact h.base
  inContrib := by rw [hc]; exact h.inContrib
  inState := by rw [hc]; exact h.inState
  fresh := by rw [hc]; exact h.fresh
  memo := by
    rw [hc]
    have : ∀ L, restr s0 s' L = restr s0 s L := restr_congr (stat_nameIndex hst) (by simp [hc])
    simpa only [this] using h.memo

theorem isEval_some {s : Sheet N V} {n : N} {i : Nat} (h : s.nameIndex.find n = some i) : isEval s n = (s.cell i).evaluated := by
  simp [isEval, h]

/-- The equation of an interface cell. -/
theorem rhs_iface {s : Sheet N V} {n : N} {i j : Nat} (hn : s.nameIndex.find n = some i)
    (hb : ¬ ((s.cell i).spec = .input ∨ (s.cell i).spec = .constant)) (hj : (s.cell i).input = some j) (env : Env N V) :
    rhs s env n = if (s.cell i).count ≠ 0 then none else
      match (s.cell i).calculator with
      | .none => none
      | .self => firstRef n env ((s.cell j).state, (s.cell j).contributing) (s.cell i).term
      | .expr p => p.eval (some n) env (firstRef n env ((s.cell j).state, (s.cell j).contributing) (s.cell i).term)
          (some ((s.cell j).state, (s.cell j).contributing)) := by
  simp [rhs, hn, hb, hj]; rfl

theorem rhs_plain {s : Sheet N V} {n : N} {i : Nat} (hn : s.nameIndex.find n = some i)
    (hb : ¬ ((s.cell i).spec = .input ∨ (s.cell i).spec = .constant)) (hj : (s.cell i).input = none) (env : Env N V) :
    rhs s env n = if (s.cell i).count ≠ 0 then none else
      match (s.cell i).calculator with
      | .none => none
      | .self => none
      | .expr p => p.eval none env none none := by
  simp [rhs, hn, hb, hj]; rfl

theorem rhs_base {s : Sheet N V} {n : N} {i : Nat} (hn : s.nameIndex.find n = some i)
    (hb : (s.cell i).spec = .input ∨ (s.cell i).spec = .constant) (env : Env N V) :
    rhs s env n = some ((s.cell i).state, (s.cell i).contributing) := by
  simp [rhs, hn, hb]

theorem get_succ {s : Sheet N V} (h : s.initMode = false) (f : Nat) (n : N) : get (f + 1) n s = getBody (get f) n s := by
  conv_lhs => unfold Verif.Adam.get
  simp [h]

variable {s0 : Sheet N V}

/-- A reference to the interface cell under evaluation which reads its input. -/
theorem self_read (hw : WF s0) {x : N} {i j : Nat} (hx : s0.nameIndex.find x = some i) (hj : (s0.cell i).input = some j)
    (hspec : (s0.cell j).spec = .interfaceInput) {s : Sheet N V} {fl : Bool} {rest : List (N × Bool)}
    (hst : s.getStack = (x, fl) :: rest) (hs : Ev s0 s) (he : isEval s x = false)
    (hfl : fl = true ∨ (s0.cell i).term = none) (L f : Nat) :
    ∃ s', get (f + 1) x s = (.ok (s0.cell j).state, s') ∧ Post s0 L s s' (s0.cell j).contributing ∧
      s'.getStack = (x, fl) :: rest := by
  have hni : s.nameIndex.find x = some i := by rw [hs.nameIndex]; exact hx
  rw [isEval_some hni] at he
  have hin : (s.cell i).input = some j := by rw [stat_input hs.stat]; exact hj
  have hstate := hs.inState x i j hx hj he
  have hcont := hs.inContrib j hspec
  have hterm : (s.cell i).term = (s0.cell i).term := stat_term hs.stat i
  refine ⟨{ s with valueAccessed := s.valueAccessed ||| Bits.single j, accumulate := s.accumulate ||| (s.cell j).contributing }, ?_, ?_, ?_⟩
  · rw [get_succ (by rw [stat_initMode hs.stat]; exact hw.initMode)]
    unfold getBody
    simp only [bind_gets, id_eq, hni, hst, List.head?_cons, Option.map_some, if_true, hin]
    rcases hfl with rfl | hfl
    · simp [hstate, hst]
    · rw [hterm, hfl]
      simp [hstate, hst]
  · refine ⟨hs.of_cells rfl rfl, fun _ h => h, fun n i _ h h' => ?_, ⟨(s.cell j).contributing, rfl, ?_⟩, fun _ _ => rfl⟩
    · rw [h] at h'; cases h'
    · rw [hcont]; exact Between.refl _ _
  · exact hst

theorem term_eval_some {x : N} {env : Env N V} {inp w : V × Bits} {t : Term N V} (h : t.eval x env inp = some w) :
    ∃ u, t.prog.eval (some x) env (some inp) (some inp) = some u ∧ pick t.index u = some w := by
  unfold Term.eval at h
  cases hp : t.prog.eval (some x) env (some inp) (some inp) with
  | none => simp [hp] at h
  | some u => exact ⟨u, rfl, by simpa [hp] using h⟩

/-- References of an interface cell to itself. -/
theorem self_answers (hw : WF s0) {x : N} {i j : Nat} (hx : s0.nameIndex.find x = some i) (hj : (s0.cell i).input = some j)
    (hspec : (s0.cell j).spec = .interfaceInput) {L f : Nat} (hd : den s0 L x = none)
    (hf : (s0.cell i).term.isSome → 1 ≤ f ∧ Answers s0 (get f) L) (rest : List (N × Bool)) :
    SelfAnswers s0 (get (f + 1)) L x rest (fun env => firstRef x env ((s0.cell j).state, (s0.cell j).contributing) (s0.cell i).term)
      (some ((s0.cell j).state, (s0.cell j).contributing)) (fun _ => True) := by
  intro s fl w _ hst hs he hval
  cases hfl : fl with
  | true =>
      subst hfl
      simp only [if_true, Option.some.injEq] at hval
      subst hval
      obtain ⟨s', hr, hp, hst'⟩ := self_read hw hx hj hspec hst hs he (Or.inl rfl) L f
      exact ⟨s', true, hr, hp, hst', trivial, fun _ => rfl, rfl⟩
  | false =>
      subst hfl
      cases ht : (s0.cell i).term with
      | none =>
          simp only [ht, firstRef, Bool.false_eq_true, if_false, Option.some.injEq] at hval
          subst hval
          obtain ⟨s', hr, hp, hst'⟩ := self_read hw hx hj hspec hst hs he (Or.inr ht) L f
          exact ⟨s', false, hr, hp, hst', trivial, fun _ => rfl, rfl⟩
      | some t =>
          simp only [ht, firstRef, Bool.false_eq_true, if_false] at hval
          obtain ⟨u, hu, hpick⟩ := term_eval_some hval
          obtain ⟨hf1, hans⟩ := hf (by simp [ht])
          obtain ⟨f', rfl⟩ : ∃ f', f = f' + 1 := ⟨f - 1, by omega⟩
          -- the state after marking the top
          have hs1 : Ev s0 { s with getStack := markTop s.getStack } := hs.of_cells rfl rfl
          have he1 : isEval { s with getStack := markTop s.getStack } x = false := he
          have hself' : SelfAnswers s0 (get (f' + 1)) L x rest (fun _ => some ((s0.cell j).state, (s0.cell j).contributing))
              (some ((s0.cell j).state, (s0.cell j).contributing)) (fun b => b = true) := by
            intro s2 fl2 w2 hP2 hst2 hs2 he2 hv2
            subst hP2
            simp only [if_true, Option.some.injEq] at hv2
            subst hv2
            obtain ⟨s', hr, hp, hst'⟩ := self_read hw hx hj hspec hst2 hs2 he2 (Or.inl rfl) L f'
            exact ⟨s', true, hr, hp, hst', rfl, fun _ => rfl, rfl⟩
          obtain ⟨s', fl', hr, hp, hst', hfl', -, heval⟩ := run_self hans hd (fun _ _ _ => Le.refl _) hself' t.prog
            { s with getStack := markTop s.getStack } true u.1 u.2 rfl hs1 he1 (by simp [hst, markTop]) (by simpa using hu)
          have hni : s.nameIndex.find x = some i := by rw [hs.nameIndex]; exact hx
          refine ⟨s', fl', ?_, ?_, hst', trivial, ?_, ?_⟩
          · rw [get_succ (by rw [stat_initMode hs.stat]; exact hw.initMode)]
            unfold getBody
            simp only [bind_gets, id_eq, hni, hst, List.head?_cons, Option.map_some, if_true, stat_input hs.stat, hj, stat_term hs.stat, ht,
              bind_modify]
            unfold Term.run
            rw [show ({ s with getStack := markTop ((x, false) :: rest) } : Sheet N V) = { s with getStack := markTop s.getStack } by
              rw [hst]]
            rw [bind_ok hr]
            unfold pick at hpick
            cases hidx : t.index with
            | none => rw [hidx] at hpick; cases hpick; rfl
            | some k =>
                simp only [hidx, Option.map_eq_some_iff] at hpick
                obtain ⟨a, ha, rfl⟩ := hpick
                cases harr : Values.asArray u.1 with
                | none => simp [harr] at ha
                | some l =>
                    simp only [harr, Option.bind_some] at ha
                    simp [ha]
          · have hb : w.2 = u.2 := by
              unfold pick at hpick
              split at hpick
              · cases hpick; rfl
              · simp only [Option.map_eq_some_iff] at hpick
                obtain ⟨a, _, rfl⟩ := hpick; rfl
            rw [hb]
            exact ⟨hp.ev, hp.ext, hp.new, hp.acc, hp.inp⟩
          · intro env
            simp [hfl']
          · simp only [firstRef, Term.eval]
            simp only [Bool.false_eq_true, if_false]
            rw [show t.prog.eval (some x) (restr s0 s' L) (some ((s0.cell j).state, (s0.cell j).contributing))
              (some ((s0.cell j).state, (s0.cell j).contributing)) = some u by simpa using heval]
            exact hpick

/-- Recording the value of a cell. -/
theorem finish (hw : WF s0) {n : N} {i : Nat} (hn : s0.nameIndex.find n = some i)
    (hb : ¬ ((s0.cell i).spec = .input ∨ (s0.cell i).spec = .constant)) {s s' : Sheet N V} (hs : Ev s0 s)
    (he : (s.cell i).evaluated = false) {L : Nat} {v : V} {b x : Bits} (hr : rhs s0 (restr s0 s L) n = some (v, b))
    (hx : Between b x s0.condContributing) (hst : s'.stat = s.stat)
    (hi : s'.cell i = { s.cell i with dirty := decide (v ≠ (s.cell i).state), state := v, evaluated := true, contributing := x })
    (ho : ∀ k, k ≠ i → s'.cell k = s.cell k) : Ev s0 s' := by
  have hext : ∀ k, (s.cell k).evaluated = true → (s'.cell k).evaluated = true := by
    intro k hk
    by_cases h : k = i
    · subst h; rw [hi]
    · rw [ho k h]; exact hk
  have hrestr : ∀ L, EnvLe (restr s0 s L) (restr s0 s' L) := by
    intro L m w hm
    unfold restr at *
    split at hm
    · rename_i h
      rw [if_pos]
      · exact hm
      · unfold isEval at *
        rw [stat_nameIndex hst]
        cases hk : s.nameIndex.find m with
        | none => simp [hk] at h
        | some k => simp only [hk] at h ⊢; exact hext k h
    · cases hm
  have hspeci := hw.spec n i hn
  refine ⟨hst.trans hs.stat, ?_, ?_, ?_, ?_, ?_⟩
  · intro k hk
    have : k ≠ i := by rintro rfl; exact hb hk
    rw [ho k this]; exact hs.base k hk
  · intro k hk
    have : k ≠ i := by rintro rfl; exact hspeci hk
    rw [ho k this]; exact hs.inContrib k hk
  · intro m k j hm hj hk
    have hki : k ≠ i := by rintro rfl; rw [hi] at hk; simp at hk
    have hji : j ≠ i := by
      rintro rfl
      have hsp : (s0.cell k).spec = .interfaceOutput := by
        by_contra h; rw [hw.noInput k h] at hj; cases hj
      obtain ⟨j', hj', _, hsp', _⟩ := hw.iface m k hm hsp
      rw [hj] at hj'; cases hj'
      exact hspeci hsp'
    rw [ho k hki] at hk
    rw [ho j hji]; exact hs.inState m k j hm hj hk
  · intro m k hm hk
    have hki : k ≠ i := by rintro rfl; rw [hi] at hk; simp at hk
    rw [ho k hki] at hk ⊢; exact hs.fresh m k hm hk
  · intro m k hm hkb hk
    by_cases hki : k = i
    · subst hki
      have hmn : m = n := by rw [← (hw.name m k hm).2, ← (hw.name n k hn).2]
      subst hmn
      refine ⟨L, v, b, rhs_mono s0 (hrestr L) m _ hr, by rw [hi], by rw [hi]; exact hx, ?_⟩
      rw [hi]
      simp only [hs.fresh m k hn he]
    · rw [ho k hki] at hk ⊢
      obtain ⟨L', v', b', h1, h2, h3, h4⟩ := hs.memo m k hm hkb hk
      exact ⟨L', v', b', rhs_mono s0 (hrestr L') m _ h1, h2, h3, h4⟩

/-- `calculate` on a cell whose equation has a value. -/
theorem calculate_ok (hw : WF s0) {n : N} {i : Nat} (hn : s0.nameIndex.find n = some i)
    (hb : ¬ ((s0.cell i).spec = .input ∨ (s0.cell i).spec = .constant)) {L f : Nat} (hans : Answers s0 (get f) L)
    (hd : den s0 L n = none) {v : V} {b : Bits} (hr : rhs s0 (den s0 L) n = some (v, b))
    (hf : (s0.cell i).spec = .interfaceOutput → 1 ≤ f ∧ ((s0.cell i).term.isSome → 2 ≤ f ∧ Answers s0 (get (f - 1)) L))
    {s : Sheet N V} (hs : Ev s0 s) (he : (s.cell i).evaluated = false) (rest : List (N × Bool))
    (hst : if (s0.cell i).spec = .interfaceOutput then s.getStack = (n, false) :: rest else s.getStack = rest ∧ TopFree s0 L s) :
    ∃ s', calculate (get f) i s = (.ok (), s'.modCell i fun c => { c with dirty := decide (v ≠ c.state), state := v, evaluated := true }) ∧
      Post s0 L s s' b ∧ (s'.cell i).evaluated = false ∧ rhs s0 (restr s0 s' L) n = some (v, b) ∧
      (if (s0.cell i).spec = .interfaceOutput then ∃ fl, s'.getStack = (n, fl) :: rest else s'.getStack = rest) := by
  have hname : (s.cell i).name = n := by rw [stat_name hs.stat]; exact (hw.name n i hn).2
  have hcalc := stat_calculator hs.stat i
  have hcount := stat_count hs.stat i
  by_cases hsp : (s0.cell i).spec = .interfaceOutput
  · rw [if_pos hsp] at hst
    obtain ⟨j, hj, _, hjs, _⟩ := hw.iface n i hn hsp
    rw [rhs_iface hn hb hj] at hr
    by_cases hc0 : (s0.cell i).count = 0
    swap
    · rw [if_pos hc0] at hr; cases hr
    rw [if_neg (by simpa using hc0)] at hr
    obtain ⟨hf1, hf2⟩ := hf hsp
    obtain ⟨f', rfl⟩ : ∃ f', f = f' + 1 := ⟨f - 1, by omega⟩
    have hself := self_answers hw hn hj hjs (L := L) (f := f') hd (fun h => by
      obtain ⟨h1, h2⟩ := hf2 h
      exact ⟨by omega, h2⟩) rest
    have hne : isEval s n = false := by rw [isEval_some (by rw [hs.nameIndex]; exact hn)]; exact he
    cases hcal : (s0.cell i).calculator with
    | none => simp [hcal] at hr
    | self =>
        simp only [hcal] at hr
        obtain ⟨s', fl', hrun, hp, hst', -, -, heval⟩ := hself s false (v, b) trivial hst hs hne (by simpa using hr)
        refine ⟨s', ?_, hp, hp.keeps hn hd he, ?_, ?_⟩
        · unfold calculate
          simp only [bind_gets, he, Bool.false_eq_true, if_false, hcount, hc0, ne_eq, not_true_eq_false, hcalc, hcal, hname, bind_ok hrun,
            modify_run]
        · rw [rhs_iface hn hb hj, if_neg (by simpa using hc0), hcal]
          simpa using heval
        · rw [if_pos hsp]; exact ⟨fl', hst'⟩
    | expr p =>
        simp only [hcal] at hr
        obtain ⟨s', fl', hrun, hp, hst', -, -, heval⟩ := run_self hans hd (fun _ _ h => firstRef_mono h _ _) hself p s false v b trivial hs hne
          hst (by simpa using hr)
        refine ⟨s', ?_, hp, hp.keeps hn hd he, ?_, ?_⟩
        · unfold calculate
          simp only [bind_gets, he, Bool.false_eq_true, if_false, hcount, hc0, ne_eq, not_true_eq_false, hcalc, hcal, bind_ok hrun,
            modify_run]
        · rw [rhs_iface hn hb hj, if_neg (by simpa using hc0), hcal]
          simpa using heval
        · rw [if_pos hsp]; exact ⟨fl', hst'⟩
  · rw [if_neg hsp] at hst
    have hj := hw.noInput i hsp
    rw [rhs_plain hn hb hj] at hr
    by_cases hc0 : (s0.cell i).count = 0
    swap
    · rw [if_pos hc0] at hr; cases hr
    rw [if_neg (by simpa using hc0)] at hr
    cases hcal : (s0.cell i).calculator with
    | none => simp [hcal] at hr
    | self => simp [hcal] at hr
    | expr p =>
        simp only [hcal] at hr
        obtain ⟨s', hrun, hp, hst', heval⟩ := run_plain hans p s v b hs hst.2 hr
        refine ⟨s', ?_, hp, hp.keeps hn hd he, ?_, ?_⟩
        · unfold calculate
          simp only [bind_gets, he, Bool.false_eq_true, if_false, hcount, hc0, ne_eq, not_true_eq_false, hcalc, hcal, bind_ok hrun,
            modify_run]
        · rw [rhs_plain hn hb hj, if_neg (by simpa using hc0), hcal]
          exact heval
        · rw [if_neg hsp, hst', hst.1]

/-- An evaluated cell holds the value of its equation. -/
theorem Ev.value {s : Sheet N V} (hs : Ev s0 s) {n : N} {i : Nat} (hn : s0.nameIndex.find n = some i)
    (he : (s.cell i).evaluated = true) {k : Nat} {v : V} {b : Bits} (hd : den s0 k n = some (v, b)) :
    (s.cell i).state = v ∧ Between b (s.cell i).contributing s0.condContributing := by
  by_cases hb : (s0.cell i).spec = .input ∨ (s0.cell i).spec = .constant
  · obtain ⟨h1, h2, _⟩ := hs.base i hb
    cases k with
    | zero => simp [den] at hd
    | succ k =>
        have : rhs s0 (den s0 k) n = some (v, b) := hd
        rw [rhs_base hn hb] at this
        cases this
        exact ⟨h1, by rw [h2]; exact Between.refl _ _⟩
  · obtain ⟨L, v', b', h1, h2, h3, _⟩ := hs.memo n i hn hb he
    have h4 : den s0 (L + 1) n = some (v', b') := rhs_mono s0 (restr_le s0 s L) n _ h1
    have := den_det s0 hd h4
    cases this
    exact ⟨h2, h3⟩

/-- `cell.contributing_m |= conditional_indirect_contributing_m` on an evaluated cell. -/
theorem Ev.addCond (hw : WF s0) {s : Sheet N V} (hs : Ev s0 s) {n : N} {i : Nat} (hn : s0.nameIndex.find n = some i)
    (hb : ¬ ((s0.cell i).spec = .input ∨ (s0.cell i).spec = .constant)) (he : (s.cell i).evaluated = true) :
    Ev s0 (s.modCell i fun c => { c with contributing := c.contributing ||| s.condContributing }) := by
  have hst : (s.modCell i fun c => { c with contributing := c.contributing ||| s.condContributing }).stat = s.stat :=
    modCell_stat _ _ _ fun _ => rfl
  have hspeci := hw.spec n i hn
  have hother : ∀ k, k ≠ i → (s.modCell i fun c => { c with contributing := c.contributing ||| s.condContributing }).cell k = s.cell k :=
    fun k hk => modCell_other _ _ hk
  have hstate : ∀ k, ((s.modCell i fun c => { c with contributing := c.contributing ||| s.condContributing }).cell k).state =
      (s.cell k).state := by
    intro k; simp only [Sheet.modCell]; split <;> rfl
  have heval : ∀ k, ((s.modCell i fun c => { c with contributing := c.contributing ||| s.condContributing }).cell k).evaluated =
      (s.cell k).evaluated := by
    intro k; simp only [Sheet.modCell]; split <;> rfl
  have hdirty : ∀ k, ((s.modCell i fun c => { c with contributing := c.contributing ||| s.condContributing }).cell k).dirty =
      (s.cell k).dirty := by
    intro k; simp only [Sheet.modCell]; split <;> rfl
  refine ⟨hst.trans hs.stat, ?_, ?_, ?_, ?_, ?_⟩
  · intro k hk
    have : k ≠ i := by rintro rfl; exact hb hk
    rw [hother k this]; exact hs.base k hk
  · intro k hk
    have : k ≠ i := by rintro rfl; exact hspeci hk
    rw [hother k this]; exact hs.inContrib k hk
  · intro m k j hm hj hk
    rw [heval] at hk; rw [hstate]; exact hs.inState m k j hm hj hk
  · intro m k hm hk
    rw [heval] at hk; rw [hstate]; exact hs.fresh m k hm hk
  · intro m k hm hkb hk
    rw [heval] at hk
    obtain ⟨L, v, b, h1, h2, h3, h4⟩ := hs.memo m k hm hkb hk
    refine ⟨L, v, b, ?_, by rw [hstate]; exact h2, ?_, by rw [hdirty]; exact h4⟩
    · rw [restr_congr (s := s) (s' := s.modCell i fun c => { c with contributing := c.contributing ||| s.condContributing }) rfl heval]
      exact h1
    · by_cases hki : k = i
      · subst hki
        rw [modCell_self]
        dsimp only
        rw [stat_cond hs.stat]
        exact h3.cond
      · rw [hother k hki]; exact h3

theorem decide_base {a : Access} : (a ≠ .input ∧ a ≠ .constant) ↔ ¬ (a = .input ∨ a = .constant) := by
  constructor
  · rintro ⟨h1, h2⟩ (h | h) <;> contradiction
  · intro h; exact ⟨fun h' => h (Or.inl h'), fun h' => h (Or.inr h')⟩

/-- The guarded part of `get`. -/
theorem getFresh_ok (hw : WF s0) {n : N} {i : Nat} (hn : s0.nameIndex.find n = some i) {L f : Nat} (hans : Answers s0 (get f) L)
    (hd : den s0 L n = none) {v : V} {b : Bits} (hr : den s0 (L + 1) n = some (v, b))
    (hf : (s0.cell i).spec = .interfaceOutput → 1 ≤ f ∧ ((s0.cell i).term.isSome → 2 ≤ f ∧ Answers s0 (get (f - 1)) L))
    {s : Sheet N V} (hs : Ev s0 s) (rest : List (N × Bool))
    (hst : if (s0.cell i).spec = .interfaceOutput then s.getStack = (n, false) :: rest else s.getStack = rest ∧ TopFree s0 L s) :
    ∃ s', getFresh (get f) i s = (.ok (), s') ∧ Post s0 (L + 1) s s' b ∧ (s'.cell i).evaluated = true ∧
      (if (s0.cell i).spec = .interfaceOutput then ∃ fl, s'.getStack = (n, fl) :: rest else s'.getStack = rest) := by
  have hspec := stat_spec hs.stat i
  cases he : (s.cell i).evaluated with
  | true =>
      obtain ⟨hv, hbt⟩ := hs.value hn he hr
      have hs1 : Ev s0 { s with accumulate := s.accumulate ||| (s.cell i).contributing } := hs.of_cells rfl rfl
      have hstk : if (s0.cell i).spec = .interfaceOutput then ∃ fl, s.getStack = (n, fl) :: rest else s.getStack = rest := by
        split at hst
        · rename_i h; rw [if_pos h]; exact ⟨false, hst⟩
        · rename_i h; rw [if_neg h]; exact hst.1
      by_cases hb : (s0.cell i).spec = .input ∨ (s0.cell i).spec = .constant
      · refine ⟨{ s with accumulate := s.accumulate ||| (s.cell i).contributing }, ?_, ?_, he, hstk⟩
        · unfold getFresh
          simp only [bind_gets, he, if_true, bind_modify, hspec, decide_base, hb, not_true_eq_false, if_false, pure_run]
        · exact ⟨hs1, fun _ h => h, fun m k _ h h' => (by rw [h] at h'; cases h'), ⟨_, rfl, hbt⟩, fun _ _ => rfl⟩
      · refine ⟨_, ?_, ⟨hs1.addCond hw hn hb he, ?_, ?_, ⟨_, rfl, hbt⟩, fun j hj => modCell_other _ _ ?_⟩, ?_, ?_⟩
        · unfold getFresh
          simp only [bind_gets, he, if_true, bind_modify, hspec, decide_base, hb, not_false_eq_true, modify_run]
        · intro k hk
          simp only [Sheet.modCell]; split <;> exact hk
        · intro m k _ h h'
          simp only [Sheet.modCell] at h'
          split at h' <;> (simp only [h] at h'; cases h')
        · rintro rfl; exact hw.spec n j hn hj
        · rw [modCell_self]; exact he
        · exact hstk
  | false =>
      have hb : ¬ ((s0.cell i).spec = .input ∨ (s0.cell i).spec = .constant) := by
        intro hb; have := (hs.base i hb).2.2; rw [he] at this; cases this
      have hs1 : Ev s0 { s with accumulate := 0 } := hs.of_cells rfl rfl
      obtain ⟨s', hc, hp, hne, hrr, hstk⟩ := calculate_ok hw hn hb hans hd hr hf hs1 he rest hst
      obtain ⟨x, hx, hbt⟩ := hp.acc
      have hx' : s'.accumulate = x := by simpa using hx
      have hev' : Ev s0 ((({ ((s'.modCell i fun c => { c with dirty := decide (v ≠ c.state), state := v, evaluated := true }).modCell i
          fun c => { c with contributing := s'.accumulate }) with accumulate := s'.accumulate ||| s.accumulate } : Sheet N V).modCell i
          fun c => { c with contributing := c.contributing ||| s'.condContributing })) := by
        refine finish hw hn hb hp.ev hne hrr (x := x ||| s0.condContributing) hbt.cond ?_ ?_ ?_
        · unfold Sheet.modCell Sheet.stat
          congr 1
          funext k
          dsimp only
          by_cases hk : k = i <;> simp [hk, Cell.stat]
        · simp only [Sheet.modCell, if_true, hx', stat_cond hp.ev.stat]
        · intro k hk
          simp [Sheet.modCell, hk]
      refine ⟨_, ?_, ⟨hev', ?_, ?_, ⟨x, ?_, hbt⟩, ?_⟩, ?_, ?_⟩
      · unfold getFresh
        simp only [bind_gets, he, Bool.false_eq_true, if_false, bind_modify]
        rw [bind_ok hc]
        simp only [modify_run, hspec, decide_base, hb, not_false_eq_true, if_true]
        rfl
      · intro k hk
        have := hp.ext k hk
        simp only [Sheet.modCell]
        by_cases h : k = i <;> simp [h, this]
      · intro m k hm h h'
        by_cases hki : k = i
        · subst hki
          have hmn : m = n := by rw [← (hw.name m k hm).2, ← (hw.name n k hn).2]
          subst hmn
          exact ⟨_, hr⟩
        · have h'' : (s'.cell k).evaluated = true := by simpa [Sheet.modCell, hki] using h'
          obtain ⟨w, hw'⟩ := hp.new m k hm h h''
          exact ⟨w, den_succ s0 L m w hw'⟩
      · simp only [Sheet.modCell, hx']; exact Nat.or_comm _ _
      · intro j hj
        have : j ≠ i := by rintro rfl; exact hw.spec n j hn hj
        rw [← hp.inp j hj]
        simp [Sheet.modCell, this]
      · simp [Sheet.modCell]
      · exact hstk

theorem popAfter_ok {α : Type} (b : Bool) {x : M N V α} {s s' : Sheet N V} {a : α} (h : x s = (.ok a, s')) :
    popAfter b x s = (.ok a, if b then { s' with getStack := s'.getStack.tail } else s') := by
  unfold popAfter; rw [h]

theorem rhs_some {s : Sheet N V} {env : Env N V} {n : N} {w : V × Bits} (h : rhs s env n = some w) :
    ∃ i, s.nameIndex.find n = some i := by
  cases hi : s.nameIndex.find n with
  | none => simp [rhs, hi] at h
  | some i => exact ⟨i, rfl⟩

/-- `get` answers every variable whose equations have a value `L` levels deep, provided that enough cells are left; `d` is 1 when some
cell is derived. -/
theorem get_answers (hw : WF s0) (d : Nat) (hterm : ∀ i, (s0.cell i).term.isSome → 1 ≤ d) :
    ∀ L f, wt s0 L + d ≤ f → Answers s0 (get f) L := by
  intro L
  induction L with
  | zero => intro f _ m v b h; simp [den] at h
  | succ L ih =>
      intro f hf m v b hd s hs htop
      have htop' : TopFree s0 L s := by
        intro y fl rest hy
        have := htop y fl rest hy
        cases hdy : den s0 L y with
        | none => rfl
        | some w => rw [den_succ s0 L y w hdy] at this; cases this
      cases hdl : den s0 L m with
      | some w =>
          have := den_det s0 hd hdl
          subst this
          obtain ⟨s', h1, h2, h3, h4⟩ := ih f (by have := wt_mono s0 (Nat.le_add_right L 1); omega) m v b hdl s hs htop'
          exact ⟨s', h1, h2.mono (Nat.le_succ L), h3, h4⟩
      | none =>
          obtain ⟨i, hi⟩ := rhs_some (show rhs s0 (den s0 L) m = some (v, b) from hd)
          have hwt := wt_step s0 hi hdl hd
          have hni : s.nameIndex.find m = some i := by rw [hs.nameIndex]; exact hi
          have hwpos : 1 ≤ weight s0 i := by unfold weight; split <;> omega
          obtain ⟨f', rfl⟩ : ∃ f', f = f' + 1 := ⟨f - 1, by omega⟩
          have hntop : ¬ (s.getStack.head?.map (·.1)) = some m := by
            intro h
            cases hst : s.getStack with
            | nil => simp [hst] at h
            | cons a rest =>
                obtain ⟨y, fl⟩ := a
                simp only [hst, List.head?_cons, Option.map_some, Option.some.injEq] at h
                subst h
                rw [htop y fl rest hst] at hd; cases hd
          have hans : Answers s0 (get f') L := ih f' (by omega)
          have hspec := stat_spec hs.stat i
          have hfi : (s0.cell i).spec = .interfaceOutput → 1 ≤ f' ∧ ((s0.cell i).term.isSome → 2 ≤ f' ∧ Answers s0 (get (f' - 1)) L) := by
            intro hsp
            have : weight s0 i = 2 := by unfold weight; rw [if_pos hsp]
            refine ⟨by omega, fun ht => ?_⟩
            have := hterm i ht
            exact ⟨by omega, ih (f' - 1) (by omega)⟩
          rw [get_succ (by rw [stat_initMode hs.stat]; exact hw.initMode)]
          unfold getBody
          simp only [bind_gets, id_eq, hni, hntop, if_false, hspec]
          by_cases hsp : (s0.cell i).spec = .interfaceOutput
          · have hs1 : Ev s0 { s with getStack := (m, false) :: s.getStack } := hs.of_cells rfl rfl
            obtain ⟨s', hr, hp, he, hstk⟩ := getFresh_ok hw hi hans hdl hd hfi hs1 s.getStack (by rw [if_pos hsp])
            rw [if_pos hsp] at hstk
            obtain ⟨fl, hstk⟩ := hstk
            have hv := (hp.ev.value hi he hd).1
            refine ⟨{ s' with getStack := s'.getStack.tail }, ?_, ⟨hp.ev.of_cells rfl rfl, hp.ext, hp.new, hp.acc, hp.inp⟩, ?_, ?_⟩
            · simp only [hsp, decide_true, if_true, bind_modify]
              rw [bind_ok (popAfter_ok true hr)]
              simp only [if_true, gets_run, hv]
            · simp [hstk]
            · rw [isEval_some (by rw [show ({ s' with getStack := s'.getStack.tail } : Sheet N V).nameIndex = s'.nameIndex from rfl, hp.ev.nameIndex]; exact hi)]
              exact he
          · obtain ⟨s', hr, hp, he, hstk⟩ := getFresh_ok hw hi hans hdl hd hfi hs s.getStack (by rw [if_neg hsp]; exact ⟨rfl, htop'⟩)
            rw [if_neg hsp] at hstk
            have hv := (hp.ev.value hi he hd).1
            refine ⟨s', ?_, hp, hstk, ?_⟩
            · simp only [hsp, decide_false, Bool.false_eq_true, if_false, bind_pure]
              rw [bind_ok (popAfter_ok false hr)]
              simp only [Bool.false_eq_true, if_false, gets_run, hv]
            · rw [isEval_some (by rw [hp.ev.nameIndex]; exact hi)]
              exact he

end Verif.Adam
