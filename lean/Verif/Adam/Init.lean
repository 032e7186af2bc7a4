import Verif.Adam.Touch
/-! Initializers and `reinitialize`. -/
namespace Verif.Adam
variable {N V : Type} [DecidableEq N] [DecidableEq V] [Values V]

/-- What the names denote in an initializer: the input half of the cell, or a constant. -/
def initEnv (s : Sheet N V) : Env N V := fun n => match s.inputIndex.find n with
  | some i => some ((s.cell i).state, (s.cell i).initContributing)
  | none => match s.nameIndex.find n with
      | some i => if (s.cell i).spec = .constant then some ((s.cell i).state, (s.cell i).initContributing) else none
      | none => none

/-- The value of an initializer. -/
def initValue (s : Sheet N V) (p : Prog N V) : Option (V × Bits) := p.eval none (initEnv s) none none

/-- No evaluation of the expression reads a name in `X`. -/
inductive Prog.Avoids (X : N → Prop) : Prog N V → Prop
  | ret (v) : Avoids X (.ret v)
  | fail : Avoids X .fail
  | ask (n k) : ¬ X n → (∀ v, Avoids X (k v)) → Avoids X (.ask n k)

theorem Prog.Avoids.eval {X : N → Prop} {p : Prog N V} (h : p.Avoids X) {e e' : Env N V} (he : ∀ n, ¬ X n → e n = e' n) :
    p.eval none e none none = p.eval none e' none none := by
  induction h with
  | ret v => rfl
  | fail => rfl
  | ask n k hn _ ih =>
      unfold Prog.eval
      rw [if_neg (by simp), if_neg (by simp), he n hn]
      cases e' n with
      | none => rfl
      | some w => simp only [Option.bind_some]; rw [ih]

theorem getInit_exact (n : N) (s : Sheet N V) : match initEnv s n with
    | some w => getInit n s = (.ok w.1, { s with accumulate := s.accumulate ||| w.2 })
    | none => ∃ e, getInit n s = (.error e, s) := by
  unfold getInit initEnv
  simp only [bind_gets, id]
  cases s.inputIndex.find n with
  | some i => rfl
  | none =>
      dsimp only
      cases s.nameIndex.find n with
      | none => exact ⟨_, rfl⟩
      | some i =>
          dsimp only
          by_cases h : (s.cell i).spec = .constant
          · simp only [h, ne_eq, not_true_eq_false, if_true, if_false]; rfl
          · simp only [h, ne_eq, not_false_eq_true, if_true, if_false]; exact ⟨_, rfl⟩

theorem run_exact {f : Nat} (p : Prog N V) : ∀ s : Sheet N V, s.initMode = true → match initValue s p with
    | some w => p.run (get f) s = (.ok w.1, { s with accumulate := s.accumulate ||| w.2 })
    | none => ∃ e s', p.run (get f) s = (.error e, s') := by
  induction p with
  | ret v => intro s _; simp only [initValue, Prog.eval, Prog.run, Nat.or_zero]; rfl
  | fail => intro s _; exact ⟨_, _, rfl⟩
  | ask n k ih =>
      intro s hs
      have h := getInit_exact n s
      unfold initValue Prog.eval
      rw [if_neg (by simp)]
      unfold Prog.run
      cases he : initEnv s n with
      | none =>
          rw [he] at h
          obtain ⟨e, h⟩ := h
          simp only [Option.bind_none]
          rw [bind_err ((get_init hs).trans h)]
          exact ⟨_, _, rfl⟩
      | some w =>
          rw [he] at h
          simp only [Option.bind_some]
          rw [bind_ok ((get_init hs).trans h)]
          have h2 := ih w.1 { s with accumulate := s.accumulate ||| w.2 } hs
          have henv : initValue { s with accumulate := s.accumulate ||| w.2 } (k w.1) = Prog.eval none (initEnv s) none none (k w.1) := rfl
          rw [henv] at h2
          cases hv : Prog.eval none (initEnv s) none none (k w.1) with
          | none => rw [hv] at h2; exact h2
          | some u =>
              rw [hv] at h2
              simp only [Option.map_some]
              rw [h2]
              simp only [Nat.or_assoc]

theorem initializeOne_exact {j : Nat} {p : Prog N V} {s s' : Sheet N V} (hm : s.initMode = true) (hp : (s.cell j).calculator = .expr p)
    (h : initializeOne j s = (.ok (), s')) : ∃ w, initValue s p = some w ∧ (s'.cell j).state = w.1 := by
  unfold initializeOne at h
  simp only [bind_gets, bind_modify, hp] at h
  have h2 : match initValue { s with accumulate := 0 } p with
      | some w => evaluate p { s with accumulate := 0 } = (.ok w.1, { s with accumulate := 0 ||| w.2 })
      | none => ∃ e s', evaluate p { s with accumulate := 0 } = (.error e, s') := run_exact (f := s.size) p { s with accumulate := 0 } hm
  have henv : initValue { s with accumulate := 0 } p = initValue s p := rfl
  rw [henv] at h2
  cases hv : initValue s p with
  | none =>
      rw [hv] at h2
      obtain ⟨e, s1, h2⟩ := h2
      rw [bind_err h2] at h
      cases h
  | some w =>
      rw [hv] at h2
      rw [bind_ok h2] at h
      refine ⟨w, rfl, ?_⟩
      have := (Prod.mk.inj h).2
      rw [← this]
      simp [Sheet.modCell]

/-- The names of the interface cells. -/
def IsInterface (s : Sheet N V) (n : N) : Prop := ∃ i, s.nameIndex.find n = some i ∧ (s.cell i).spec = .interfaceOutput

theorem initEnv_frame {s s1 : Sheet N V} (hin : s1.inputIndex = s.inputIndex) (hnm : s1.nameIndex = s.nameIndex) {n : N}
    (h : ∀ i, s.inputIndex.find n = some i ∨ s.nameIndex.find n = some i → s1.cell i = s.cell i) : initEnv s1 n = initEnv s n := by
  unfold initEnv
  rw [hin, hnm]
  cases h1 : s.inputIndex.find n with
  | some i => simp only [h i (Or.inl h1)]
  | none =>
      dsimp only
      cases h2 : s.nameIndex.find n with
      | none => rfl
      | some i => simp only [h i (Or.inr h2)]

theorem reinitLoop_exact (s0 : Sheet N V) (hf : Fit s0) : ∀ (l : List Nat) (s s' : Sheet N V), s.initMode = true → l.Nodup →
    (∀ i ∈ l, ∃ n, s0.nameIndex.find n = some i) → s.inputIndex = s0.inputIndex → s.nameIndex = s0.nameIndex → s.initDirty = s0.initDirty →
    (∀ k, (s0.cell k).spec ≠ .interfaceInput → s.cell k = s0.cell k) →
    (∀ i ∈ l, ∀ j, (s0.cell i).input = some j → s.cell j = s0.cell j) →
    reinitLoop l s = (.ok (), s') →
    s'.inputIndex = s0.inputIndex ∧ s'.nameIndex = s0.nameIndex ∧
    (∀ k, (∀ i ∈ l, (s0.cell i).input ≠ some k) → s'.cell k = s.cell k) ∧
    ∀ i ∈ l, ∀ j, (s0.cell i).input = some j →
      if s0.initDirty &&& (s0.cell j).initContributing = 0 then s'.cell j = s0.cell j
      else ∀ p, (s0.cell j).calculator = .expr p → p.Avoids (IsInterface s0) → ∃ w, initValue s0 p = some w ∧ (s'.cell j).state = w.1
  | [], s, s', _, _, _, h1, h2, _, _, _, h => by
      have := (Prod.mk.inj h).2
      subst this
      exact ⟨h1, h2, fun _ _ => rfl, by simp⟩
  | i :: l, s, s', hm, hnd, hout, hin, hnm, hdirty, hcell, hfresh, h => by
      obtain ⟨hil, hnd'⟩ := List.nodup_cons.mp hnd
      obtain ⟨n, hn⟩ := hout i (by simp)
      have hci : s.cell i = s0.cell i := hcell i (hf.wf.spec n i hn)
      have hinj : ∀ i' ∈ l, ∀ j, (s0.cell i).input = some j → (s0.cell i').input ≠ some j := by
        intro i' hi' j hj hj'
        obtain ⟨n', hn'⟩ := hout i' (by simp [hi'])
        have := hf.wf.ifaceInj n n' i i' j hn hn' hj hj'
        exact hil (this ▸ hi')
      unfold reinitLoop at h
      simp only [bind_gets, id, hci, hdirty] at h
      cases hj : (s0.cell i).input with
      | none =>
          rw [hj] at h
          obtain ⟨a1, a2, a3, a4⟩ := reinitLoop_exact s0 hf l s s' hm hnd' (fun k hk => hout k (by simp [hk])) hin hnm hdirty hcell
            (fun k hk => hfresh k (by simp [hk])) h
          refine ⟨a1, a2, fun k hk => a3 k fun i' hi' => hk i' (by simp [hi']), fun i' hi' j hj' => ?_⟩
          rcases List.mem_cons.mp hi' with rfl | hi'
          · rw [hj] at hj'; cases hj'
          · exact a4 i' hi' j hj'
      | some j =>
          rw [hj] at h
          have hcj := hfresh i (by simp) j hj
          have hjs : (s0.cell j).spec = .interfaceInput := by
            obtain ⟨j', b1, -, b2, -⟩ := hf.wf.iface n i hn (by
              by_contra hc
              rw [hf.wf.noInput i hc] at hj; cases hj)
            rw [hj] at b1; cases b1; exact b2
          simp only [ite_run, hcj] at h
          split at h
          · rename_i hd
            obtain ⟨a1, a2, a3, a4⟩ := reinitLoop_exact s0 hf l s s' hm hnd' (fun k hk => hout k (by simp [hk])) hin hnm hdirty hcell
              (fun k hk => hfresh k (by simp [hk])) h
            refine ⟨a1, a2, fun k hk => a3 k fun i' hi' => hk i' (by simp [hi']), fun i' hi' j' hj' => ?_⟩
            rcases List.mem_cons.mp hi' with rfl | hi'
            · rw [hj] at hj'; cases hj'
              rw [if_pos hd, a3 j fun i' hi' => hinj i' hi' j hj, hcj]
            · exact a4 i' hi' j' hj'
          · rename_i hd
            cases hx : initializeOne j s with
            | mk r s1 =>
                cases r with
                | error e => rw [bind_err hx] at h; cases h
                | ok u =>
                    rw [bind_ok hx] at h
                    obtain ⟨v, a, b, hs1⟩ := initializeOne_ok hm hx
                    have hfr : ∀ k, k ≠ j → s1.cell k = s.cell k := by intro k hk; rw [hs1]; simp [Sheet.modCell, hk]
                    obtain ⟨a1, a2, a3, a4⟩ := reinitLoop_exact s0 hf l s1 s' (by rw [hs1]; exact hm) hnd' (fun k hk => hout k (by simp [hk]))
                      (by rw [hs1]; exact hin) (by rw [hs1]; exact hnm) (by rw [hs1]; exact hdirty)
                      (fun k hk => by rw [hfr k (by rintro rfl; exact hk hjs)]; exact hcell k hk)
                      (fun i' hi' j' hj' => by
                        rw [hfr j' (by rintro rfl; exact hinj i' hi' _ hj hj')]
                        exact hfresh i' (by simp [hi']) j' hj') h
                    refine ⟨a1, a2, fun k hk => ?_, fun i' hi' j' hj' => ?_⟩
                    · rw [a3 k fun i' hi' => hk i' (by simp [hi'])]
                      exact hfr k (by rintro rfl; exact hk i (by simp) hj)
                    · rcases List.mem_cons.mp hi' with rfl | hi'
                      · rw [hj] at hj'; cases hj'
                        rw [if_neg hd]
                        intro p hp hav
                        obtain ⟨w, hw, hst⟩ := initializeOne_exact hm (by rw [hcj]; exact hp) hx
                        refine ⟨w, ?_, by rw [a3 j fun i' hi' => hinj i' hi' j hj]; exact hst⟩
                        rw [← hw]
                        refine (hav.eval fun m hm' => ?_).symm
                        refine initEnv_frame hin hnm fun k hk => ?_
                        apply hcell
                        intro hks
                        rcases hk with hk | hk
                        · obtain ⟨q, hq, hq'⟩ := (hf.inp m k).mp hk
                          rcases hq' with ⟨hq', rfl⟩ | hq'
                          · rw [hks] at hq'; cases hq'
                          · refine hm' ⟨q, hq, ?_⟩
                            by_contra hc
                            rw [hf.wf.noInput q hc] at hq'; cases hq'
                        · exact hf.wf.spec m k hk hks
                      · exact a4 i' hi' j' hj'

end Verif.Adam
