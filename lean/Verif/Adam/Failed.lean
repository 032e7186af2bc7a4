import Verif.Adam.Quiet
/-! What an `update` which throws leaves behind. -/
namespace Verif.Adam
variable {N V : Type} [DecidableEq N] [DecidableEq V] [Values V]

/-- As `Quiet`, but the name of an interface cell may have been left on the stack. -/
def Stale (s s' : Sheet N V) : Prop :=
  Quiet s s' ∨ ∃ n i, s.nameIndex.find n = some i ∧ (s.cell i).spec = .interfaceOutput ∧ s'.getStack.map (·.1) = n :: s.getStack.map (·.1)

theorem Stale.after {a b c : Sheet N V} (h : Quiet a b) (hs : b.struct = a.struct) (h' : Stale b c) : Stale a c := by
  rcases h' with h' | ⟨n, i, h1, h2, h3⟩
  · exact Or.inl (h.trans hs h')
  · refine Or.inr ⟨n, i, ?_, ?_, ?_⟩
    · have : b.nameIndex = a.nameIndex := by have := congrArg Sheet.nameIndex hs; exact this
      rw [← this]; exact h1
    · rw [← struct_spec hs]; exact h2
    · rw [h3, h.stack]

theorem calcOutput_stale {s s' : Sheet N V} (hs : Fit s) {n : N} {i : Nat} (hn : s.outputIndex.find n = some i) {e : Err N}
    (h : calcOutput i s = (.error e, s')) : Stale s s' := by
  obtain ⟨hnm, -⟩ := output_notBase hs.wf hn
  have hname := (hs.wf.name n i hnm).2
  unfold calcOutput at h
  simp only [bind_gets, ite_run] at h
  split at h
  · simp only [bind_pure, modify_run] at h
    cases h
  · simp only [bind_modify] at h
    by_cases hio : (s.cell i).spec = .interfaceOutput
    · simp only [hio, if_true, bind_modify, bind_gets] at h
      have hk := (calculate_kq (get_kq (N := N) (V := V) s.size) i).2 { s with accumulate := 0, getStack := ((s.cell i).name, false) :: s.getStack }
        (hs.like (Like.of_eq rfl rfl rfl rfl))
      cases hr : calculate (get s.size) i { s with accumulate := 0, getStack := ((s.cell i).name, false) :: s.getStack } with
      | mk r s2 =>
          rw [hr] at hk
          cases r with
          | error e => 
              rw [bind_err hr] at h; cases h
              refine Or.inr ⟨n, i, hnm, hio, ?_⟩
              have := hk.stack
              rw [this, ← hname]; rfl
          | ok u =>
              rw [bind_ok hr] at h
              simp only [bind_modify, modify_run] at h
              cases h
    · simp only [hio, if_false, bind_pure, bind_gets] at h
      have hk := (calculate_kq (get_kq (N := N) (V := V) s.size) i).2 { s with accumulate := 0 } (hs.like (Like.of_eq rfl rfl rfl rfl))
      cases hr : calculate (get s.size) i { s with accumulate := 0 } with
      | mk r s2 =>
          rw [hr] at hk
          cases r with
          | error e =>
              rw [bind_err hr] at h; cases h
              exact Or.inl ⟨hk.own, hk.stack⟩
          | ok u =>
              rw [bind_ok hr] at h
              simp only [bind_pure, bind_modify, modify_run] at h
              cases h

theorem calcOutputs_stale {e : Err N} : ∀ (l : List Nat) (s s' : Sheet N V), Fit s → (∀ i ∈ l, ∃ n, s.outputIndex.find n = some i) →
    calcOutputs l s = (.error e, s') → Stale s s'
  | [], s, s', _, _, h => by cases h
  | i :: l, s, s', hs, ho, h => by
      unfold calcOutputs at h
      obtain ⟨n, hn⟩ := ho i (by simp)
      have hl := calcOutput_keeps (N := N) (V := V) i s
      cases hr : calcOutput i s with
      | mk r s1 =>
          rw [hr] at hl
          cases r with
          | error e' => rw [bind_err hr] at h; cases h; exact calcOutput_stale hs hn hr
          | ok u =>
              rw [bind_ok hr] at h
              have hq := calcOutput_quiet hs hn hr
              have hout : s1.outputIndex = s.outputIndex := by have := congrArg Sheet.outputIndex hl.struct; exact this
              exact Stale.after hq hl.struct (calcOutputs_stale l s1 s' (hs.like hl) (fun j hj => by rw [hout]; exact ho j (by simp [hj])) h)

/-- An `update` which throws leaves a sheet in order, unless the exception came out of an interface cell: then its name stays on the stack. -/
theorem update_failed {s s' : Sheet N V} (hg : Good s) {srt : Sorter} {ord : List Nat} (hord : Enumerates s ord) {e : Err N}
    (h : update srt ord s = (.error e, s')) :
    Good s' ∨ ∃ n i, s.nameIndex.find n = some i ∧ (s.cell i).spec = .interfaceOutput ∧ s'.getStack.map (·.1) = [n] := by
  have hl := update_keeps (N := N) (V := V) srt ord s
  rw [h] at hl
  have key : Stale s s' := by
    rw [update_split] at h
    have hp := prepare_kq (N := N) (V := V) srt
    have hq1 := hp.2 s hg.fit
    have hl1 := hp.1 s
    cases hr : prepare srt s with
    | mk r s1 =>
        rw [hr] at hq1 hl1
        cases r with
        | error e => rw [bind_err hr] at h; cases h; exact Or.inl hq1
        | ok pa =>
            rw [bind_ok hr] at h
            refine Stale.after hq1 hl1.struct ?_
            unfold finishUpdate at h
            have hf1 := hg.fit.like hl1
            have hout : s1.outputIndex = s.outputIndex := by have := congrArg Sheet.outputIndex hl1.struct; exact this
            have hord1 : ∀ i ∈ ord, ∃ n, s1.outputIndex.find n = some i := fun i hi => by rw [hout]; exact (hord.2 i).mp hi
            have hl2 := calcOutputs_keeps (N := N) (V := V) ord s1
            cases hr2 : calcOutputs ord s1 with
            | mk r2 s2 =>
                rw [hr2] at hl2
                cases r2 with
                | error e => rw [bind_err hr2] at h; cases h; exact calcOutputs_stale ord s1 s' hf1 hord1 hr2
                | ok u =>
                    rw [bind_ok hr2] at h
                    have hq2 := calcOutputs_quiet ord s1 s2 hf1 hord1 hr2
                    have hrest : KQ (N := N) (V := V) (do
                        let poison ← poisonLoop 0 (← gets (·.invariants))
                        let (ev, active) ← notify poison pa ord
                        modify fun s => { s with priorityAccessed := pa, active := active }
                        pure (ev ++ [Event.enabled pa active])) := by
                      refine KQ.gets_bind fun _ => (poisonLoop_kq _ _).bind fun poison => (notify_kq poison _ _).bind fun x => ?_
                      exact KQ.modify_bind (fun s => Like.of_eq rfl rfl rfl rfl) (fun s _ => Quiet.of_eq rfl rfl) (KQ.pure _)
                    have hq3 := hrest.2 s2 (hf1.like hl2)
                    rw [h] at hq3
                    exact Or.inl (hq2.trans hl2.struct hq3)
  rcases key with h | ⟨n, i, h1, h2, h3⟩
  · exact Or.inl (h.good hg hl)
  · exact Or.inr ⟨n, i, h1, h2, by rw [h3, hg.stack]; rfl⟩

end Verif.Adam
