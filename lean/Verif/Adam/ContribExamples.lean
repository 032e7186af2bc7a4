import Verif.Adam.ContribExample
/-!
The hypotheses of the theorems about reports are met (C115, C116, C117), and what is missing in the partial ones is really missing.
-/
namespace Verif.Adam
variable {N V : Type} [DecidableEq N] [DecidableEq V] [Values V]

/-! ### Equivalent instances -/

/-- An instance in which interface cells were set is equivalent to the one before. -/
theorem Equivalent.of_set {s t t' : Sheet N V} {n : N} {v : V} (he : Equivalent t s) (h : set n v t = (.ok (), t'))
    (hi : ∀ j, t.inputIndex.find n = some j → (t.cell j).spec = .interfaceInput) (ho : t'.hasOutput = t.hasOutput) : Equivalent t' s := by
  obtain ⟨j, g1, _, _, g4, g5, g6, g7, g8, g9, _, g11⟩ := set_ok h
  have hc : ∀ i, (t'.cell i).spec = (t.cell i).spec ∧ (t'.cell i).name = (t.cell i).name ∧ (t'.cell i).input = (t.cell i).input ∧
      (t'.cell i).calculator = (t.cell i).calculator ∧ (t'.cell i).linked = (t.cell i).linked := by
    intro i
    by_cases hij : i = j
    · subst hij; rw [g11]; exact ⟨rfl, rfl, rfl, rfl, rfl⟩
    · rw [g4 i hij]; exact ⟨rfl, rfl, rfl, rfl, rfl⟩
  refine ⟨he.nameIndex.trans g5.symm, he.inputIndex.trans g7.symm, he.outputIndex.trans g6.symm, he.hasOutput.trans ho.symm, he.nrel.trans g8.symm,
    fun r => by rw [g9]; exact he.rel r, fun i => ?_, fun i hsp => ?_⟩
  · obtain ⟨a1, a2, a3, a4, a5⟩ := he.cell i
    obtain ⟨b1, b2, b3, b4, b5⟩ := hc i
    exact ⟨a1.trans b1.symm, a2.trans b2.symm, a3.trans b3.symm, a4.trans b4.symm, a5.trans b5.symm⟩
  · rw [(hc i).1] at hsp
    have hij : i ≠ j := by
      rintro rfl
      rw [hi i g1] at hsp
      rcases hsp with h | h <;> cases h
    rw [g4 i hij]
    exact he.base i hsp

theorem Equivalent.refl (s : Sheet N V) : Equivalent s s := ⟨rfl, rfl, rfl, rfl, rfl, fun _ => ⟨rfl, rfl⟩, fun _ => ⟨rfl, rfl, rfl, rfl, rfl⟩, fun _ _ => rfl⟩

namespace Ex

theorem p6_equivalent : Equivalent p6 p5 := (Equivalent.refl p5).of_set (n := .b) (v := .num 5) (run_ok (by decide +kernel))
  (fun j hj => by obtain rfl : (0 : Nat) = j := Option.some.inj ((show p5.inputIndex.find .b = some 0 by decide +kernel).symm.trans hj)
                  decide +kernel) (by decide +kernel)
theorem p6_find : p6.inputIndex.find .a = some 2 := by decide +kernel
theorem p7_equivalent : Equivalent p7 p5 := p6_equivalent.of_set (n := .a) (v := .num 0) (run_ok (by decide +kernel))
  (fun j hj => by obtain rfl : (2 : Nat) = j := Option.some.inj (p6_find.symm.trans hj)
                  decide +kernel) (by decide +kernel)
theorem z7_equivalent : Equivalent z7 p5 := p6_equivalent.of_set (n := .a) (v := .num 3) (run_ok (by decide +kernel))
  (fun j hj => by obtain rfl : (2 : Nat) = j := Option.some.inj (p6_find.symm.trans hj)
                  decide +kernel) (by decide +kernel)

/-! ### C115 -/

theorem k8_ok : ok (update srt kord k7) = true := by decide +kernel

theorem ok_iff {α β ε : Type} {x : Except ε α × β} (h : ok x = true) : ∃ a, x = (.ok a, x.2) := by
  obtain ⟨r, s⟩ := x
  cases r with
  | ok a => exact ⟨a, rfl⟩
  | error e => cases h

theorem enum_update {s : S} {o o' : List Nat} (h : Enumerates s o') (hu : ok (update srt o s) = true) : Enumerates (update srt o s).2 o' := by
  obtain ⟨ev, hev⟩ := ok_iff hu
  exact ⟨h.1, fun i => by rw [h.2, (C59_update_keeps_the_structure s srt o hev).2.2.2.2.1]⟩

theorem reach_update {s : S} {o : List Nat} (hr : Reachable s) (h : Enumerates s o) (hu : ok (update srt o s) = true) : Reachable (update srt o s).2 := by
  obtain ⟨ev, hev⟩ := ok_iff hu
  exact hr.update h hev

theorem enum_set {s s' : S} {n : Nm} {v : Vl} {o : List Nat} (h : Enumerates s o) (hs : set n v s = (.ok (), s')) : Enumerates s' o := by
  obtain ⟨j, _, _, _, _, _, g6, _⟩ := set_ok hs
  exact ⟨h.1, fun i => by rw [h.2, g6]⟩

theorem k8_reachable : Reachable k8 := reach_update k7_reachable k7_enum k8_ok
theorem k8_enum : Enumerates k8 kord := enum_update k7_enum k8_ok
theorem k9_set : set .a (.bool false) k8 = (.ok (), k9) := run_ok (by decide +kernel)
theorem k9_reachable : Reachable k9 := k8_reachable.set k9_set
theorem k9_enum : Enumerates k9 kord := enum_set k8_enum k9_set
theorem k10_ok : ok (update srt kord k9) = true := by decide +kernel
theorem k10_reachable : Reachable k10 := reach_update k9_reachable k9_enum k10_ok
theorem k10_enum : Enumerates k10 kord := enum_update k9_enum k10_ok

/-- `C115_report` is about something: `b` contributes to the output, `g`, which does not, is not reported; with a mark in which `b` has an old value
only `b` is reported, and with one in which `c` is missing `b` is reported as touched. -/
example : Reachable k8 ∧ Enumerates k8 kord ∧ contributingOf k8 kord [] = [(.b, .num 6), (.c, .num 7)] ∧
    contributingOf k8 kord [(.b, .num 5), (.c, .num 7)] = [(.b, .num 6)] ∧ contributingOf k8 kord [(.b, .num 6)] = [(.c, .num 7), (.b, .num 6)] ∧
    contributingOf k8 kord [(.c, .num 7)] = [(.b, .num 6)] ∧ contributingToCell k8 .g = some [(.b, .num 6)] ∧ contributingToCell k8 .a = none :=
  ⟨k8_reachable, k8_enum, by decide +kernel, by decide +kernel, by decide +kernel, by decide +kernel, by decide +kernel, by decide +kernel⟩

theorem m10_ok : ok (update srt mord m9) = true := by decide +kernel
theorem m10_reachable : Reachable m10 := reach_update m9_reachable m9_enum m10_ok
theorem m11_set : set .f (.bool true) m10 = (.ok (), m11) := run_ok (by decide +kernel)
theorem m11_reachable : Reachable m11 := m10_reachable.set m11_set
theorem m11_enum : Enumerates m11 mord := enum_set (enum_update m9_enum m10_ok) m11_set
theorem m12_ok : ok (update srt mord m11) = true := by decide +kernel

/-- The hypotheses of `C115_monitor_partial`. -/
example : Reachable m11 ∧ Enumerates m11 mord ∧ ok (update srt mord m11) = true ∧ (monitorContributing m11 .d [(.g, .num 50)]).isSome ∧
    (monitorContributing m12 .d [(.g, .num 50)]).isSome ∧ m12.priorityAccessed ≠ m11.priorityAccessed ∧ k10.priorityAccessed = k9.priorityAccessed :=
  ⟨m11_reachable, m11_enum, m12_ok, by decide +kernel, by decide +kernel, by decide +kernel, by decide +kernel⟩

end Ex

/-- C115.  What a monitor is told in an update may differ from what a new monitor is told after it: the notifications run before the update
assigns `priority_accessed_m`, so a contributing cell whose priority was accessed in this update and not in the one before is not reported. -/
theorem C115_monitor_violated : ∃ (s : Sheet Ex.Nm Ex.Vl) (ord : List Nat) (ev : List (Event Ex.Nm Ex.Vl)) (s' : Sheet Ex.Nm Ex.Vl) (mark d d' r : Dict Ex.Nm Ex.Vl)
    (m m' : ContribMonitor Ex.Nm Ex.Vl), Reachable s ∧ Enumerates s ord ∧ update Ex.srt ord s = (.ok ev, s') ∧ monitorContributing s .d mark = some (d, m) ∧
      monitorContributing s' .d mark = some (d', m') ∧ m.heard Ex.srt ord s = [r] ∧ Dict.get r .g = none ∧ Dict.get d' .g = some (.num 50) := by
  obtain ⟨ev, hev⟩ := Ex.ok_iff Ex.m12_ok
  have h1 : (monitorContributing Ex.m11 .d [(.g, .num 50)]).map (fun x => x.2.heard Ex.srt Ex.mord Ex.m11) = some [[(.c, .num 7)]] := by decide +kernel
  have h2 : (monitorContributing Ex.m12 .d [(.g, .num 50)]).map (fun x => Dict.get x.1 .g) = some (some (.num 50)) := by decide +kernel
  obtain ⟨⟨d, m⟩, hm, g1⟩ := Option.map_eq_some_iff.mp h1
  obtain ⟨⟨d', m'⟩, hm', g2⟩ := Option.map_eq_some_iff.mp h2
  exact ⟨Ex.m11, Ex.mord, ev, Ex.m12, [(.g, .num 50)], d, d', [(.c, .num 7)], m, m', Ex.m11_reachable, Ex.m11_enum, hev, hm, hm', g1, by decide, g2⟩

/-- C115.  The comment of `contributing_set` (source/adam.cpp:1384-1393) says that a contributing value whose priority was accessed is reported when the set
of contributing values has changed.  It is not when cells only left the set. -/
theorem C115_removed_violated : ∃ (s s' s'' : Sheet Ex.Nm Ex.Vl) (ord : List Nat) (ev : List (Event Ex.Nm Ex.Vl)) (k : Nat), Reachable s ∧ Enumerates s ord ∧
    set .a (.bool false) s = (.ok (), s') ∧ update Ex.srt ord s' = (.ok ev, s'') ∧
    (Dict.get (contributingOf s ord []) .c = some (.num 7)) ∧ (Dict.get (contributingOf s'' ord []) .c = none) ∧
    s''.inputIndex.find .b = some k ∧ s''.priorityAccessed.testBit k = true ∧ Dict.get (contributingOf s'' ord []) .b = some (.num 6) ∧
    Dict.get (contributingOf s'' ord (contributingOf s ord [])) .b = none := by
  obtain ⟨ev, hev⟩ := Ex.ok_iff Ex.k10_ok
  exact ⟨Ex.k8, Ex.k9, Ex.k10, Ex.kord, ev, 1, Ex.k8_reachable, Ex.k8_enum, Ex.k9_set, hev, by decide +kernel, by decide +kernel, by decide +kernel,
    by decide +kernel, by decide +kernel, by decide +kernel⟩

/-! ### C116 -/

namespace Ex

theorem p8_ok : ok (update srt pord p7) = true := by decide +kernel
theorem z8_ok : ok (update srt pord z7) = true := by decide +kernel

/-- The only relation of the sheets `p` and `z`, when it computes `c`. -/
theorem tp_dir {s d : S} {ch : Nat → Nat} (hd : Directed s d ch) (hn : s.nrel = 1) (hr : (s.rel 0).terms = tp) (ho : s.outputIndex = p5.outputIndex)
    (h1 : (d.cell 1).term.isSome = false) (h5 : (d.cell 5).term.isSome = true) (i : Nat) : (d.cell i).term = if i = 5 then some (termAt ⟨[.c], prod⟩ 0) else none := by
  have key : ∀ x, (d.cell i).term = some x → (i = 5 ∧ x = termAt ⟨[.c], prod⟩ 0) ∨ i = 1 := by
    intro x hx
    obtain ⟨r, t, p, n, ha, ht, hp, hf, rfl⟩ := hd.only i x hx
    have : r < 1 := hn ▸ ha.1
    obtain rfl : r = 0 := by omega
    rw [hr] at ht
    rw [ho] at hf
    have ht : t ∈ tp := List.mem_of_getElem? ht
    have hc : p5.outputIndex.find .c = some 5 := by decide +kernel
    have hb : p5.outputIndex.find .b = some 1 := by decide +kernel
    rcases List.mem_cons.mp ht with rfl | ht
    · cases p with
      | zero =>
          cases hp
          rw [hc] at hf
          exact Or.inl ⟨(Option.some.inj hf).symm, rfl⟩
      | succ p => cases p <;> cases hp
    · rcases List.mem_cons.mp ht with rfl | ht
      · cases p with
        | zero =>
            cases hp
            rw [hb] at hf
            exact Or.inr (Option.some.inj hf).symm
        | succ p => cases p <;> cases hp
      · cases ht
  by_cases hi : i = 5
  · rw [if_pos hi]
    subst hi
    obtain ⟨x, hx⟩ := Option.isSome_iff_exists.mp h5
    rcases key x hx with ⟨_, h⟩ | h
    · rw [hx, h]
    · cases h
  · rw [if_neg hi]
    cases hx : (d.cell i).term with
    | none => rfl
    | some x =>
        rcases key x hx with ⟨h, _⟩ | h
        · exact absurd h hi
        · subst h
          rw [hx] at h1; cases h1

theorem z7_cond : CondOk (startUpdate z7) := by
  intro r hr hc
  have hr : r < 1 := hr
  obtain rfl : r = 0 := by omega
  exact absurd rfl hc
theorem z9_set : setAll (contributingOf z8 pord []).reverse p5 = (.ok (), z9) := run_ok (by decide +kernel)
theorem z9_ok : ok (update srt pord z9) = true := by decide +kernel
theorem z9_not_over : ¬ OverConstrained srt z9 := not_over z9_ok
theorem z7_not_over : ¬ OverConstrained srt z7 := not_over z8_ok
theorem z7_sensible : Sensible srt z7 := sensible_of 6 (fun n => by cases n <;> decide +kernel) (fun n i hn hi => by
    exfalso; revert hi; cases n <;> first | (cases hn; decide +kernel) | cases hn)
theorem z8_reachable : Reachable z8 := reach_update z7_reachable z7_enum z8_ok
theorem z8_enum : Enumerates z8 pord := enum_update z7_enum z8_ok
theorem z8_update : ∃ ev, update srt pord z7 = (.ok ev, z8) := ok_iff z8_ok
theorem z9_soft : Reachable z9 ∧ Soft p5 z9 := by
  obtain ⟨ev, hev⟩ := z8_update
  obtain ⟨s3, g1, g2, g3, -⟩ := C116_set_report z8_reachable p5_reachable (z7_equivalent.inputIndex.trans (C59_update_keeps_the_structure z7 srt pord hev).2.2.2.1.symm)
    z8_enum (l := (contributingOf z8 pord []).reverse) (List.reverse_perm _)
  rw [z9_set] at g1
  have := (Prod.mk.inj g1).2
  rw [this]
  exact ⟨g2, g3⟩
theorem cond_of_plain {s : S} (h : ∀ r, r < s.nrel → (s.rel r).cond = none) : CondOk (startUpdate s) := fun r hr hc => absurd (h r hr) hc
theorem p5_plain : ∀ r, r < p5.nrel → (p5.rel r).cond = none := by
  intro r hr
  have hr : r < 1 := hr
  obtain rfl : r = 0 := by omega
  rfl
theorem z9_cond : CondOk (startUpdate z9) := cond_of_plain fun r hr => by
  rw [z9_soft.2.nrel] at hr
  rw [z9_soft.2.rel]
  exact p5_plain r hr
theorem z9_sensible : Sensible srt z9 := sensible_of 6 (fun n => by cases n <;> decide +kernel) (fun n i hn hi => by
  rw [z9_soft.2.nameIndex] at hn
  rw [(z9_soft.2.cell i).1] at hi
  exfalso; revert hi; cases n <;> first | (cases hn; decide +kernel) | cases hn)
theorem z8_report : contributingOf z8 pord [] = [(.b, .num 5), (.a, .num 3)] := by decide +kernel
theorem z8_keep (n : Nm) (k : Nat) (hk : Contributes z8 n k) : (z8.cell k).state = (z7.cell k).state := by
  have hn : n = .a ∨ n = .b := by
    have := (C115_report_all z8_reachable z8_enum n _).mpr ⟨k, hk, rfl⟩
    rw [z8_report] at this
    have := (get_isSome _ n).mp (Option.isSome_of_eq_some this)
    simpa [Keys, or_comm] using this
  rcases hn with rfl | rfl
  · obtain rfl : (2 : Nat) = k := Option.some.inj ((show z8.inputIndex.find .a = some 2 by decide +kernel).symm.trans hk.1)
    decide +kernel
  · obtain rfl : (0 : Nat) = k := Option.some.inj ((show z8.inputIndex.find .b = some 0 by decide +kernel).symm.trans hk.1)
    decide +kernel
theorem z9_dir (i : Nat) : ((settled srt z9).cell i).term = ((settled srt z7).cell i).term := by
  rcases update_settled z9_soft.1.good z9_soft.1.proper z9_cond srt_ok with ⟨h, -⟩ | ⟨ch, -, -, hD, -⟩
  · exact absurd h z9_not_over
  rcases update_settled z7_reachable.good z7_reachable.proper z7_cond srt_ok with ⟨h, -⟩ | ⟨ch', -, -, hD', -⟩
  · exact absurd h z7_not_over
  rw [tp_dir hD (by rw [z9_soft.2.nrel]; rfl) (by rw [z9_soft.2.rel]; rfl) z9_soft.2.outputIndex (by decide +kernel) (by decide +kernel) i,
    tp_dir hD' rfl rfl z7_equivalent.outputIndex.symm (by decide +kernel) (by decide +kernel) i]
theorem z9_new : z9.value .d ≠ z8.value .d := by decide +kernel

end Ex

/-- The hypotheses of `C116_restore_partial` are met: the product is computed in both instances. -/
example : ∃ (ev : List (Event Ex.Nm Ex.Vl)) (l : List (Ex.Nm × Ex.Vl)), Reachable Ex.z7 ∧ CondOk (startUpdate Ex.z7) ∧ Sensible Ex.srt Ex.z7 ∧ Enumerates Ex.z7 Ex.pord ∧
    update Ex.srt Ex.pord Ex.z7 = (.ok ev, Ex.z8) ∧ Reachable Ex.p5 ∧ Equivalent Ex.z7 Ex.p5 ∧ l.Perm (contributingOf Ex.z8 Ex.pord []) ∧ setAll l Ex.p5 = (.ok (), Ex.z9) ∧
    (∀ n k, Contributes Ex.z8 n k → (Ex.z8.cell k).state = (Ex.z7.cell k).state) ∧ CondOk (startUpdate Ex.z9) ∧ Sensible Ex.srt Ex.z9 ∧
    (∀ i, ((settled Ex.srt Ex.z9).cell i).term = ((settled Ex.srt Ex.z7).cell i).term) ∧ ¬ OverConstrained Ex.srt Ex.z9 ∧ Ex.z9.value .d ≠ Ex.z8.value .d := by
  obtain ⟨ev, hev⟩ := Ex.z8_update
  exact ⟨ev, (contributingOf Ex.z8 Ex.pord []).reverse, Ex.z7_reachable, Ex.z7_cond, Ex.z7_sensible, Ex.z7_enum, hev, Ex.p5_reachable, Ex.z7_equivalent,
    List.reverse_perm _, Ex.z9_set, Ex.z8_keep, Ex.z9_cond, Ex.z9_sensible, Ex.z9_dir, Ex.z9_not_over, Ex.z9_new⟩

namespace Ex
/-! A sheet without relations: the output `c` is `10 b`.  The values of both cells were set in `y2`, that of `b` matters. -/
def y1 : S := run (set .b (.num 1)) v3
def y2 : S := run (set .a (.num 9)) y1
theorem y1_set : set .b (.num 1) v3 = (.ok (), y1) := run_ok (by decide +kernel)
theorem y2_set : set .a (.num 9) y1 = (.ok (), y2) := run_ok (by decide +kernel)
theorem y2_reachable : Reachable y2 := (v3_reachable.set y1_set).set y2_set
theorem v3_enum : Enumerates v3 vord := enum_of (by decide) (fun n => by cases n <;> decide +kernel) (by decide +kernel)
theorem y2_enum : Enumerates y2 vord := enum_set (enum_set v3_enum y1_set) y2_set
theorem y3_ok : ok (update srt vord y2) = true := by decide +kernel
def y3 : S := (update srt vord y2).2
theorem y3_reachable : Reachable y3 := reach_update y2_reachable y2_enum y3_ok
theorem y3_enum : Enumerates y3 vord := enum_update y2_enum y3_ok
theorem y2_equivalent : Equivalent y2 v3 :=
  ((Equivalent.refl v3).of_set y1_set
    (fun j hj => by obtain rfl : (0 : Nat) = j := Option.some.inj ((show v3.inputIndex.find .b = some 0 by decide +kernel).symm.trans hj)
                    decide +kernel) (by decide +kernel)).of_set y2_set
    (fun j hj => by obtain rfl : (2 : Nat) = j := Option.some.inj ((show y1.inputIndex.find .a = some 2 by decide +kernel).symm.trans hj)
                    decide +kernel) (by decide +kernel)
theorem y3_report : contributingOf y3 vord [] = [(.b, .num 1)] := by decide +kernel
theorem y3_keep (n : Nm) (k : Nat) (hk : Contributes y3 n k) : (y3.cell k).state = (y2.cell k).state := by
  have hn : n = .b := by
    have := (C115_report_all y3_reachable y3_enum n _).mpr ⟨k, hk, rfl⟩
    rw [y3_report] at this
    have := (get_isSome _ n).mp (Option.isSome_of_eq_some this)
    simpa [Keys] using this
  subst hn
  obtain rfl : (0 : Nat) = k := Option.some.inj ((show y3.inputIndex.find .b = some 0 by decide +kernel).symm.trans hk.1)
  decide +kernel
theorem y4_set : setAll (contributingOf y3 vord []) v3 = (.ok (), y1) := by
  rw [y3_report]
  show ((set .b (.num 1) >>= fun _ => setAll [] : M Nm Vl Unit) v3) = _
  rw [bind_ok y1_set]
  rfl
theorem v3_inv : ∀ n i, v3.nameIndex.find n = some i → (v3.cell i).spec ≠ .invariant := by
  intro n i hn
  cases n <;> first | (cases hn; decide +kernel) | cases hn
theorem y2_sensible : Sensible srt y2 := sensible_of 6 (fun n => by cases n <;> decide +kernel) (fun n i hn hi => by
  rw [← y2_equivalent.nameIndex] at hn
  rw [← (y2_equivalent.cell i).1] at hi
  exact absurd hi (v3_inv n i hn))
theorem y1_sensible : Sensible srt y1 := sensible_of 6 (fun n => by cases n <;> decide +kernel) (fun n i hn hi => by
  rw [(set_soft y1_set).nameIndex] at hn
  rw [((set_soft y1_set).cell i).1] at hi
  exact absurd hi (v3_inv n i hn))
end Ex

/-- The hypotheses of `C116_restore_without_relations_partial` are met. -/
example : Reachable Ex.y2 ∧ Ex.y2.nrel = 0 ∧ Sensible Ex.srt Ex.y2 ∧ Enumerates Ex.y2 Ex.vord ∧ (∃ ev, update Ex.srt Ex.vord Ex.y2 = (.ok ev, Ex.y3)) ∧ Reachable Ex.v3 ∧
    Equivalent Ex.y2 Ex.v3 ∧ setAll (contributingOf Ex.y3 Ex.vord []) Ex.v3 = (.ok (), Ex.y1) ∧
    (∀ n k, Contributes Ex.y3 n k → (Ex.y3.cell k).state = (Ex.y2.cell k).state) ∧ Sensible Ex.srt Ex.y1 ∧ Ex.y3.value .c = some (.num 10) :=
  ⟨Ex.y2_reachable, by decide +kernel, Ex.y2_sensible, Ex.y2_enum, Ex.ok_iff Ex.y3_ok, Ex.v3_reachable, Ex.y2_equivalent, Ex.y4_set, Ex.y3_keep, Ex.y1_sensible, by decide +kernel⟩

/-- C116.  The report says which cells were read for the output; if that depends on the values, a cell which was not read may get a higher
priority than another one in the equivalent instance, which directs the relations otherwise: the output is 0 in `s`, 7 after `set(contributing())` in a
new instance `s2`. -/
theorem C116_unread_cell_violated : ∃ (s s' s2 s3 s3' : Sheet Ex.Nm Ex.Vl) (ord : List Nat) (ev ev' : List (Event Ex.Nm Ex.Vl)), Reachable s ∧ Reachable s2 ∧ Equivalent s s2 ∧
    Enumerates s ord ∧ update Ex.srt ord s = (.ok ev, s') ∧ setAll (contributingOf s' ord []) s2 = (.ok (), s3) ∧ update Ex.srt ord s3 = (.ok ev', s3') ∧
    s'.value .d = some (.num 0) ∧ s3'.value .d = some (.num 7) := by
  obtain ⟨ev, hev⟩ := Ex.ok_iff Ex.p8_ok
  obtain ⟨ev', hev'⟩ := Ex.ok_iff (show Ex.ok (update Ex.srt Ex.pord (Ex.run (setAll (contributingOf Ex.p8 Ex.pord [])) Ex.p5)) = true by decide +kernel)
  exact ⟨Ex.p7, Ex.p8, Ex.p5, _, _, Ex.pord, ev, ev', Ex.p7_reachable, Ex.p5_reachable, Ex.p7_equivalent, Ex.p7_enum, hev, Ex.run_ok (by decide +kernel), hev',
    by decide +kernel, by decide +kernel⟩

/-- C116.  The values are set in the order of a hash table; with unlinked cells in a relation that order decides about the output, even in the instance
which made the report. -/
theorem C116_order_violated : ∃ (s s' s3 s3' t3 t3' : Sheet Ex.Nm Ex.Vl) (ord : List Nat) (l l' : List (Ex.Nm × Ex.Vl)) (ev ev1 ev2 : List (Event Ex.Nm Ex.Vl)),
    Reachable s ∧ Enumerates s ord ∧ update Ex.srt ord s = (.ok ev, s') ∧ l.Perm (contributingOf s' ord []) ∧ l'.Perm (contributingOf s' ord []) ∧
    setAll l s = (.ok (), s3) ∧ update Ex.srt ord s3 = (.ok ev1, s3') ∧ setAll l' s = (.ok (), t3) ∧ update Ex.srt ord t3 = (.ok ev2, t3') ∧
    s'.value .d = some (.num 7) ∧ s3'.value .d = some (.num 7) ∧ t3'.value .d = some (.num 5) := by
  obtain ⟨ev, hev⟩ := Ex.ok_iff (show Ex.ok (update Ex.srt Ex.qord Ex.q4) = true by decide +kernel)
  obtain ⟨ev1, hev1⟩ := Ex.ok_iff (show Ex.ok (update Ex.srt Ex.qord (Ex.run (setAll (contributingOf Ex.q5 Ex.qord [])) Ex.q4)) = true by decide +kernel)
  obtain ⟨ev2, hev2⟩ := Ex.ok_iff (show Ex.ok (update Ex.srt Ex.qord (Ex.run (setAll (contributingOf Ex.q5 Ex.qord []).reverse) Ex.q4)) = true by decide +kernel)
  exact ⟨Ex.q4, Ex.q5, _, _, _, _, Ex.qord, contributingOf Ex.q5 Ex.qord [], (contributingOf Ex.q5 Ex.qord []).reverse, ev, ev1, ev2, Ex.q4_reachable, Ex.q4_enum, hev,
    List.Perm.refl _, List.reverse_perm _, Ex.run_ok (by decide +kernel), hev1, Ex.run_ok (by decide +kernel), hev2, by decide +kernel, by decide +kernel, by decide +kernel⟩

/-! ### C117 -/

namespace Ex
theorem e7_ok : ok (update srt eord e6) = true := by decide +kernel
theorem e7_reachable : Reachable e7 := reach_update e6_reachable e6_enum e7_ok
theorem e8_set : set .a (.bool false) e7 = (.ok (), e8) := run_ok (by decide +kernel)
theorem e8_enum : Enumerates e8 eord := enum_set (enum_update e6_enum e7_ok) e8_set
theorem e9_ok : ok (update srt eord e8) = true := by decide +kernel

/-- The hypotheses of `C117_told_is_right` and `C117_silence_partial`: monitors which are told something, and one which is not. -/
example : Enumerates m11 mord ∧ ok (update srt mord m11) = true ∧ (monitorEnabled m11 .g [.g]).map (fun x => (x.1, x.2.heard srt mord m11)) = some (true, [true]) ∧
    (monitorEnabled m9 .g [.a]).map (fun x => (x.1, x.2.heard srt mord m9)) = some (false, [true]) ∧
    (monitorEnabled m11 .c [.c]).map (fun x => (x.1, x.2.heard srt mord m11)) = some (true, []) ∧ monitorEnabled m9 .d [] = none ∧ monitorEnabled m9 .a [.d] = none :=
  ⟨m11_enum, m12_ok, by decide +kernel, by decide +kernel, by decide +kernel, by decide +kernel, by decide +kernel⟩
end Ex

/-- C117.  A monitor may not be told that its cell is no longer enabled (the REVISIT comment of source/adam.cpp:443-447): `b` was read in the update
before, and not in this one. -/
theorem C117_silence_violated : ∃ (s s' : Sheet Ex.Nm Ex.Vl) (ord : List Nat) (ev : List (Event Ex.Nm Ex.Vl)) (m : EnabledMonitor), Reachable s ∧ Enumerates s ord ∧
    update Ex.srt ord s = (.ok ev, s') ∧ monitorEnabled s .b [.c] = some (true, m) ∧ m.heard Ex.srt ord s = [] ∧ ¬ EnabledNow s' .b [.c] := by
  obtain ⟨ev, hev⟩ := Ex.ok_iff Ex.e9_ok
  refine ⟨Ex.e8, Ex.e9, Ex.eord, ev, ⟨1, 8⟩, Ex.e7_reachable.set Ex.e8_set, Ex.e8_enum, hev, ?_, ?_, ?_⟩
  · have h : (monitorEnabled Ex.e8 .b [.c]).map (fun x => (x.1, x.2.cell, x.2.touch)) = some (true, 1, 8) := by decide +kernel
    cases hm : monitorEnabled Ex.e8 .b [.c] with
    | none => rw [hm] at h; cases h
    | some x => rw [hm] at h; obtain ⟨b, c, t⟩ := x; cases h; rfl
  · decide +kernel
  · intro h
    have h' : (monitorEnabled Ex.e9 .b [.c]).map (·.1) = some false := by decide +kernel
    obtain ⟨⟨b, m⟩, hm, hb⟩ := Option.map_eq_some_iff.mp h'
    have := ((C117_initial Ex.e9 .b [.c]).2 b m hm).mpr h
    simp only at hb
    rw [hb] at this
    cases this

end Verif.Adam
