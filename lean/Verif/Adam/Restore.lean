import Verif.Adam.ContribProps
/-!
C116: does `set(contributing())` on an equivalent instance of the sheet restore the output, as adobe/adam.hpp:486-492 promises?
-/
namespace Verif.Adam
variable {N V : Type} [DecidableEq N] [DecidableEq V] [Values V]

/-- Two instances of the same sheet: built from the same declarations, with the same values of the input and constant cells.  The values and the
priorities of the interface cells are free. -/
structure Equivalent (s s2 : Sheet N V) : Prop where
  nameIndex : s2.nameIndex = s.nameIndex
  inputIndex : s2.inputIndex = s.inputIndex
  outputIndex : s2.outputIndex = s.outputIndex
  hasOutput : s2.hasOutput = s.hasOutput
  nrel : s2.nrel = s.nrel
  rel : ∀ r, (s2.rel r).cond = (s.rel r).cond ∧ (s2.rel r).terms = (s.rel r).terms
  cell : ∀ i, (s2.cell i).spec = (s.cell i).spec ∧ (s2.cell i).name = (s.cell i).name ∧ (s2.cell i).input = (s.cell i).input ∧
    (s2.cell i).calculator = (s.cell i).calculator ∧ (s2.cell i).linked = (s.cell i).linked
  base : ∀ i, ((s.cell i).spec = .input ∨ (s.cell i).spec = .constant) → (s2.cell i).state = (s.cell i).state

/-! ### Setting a dictionary -/

def Keys (d : Dict N V) : List N := d.map (·.1)

theorem get_isSome (d : Dict N V) (n : N) : (Dict.get d n).isSome = true ↔ n ∈ Keys d := by
  induction d with
  | nil => simp [Dict.get, Keys]
  | cons e d ih =>
      unfold Dict.get Keys at *
      rw [List.lookup_cons, List.map_cons, List.mem_cons]
      by_cases h : n = e.1
      · simp [h]
      · have : (n == e.1) = false := by simpa using h
        rw [this]
        simp only [h, false_or]
        exact ih

theorem insert_keys {d : Dict N V} (h : (Keys d).Nodup) (n : N) (v : V) : (Keys (Dict.insert d n v)).Nodup := by
  unfold Dict.insert
  split
  · exact h
  · rename_i hn
    have hn' : n ∉ Keys d := fun hm => hn ((get_isSome d n).mpr hm)
    unfold Keys at *
    rw [List.map_append, List.nodup_append]
    refine ⟨h, by simp, ?_⟩
    intro a ha b hb
    simp at hb
    rw [hb]
    rintro rfl
    exact hn' ha

theorem scan_keys (s : Sheet N V) (mark : Dict N V) (b : Bits) : ∀ (l : List Nat) (a : Scan N V), (Keys a.changed).Nodup →
    (Keys (l.foldl (scanCell s mark b) a).changed).Nodup
  | [], _, h => h
  | i :: l, a, h => by
      refine scan_keys s mark b l _ ?_
      unfold scanCell
      split
      · dsimp only
        split
        · exact insert_keys h _ _
        · split
          · exact insert_keys h _ _
          · split <;> exact h
      · exact h

theorem contributingSet_keys (s : Sheet N V) (mark : Dict N V) (b : Bits) : (Keys (contributingSet s mark b)).Nodup := by
  unfold contributingSet
  dsimp only
  have h := scan_keys s mark b (List.range s.size) ⟨[], [], false⟩ (by simp [Keys])
  generalize (List.range s.size).foldl (scanCell s mark b) ⟨[], [], false⟩ = a at h
  split
  · have : ∀ (l d : Dict N V), (Keys d).Nodup → (Keys (l.foldl (fun d e => Dict.insert d e.1 e.2) d)).Nodup := by
      intro l
      induction l with
      | nil => intro d hd; exact hd
      | cons e l ih => intro d hd; exact ih _ (insert_keys hd _ _)
    exact this _ _ h
  · exact h

theorem get_of_mem {d : Dict N V} (h : (Keys d).Nodup) {n : N} {v : V} (hm : (n, v) ∈ d) : Dict.get d n = some v := by
  induction d with
  | nil => cases hm
  | cons e d ih =>
      unfold Keys at *
      obtain ⟨h1, h2⟩ := List.nodup_cons.mp h
      unfold Dict.get at *
      rw [List.lookup_cons]
      rcases List.mem_cons.mp hm with rfl | hm
      · simp
      · have hne : n ≠ e.1 := by rintro rfl; exact h1 (List.mem_map_of_mem (f := (·.1)) hm)
        have : (n == e.1) = false := by simpa using hne
        rw [this]
        exact ih h2 hm

theorem mem_of_get {d : Dict N V} {n : N} {v : V} (h : Dict.get d n = some v) : (n, v) ∈ d := by
  induction d with
  | nil => cases h
  | cons e d ih =>
      unfold Dict.get at *
      rw [List.lookup_cons] at h
      by_cases hn : n = e.1
      · rw [hn] at h
        simp at h
        rw [hn, ← h]; simp
      · have : (n == e.1) = false := by simpa using hn
        rw [this] at h
        exact List.mem_cons_of_mem _ (ih h)

/-- Several values are set, in any order. -/
theorem setAll_ok : ∀ (l : List (N × V)) {s : Sheet N V}, Reachable s → (∀ e ∈ l, s.hasInput e.1 = true) → ∃ s', setAll l s = (.ok (), s') ∧ Reachable s' ∧
    Soft s s' ∧ s'.hasOutput = s.hasOutput ∧ (∀ i, (s'.cell i).linked = (s.cell i).linked) ∧
    (∀ i, (∀ e ∈ l, s.inputIndex.find e.1 ≠ some i) → s'.cell i = s.cell i) ∧
    (∀ i, (∃ e ∈ l, s.inputIndex.find e.1 = some i) → ∃ e ∈ l, s.inputIndex.find e.1 = some i ∧ (s'.cell i).state = e.2)
  | [], s, hs, _ => ⟨s, rfl, hs, Soft.refl s, rfl, fun _ => rfl, fun _ _ => rfl, by simp⟩
  | (n, v) :: l, s, hs, h => by
      obtain ⟨j, hj⟩ := Option.isSome_iff_exists.mp (h (n, v) (by simp))
      cases hset : set n v s with
      | mk r s1 =>
          have hr : r = .ok () := by
            unfold set at hset
            simp only [bind_gets, id, hj] at hset
            exact (Prod.mk.inj hset).1.symm
          subst hr
          obtain ⟨j', g1, g2, g3, g4, g5, g6, g7, g8, g9, g10, g11⟩ := set_ok hset
          rw [hj] at g1
          cases g1
          have hs1 := hs.set hset
          have hho : s1.hasOutput = s.hasOutput := by
            unfold set at hset
            simp only [bind_gets, id, hj] at hset
            have := (Prod.mk.inj hset).2
            rw [← this]
            dsimp only
            split <;> rfl
          obtain ⟨s', k1, k2, k3, k4, k5, k6, k7⟩ := setAll_ok l hs1 fun e he => by
            unfold Sheet.hasInput
            rw [g7]
            exact h e (by simp [he])
          refine ⟨s', ?_, k2, (set_soft hset).trans k3, k4.trans hho, fun i => ?_, fun i hi => ?_, fun i hi => ?_⟩
          · unfold setAll
            rw [bind_ok hset]
            exact k1
          · rw [k5]
            by_cases hij : i = j
            · rw [hij, g11]
            · rw [g4 i hij]
          · rw [k6 i fun e he => by rw [g7]; exact hi e (by simp [he])]
            refine g4 i ?_
            rintro rfl
            exact hi (n, v) (by simp) hj
          · by_cases hl : ∃ e ∈ l, s.inputIndex.find e.1 = some i
            · obtain ⟨e, he, hf, hst⟩ := k7 i (by simp only [g7]; exact hl)
              rw [g7] at hf
              exact ⟨e, by simp [he], hf, hst⟩
            · obtain ⟨e, he, hf⟩ := hi
              rcases List.mem_cons.mp he with rfl | he
              · refine ⟨(n, v), by simp, hf, ?_⟩
                rw [k6 i fun e he => by rw [g7]; exact fun hh => hl ⟨e, he, hh⟩]
                have : i = j := by rw [hj] at hf; exact (Option.some.inj hf).symm
                rw [this]; exact g2
              · exact absurd ⟨e, he, hf⟩ hl

/-- C116.  `set` with the result of `contributing()`, in whatever order the hash table has it, on an equivalent instance: it succeeds, each cell
which contributes gets the reported value, and nothing else changes (but the priorities of the cells which were set). -/
theorem C116_set_report {s' s2 : Sheet N V} (hs' : Reachable s') (hs2 : Reachable s2) (hin : s2.inputIndex = s'.inputIndex) {ord : List Nat}
    (ho : Enumerates s' ord) {l : List (N × V)} (hl : l.Perm (contributingOf s' ord [])) : ∃ s3, setAll l s2 = (.ok (), s3) ∧ Reachable s3 ∧ Soft s2 s3 ∧
      s3.hasOutput = s2.hasOutput ∧ (∀ i, (s3.cell i).linked = (s2.cell i).linked) ∧
      (∀ n k, Contributes s' n k → (s3.cell k).state = (s'.cell k).state) ∧
      (∀ i, (∀ n, ¬ Contributes s' n i) → s3.cell i = s2.cell i) := by
  have hkeys : (Keys (contributingOf s' ord [])).Nodup := contributingSet_keys _ _ _
  have hmem : ∀ e, e ∈ l ↔ Dict.get (contributingOf s' ord []) e.1 = some e.2 := by
    intro e
    rw [hl.mem_iff]
    exact ⟨fun h => get_of_mem hkeys h, fun h => mem_of_get h⟩
  have hmem' : ∀ e, e ∈ l ↔ ∃ k, Contributes s' e.1 k ∧ (s'.cell k).state = e.2 := by
    intro e; rw [hmem, C115_report_all hs' ho]
  obtain ⟨s3, h1, h2, h3, h4, h5, h6, h7⟩ := setAll_ok l hs2 (fun e he => by
    obtain ⟨k, hk, _⟩ := (hmem' e).mp he
    unfold Sheet.hasInput
    rw [hin, hk.1]; rfl)
  refine ⟨s3, h1, h2, h3, h4, h5, fun n k hk => ?_, fun i hi => h6 i fun e he hf => ?_⟩
  · obtain ⟨e, he, hf, hst⟩ := h7 k ⟨(n, (s'.cell k).state), (hmem' _).mpr ⟨k, hk, rfl⟩, by rw [hin]; exact hk.1⟩
    obtain ⟨k', hk', hst'⟩ := (hmem' e).mp he
    rw [hin, hk'.1] at hf
    cases hf
    rw [hst, hst']
  · obtain ⟨k, hk, _⟩ := (hmem' e).mp he
    rw [hin, hk.1] at hf
    cases hf
    exact hi _ hk

/-- C116.  The output is restored if the relations are directed in the same way in the equivalent instance, and if the update which
computed the output did not change the values of the contributing cells (it may do so for linked cells with an expression of their own). -/
theorem C116_restore_partial {s s' s2 s3 : Sheet N V} (hs : Reachable s) (hcond : CondOk (startUpdate s)) {srt : Sorter} (hsrt : SortOk srt) (hsen : Sensible srt s)
    {ord : List Nat} (ho : Enumerates s ord) {ev : List (Event N V)} (hu : update srt ord s = (.ok ev, s')) (hs2 : Reachable s2) (he : Equivalent s s2)
    {l : List (N × V)} (hl : l.Perm (contributingOf s' ord [])) (hset : setAll l s2 = (.ok (), s3))
    (hkeep : ∀ n k, Contributes s' n k → (s'.cell k).state = (s.cell k).state)
    (hcond3 : CondOk (startUpdate s3)) (hsen3 : Sensible srt s3) (hdir : ∀ i, ((settled srt s3).cell i).term = ((settled srt s).cell i).term) :
    OverConstrained srt s3 ∨ ∀ ord3, Enumerates s3 ord3 → ∃ ev3 s3', update srt ord3 s3 = (.ok ev3, s3') ∧
      ∀ o i, s.outputIndex.find o = some i → IsResult s' i → s3'.value o = s'.value o := by
  have hs' := hs.update ho hu
  have ho' : Enumerates s' ord := ⟨ho.1, fun i => by rw [ho.2, (C59_update_keeps_the_structure s srt ord hu).2.2.2.2.1]⟩
  have hin' : s'.inputIndex = s.inputIndex := (C59_update_keeps_the_structure s srt ord hu).2.2.2.1
  obtain ⟨s3', g1, hs3, hsoft, g4, g5, g6, g7⟩ := C116_set_report hs' hs2 (he.inputIndex.trans hin'.symm) ho' hl
  rw [hset] at g1
  cases g1
  rcases update_settled hs.good hs.proper hcond hsrt with ⟨h, -⟩ | ⟨ch, rk, -, -, -, -, -, hcomp⟩
  · obtain ⟨x, hx⟩ := h ord
    rw [hu] at hx; cases hx
  obtain ⟨ev', s'', hu', hU⟩ := hcomp ord ho hsen.defined hsen.boolean
  rw [hu] at hu'
  cases hu'
  rcases update_settled hs3.good hs3.proper hcond3 hsrt with ⟨h, -⟩ | ⟨ch3, rk3, -, -, -, -, -, hcomp3⟩
  · exact Or.inl h
  right
  intro ord3 ho3
  obtain ⟨ev3, s3', hu3, hU3⟩ := hcomp3 ord3 ho3 hsen3.defined hsen3.boolean
  refine ⟨ev3, s3', hu3, fun o i hoi hres => ?_⟩
  have hout3 : s3.outputIndex = s.outputIndex := hsoft.outputIndex.trans he.outputIndex
  have hoi3 : s3.outputIndex.find o = some i := by rw [hout3]; exact hoi
  have hw := hs.good.fit.wf
  have hEq : SameEqs (fun j => ¬ (outputBits s' ord).testBit j = true) (settled srt s) (settled srt s3) := by
    refine ⟨hsoft.nameIndex.trans he.nameIndex, fun i => ?_, fun i hi => ?_, fun n i j hni hij => ?_⟩
    · obtain ⟨a1, a2, a3, a4, a5⟩ := he.cell i
      obtain ⟨b1, b2, b3, b4, _⟩ := hsoft.cell i
      exact ⟨b1.trans a1, rfl, b3.trans a3, b4.trans a4, hdir i⟩
    · have hi : (s.cell i).spec = .input ∨ (s.cell i).spec = .constant := hi
      have hi2 : (s2.cell i).spec = .input ∨ (s2.cell i).spec = .constant := by rw [(he.cell i).1]; exact hi
      have hi3 : (s3.cell i).spec = .input ∨ (s3.cell i).spec = .constant := by rw [(hsoft.cell i).1]; exact hi2
      have hsame : s3.cell i = s2.cell i := g7 i fun n hc => by
        obtain ⟨_, q, _, hq⟩ := hc
        have := (hs'.bits.cell q i hq).2
        rw [struct_spec hU.struct] at this
        rcases hi with hi | hi <;> rw [hi] at this <;> cases this
      constructor
      · show (s3.cell i).state = (s.cell i).state
        rw [hsame]; exact he.base i hi
      · show (s3.cell i).contributing = (s.cell i).contributing
        rw [hs3.good.base i hi3, hs.good.base i hi]
    · have hni : s.nameIndex.find n = some i := hni
      have hij : (s.cell i).input = some j := hij
      have hsp := (input_spec hw hni hij).2
      have hsp3 : (s3.cell j).spec = .interfaceInput := by rw [(hsoft.cell j).1, (he.cell j).1]; exact hsp
      intro v b hv hb
      have hv1 : (s.cell j).state = v := congrArg Prod.fst (Option.some.inj hv)
      have hv2 : (s.cell j).contributing = b := congrArg Prod.snd (Option.some.inj hv)
      have hbit : (outputBits s' ord).testBit j = true := by
        by_contra hne
        have := hb j hne
        rw [← hv2, hs.good.own j hsp, single_testBit] at this
        simp at this
      have hfind : s'.inputIndex.find n = some j := by
        rw [hin']
        have hspi : (s.cell i).spec = .interfaceOutput := by
          by_contra hne
          rw [hw.noInput i hne] at hij; cases hij
        obtain ⟨j', q1, _, _, q4, _⟩ := hw.iface n i hni hspi
        rw [hij] at q1
        cases q1
        exact q4
      have hcon := (contributes_iff ho' n j).mp ⟨hfind, hbit⟩
      show some ((s3.cell j).state, (s3.cell j).contributing) = _
      rw [g6 n j hcon, hkeep n j hcon, hv1, hs3.good.own j hsp3, ← hs.good.own j hsp, hv2]
  obtain ⟨k, ⟨v, b⟩, hk⟩ := hsen.defined o i hoi
  obtain ⟨e1, e2⟩ := hU.value o i k v b hoi hk
  have hk3 := den_agree hEq k o v b hk fun j hj => by
    cases hb : b.testBit j with
    | false => rfl
    | true =>
        exfalso
        refine hj ((outputBits_bit s' ord j).mpr ⟨i, (ho'.2 i).mpr hres.1, hres.2, (e2 j).1 hb⟩)
  rw [output_value hs.good hU.struct hoi, output_value hs3.good hU3.struct hoi3, e1, (hU3.value o i k v b hoi3 hk3).1]

/-- Without relations an update is never over-constrained. -/
theorem prepare_plain {s : Sheet N V} (h : s.nrel = 0) (srt : Sorter) (hsrt : SortOk srt) : ∃ pa t, prepare srt s = (.ok pa, t) := by
  have h0 : (startUpdate s).nrel = 0 := h
  unfold prepare
  simp only [bind_modify, bind_gets, h0, List.range_zero]
  unfold conditionals
  simp only [bind_pure, bind_modify]
  unfold flow
  simp only [bind_gets, id]
  generalize hs0 : ({ startUpdate s with condContributing := (startUpdate s).accumulate } : Sheet N V) = s0
  have hz : s0.nrel = 0 := by rw [← hs0]; exact h0
  have hc : flowCells s0 = [] := by unfold flowCells; rw [hz]; rfl
  have hl : srt s0.priority (flowCells s0) = [] := by rw [hc]; exact List.Perm.eq_nil (hsrt s0.priority []).1
  rw [hl]
  have : flowLoop (flowBound s0) ([] : List Nat).reverse s0 = (.ok (), s0) := by
    cases flowBound s0 <;> rfl
  rw [bind_ok this]
  exact ⟨_, _, rfl⟩

/-- C116.  In particular the output of a sheet without relations is restored. -/
theorem C116_restore_without_relations_partial {s s' s2 s3 : Sheet N V} (hs : Reachable s) (hrel : s.nrel = 0) {srt : Sorter} (hsrt : SortOk srt)
    (hsen : Sensible srt s) {ord : List Nat} (ho : Enumerates s ord) {ev : List (Event N V)} (hu : update srt ord s = (.ok ev, s')) (hs2 : Reachable s2)
    (he : Equivalent s s2) {l : List (N × V)} (hl : l.Perm (contributingOf s' ord [])) (hset : setAll l s2 = (.ok (), s3))
    (hkeep : ∀ n k, Contributes s' n k → (s'.cell k).state = (s.cell k).state) (hsen3 : Sensible srt s3) :
    ∀ ord3, Enumerates s3 ord3 → ∃ ev3 s3', update srt ord3 s3 = (.ok ev3, s3') ∧
      ∀ o i, s.outputIndex.find o = some i → IsResult s' i → s3'.value o = s'.value o := by
  have hs' := hs.update ho hu
  have ho' : Enumerates s' ord := ⟨ho.1, fun i => by rw [ho.2, (C59_update_keeps_the_structure s srt ord hu).2.2.2.2.1]⟩
  have hin' : s'.inputIndex = s.inputIndex := (C59_update_keeps_the_structure s srt ord hu).2.2.2.1
  obtain ⟨s3', g1, hs3, hsoft, -⟩ := C116_set_report hs' hs2 (he.inputIndex.trans hin'.symm) ho' hl
  rw [hset] at g1
  cases g1
  have hrel3 : s3.nrel = 0 := by rw [hsoft.nrel, he.nrel, hrel]
  have hc : ∀ {t : Sheet N V}, t.nrel = 0 → CondOk (startUpdate t) := by
    intro t ht r hr
    have : (startUpdate t).nrel = 0 := ht
    omega
  have hnone : ∀ {t : Sheet N V}, Reachable t → t.nrel = 0 → ∀ i, ((settled srt t).cell i).term = none := by
    intro t ht hz i
    rcases update_settled ht.good ht.proper (hc hz) hsrt with ⟨-, x, hx⟩ | ⟨ch, rk, -, hD, -⟩
    · obtain ⟨pa, y, hy⟩ := prepare_plain hz srt hsrt
      rw [hx] at hy; cases hy
    · cases hterm : ((settled srt t).cell i).term with
      | none => rfl
      | some x =>
          obtain ⟨r, _, _, _, hr, _⟩ := hD.only i x hterm
          have := hr.1
          omega
  rcases C116_restore_partial hs (hc hrel) hsrt hsen ho hu hs2 he hl hset hkeep (hc hrel3) hsen3
    (fun i => by rw [hnone hs hrel, hnone hs3 hrel3]) with h | h
  · intro ord3 ho3
    rcases update_settled hs3.good hs3.proper (hc hrel3) hsrt with ⟨-, x, hx⟩ | ⟨_, _, -, -, -, -, -, hcomp⟩
    · obtain ⟨pa, y, hy⟩ := prepare_plain hrel3 srt hsrt
      rw [hx] at hy; cases hy
    · obtain ⟨ev3, y, hy, -⟩ := hcomp ord3 ho3 hsen3.defined hsen3.boolean
      obtain ⟨x, hx⟩ := h ord3
      rw [hy] at hx; cases hx
  · exact h

end Verif.Adam
