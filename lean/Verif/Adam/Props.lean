import Verif.Adam.Example
/-!
C51–C60: the property model engine.

`settled srt s` is the sheet with the relations directed; `rhs` (in `Spec`) is its system of equations.  `ord` is the order in which the
hash table goes through the output cells, and `srt` the sort of the standard library: the theorems hold for all of them.
-/
namespace Verif.Adam
variable {N V : Type} [DecidableEq N] [DecidableEq V] [Values V]

/-- `env` solves the equations of `d`. -/
def Solves (d : Sheet N V) (env : Env N V) : Prop := ∀ n, env n = rhs d env n

/-- The directed sheet makes sense: the output cells are defined without circularity nor exception, the invariants are booleans. -/
structure Sensible (srt : Sorter) (s : Sheet N V) : Prop where
  defined : ∀ n i, s.outputIndex.find n = some i → Defined (settled srt s) n
  boolean : ∀ n i k v b, s.nameIndex.find n = some i → (s.cell i).spec = .invariant → den (settled srt s) k n = some (v, b) → Values.asBool v ≠ none

/-- Whatever the order of the outputs, `update` throws "over constrained". -/
def OverConstrained (srt : Sorter) (s : Sheet N V) : Prop := ∀ ord, ∃ s', update srt ord s = (.error .overConstrained, s')

/-- A notification of a value of the cell. -/
def Event.isValue (i : Nat) : Event N V → Bool
  | .value j _ => j = i
  | _ => false

theorem output_value {s s' : Sheet N V} (hg : Good s) (h : s'.struct = s.struct) {n : N} {i : Nat} (hn : s.outputIndex.find n = some i) :
    s'.value n = some (s'.cell i).state := by
  have : s'.nameIndex = s.nameIndex := by have := congrArg Sheet.nameIndex h; exact this
  unfold Sheet.value
  rw [this, out_named hg.fit hn]
  rfl

/-- How to show that a concrete sheet is sensible. -/
theorem sensible_of {srt : Sorter} {s : Sheet N V} (k : Nat) (h1 : ∀ n, (s.outputIndex.find n).isSome = true → (den (settled srt s) k n).isSome = true)
    (h2 : ∀ n i, s.nameIndex.find n = some i → (s.cell i).spec = .invariant → ∃ w, den (settled srt s) k n = some w ∧ Values.asBool w.1 ≠ none) : Sensible srt s := by
  refine ⟨fun n i hn => ?_, fun n i k' v b hn hi hk' => ?_⟩
  · obtain ⟨w, hw⟩ := Option.isSome_iff_exists.mp (h1 n (by rw [hn]; rfl))
    exact ⟨k, w, hw⟩
  · obtain ⟨w, hw, hb⟩ := h2 n i hn hi
    have e1 := den_mono (settled srt s) (Nat.le_max_left k k') n w hw
    have e2 := den_mono (settled srt s) (Nat.le_max_right k k') n (v, b) hk'
    rw [e1] at e2
    cases e2
    exact hb

namespace Ex

/-! The example sheets meet the hypotheses of the theorems (`s9_reachable`, `s10_reachable` and `srt_ok` are in `Example`). -/

theorem cond9 : CondOk (startUpdate s9) := by
  intro r hr hc
  have hr : r < 2 := hr
  obtain rfl | rfl : r = 0 ∨ r = 1 := by omega
  · exact absurd rfl hc
  · exact ⟨false, .ask .f .ret, 1, .bool false, 0, rfl, by decide +kernel, rfl⟩
theorem cond10 : CondOk (startUpdate s10) := by
  intro r hr hc
  have hr : r < 2 := hr
  obtain rfl | rfl : r = 0 ∨ r = 1 := by omega
  · exact absurd rfl hc
  · exact ⟨true, .ask .f .ret, 1, .bool true, 0, rfl, by decide +kernel, rfl⟩

theorem inv9 : ∀ n i, s9.nameIndex.find n = some i → (s9.cell i).spec = .invariant → n = .e := by
  intro n i hn hi
  cases n <;> first | rfl | (exfalso; revert hi; cases hn; decide +kernel)
theorem sensible9 : Sensible srt s9 := by
  refine sensible_of 6 (fun n => by cases n <;> decide +kernel) (fun n i hn hi => ?_)
  rw [inv9 n i hn hi]
  exact ⟨(.bool true, 16), by decide +kernel, by decide⟩
theorem sensible10 : Sensible srt s10 := by
  refine sensible_of 6 (fun n => by cases n <;> decide +kernel) (fun n i hn hi => ?_)
  have : n = .e := inv9 n i hn (by
    cases n <;> first | (cases hn; exact hi) | cases hn)
  rw [this]
  exact ⟨(.bool true, 16), by decide +kernel, by decide⟩

theorem enum_of {s : S} {l : List Nat} (h1 : l.Nodup) (h2 : ∀ n, ∀ i ∈ s.outputIndex.find n, i ∈ l) (h3 : ∀ i ∈ l, s.outputIndex.find (s.cell i).name = some i) :
    Enumerates s l := ⟨h1, fun i => ⟨fun h => ⟨_, h3 i h⟩, fun ⟨n, h⟩ => h2 n i h⟩⟩
theorem enum9 : Enumerates s9 ord := enum_of (by decide) (fun n => by cases n <;> decide +kernel) (by decide +kernel)
theorem enum9' : Enumerates s9 ord' := enum_of (by decide) (fun n => by cases n <;> decide +kernel) (by decide +kernel)
theorem enum10 : Enumerates s10 ord := enum_of (by decide) (fun n => by cases n <;> decide +kernel) (by decide +kernel)

def ok {α β ε : Type} (x : Except ε α × β) : Bool := match x.1 with
  | .ok _ => true
  | .error _ => false
theorem not_over {s : S} {o : List Nat} (h : ok (update srt o s) = true) : ¬ OverConstrained srt s := by
  intro h'
  obtain ⟨s', h'⟩ := h' o
  rw [h'] at h
  cases h

theorem ok9 : ok (update srt ord s9) = true := by decide +kernel
theorem ok10 : ok (update srt ord s10) = true := by decide +kernel

/-- The values: `a = c - b`; when the conditional relation is on, `a = g / 2` and `b = c - a`. -/
example : vals (update srt ord s9).2 = [some (.num 5), some (.num 2), some (.num 7), some (.num 70), some (.bool true), some (.bool false), some (.num 50)] := by
  decide +kernel
example : vals (update srt ord s10).2 = [some (.num 25), some (.num (-18)), some (.num 7), some (.num 70), some (.bool true), some (.bool true), some (.num 50)] := by
  decide +kernel

end Ex

/-- C51.  `update` computes the solution: unless the relations over-constrain the cells, if the directed sheet makes sense then `update`
returns, and afterwards each output and interface cell has the value it has in every solution of the equations. -/
theorem C51_update_computes_the_solution {s : Sheet N V} (hs : Reachable s) (hcond : CondOk (startUpdate s)) {srt : Sorter} (hsrt : SortOk srt) :
    OverConstrained srt s ∨ ∀ ord, Enumerates s ord → Sensible srt s → ∃ ev s', update srt ord s = (.ok ev, s') ∧
      ∀ n, s.hasOutputCell n = true → ∃ v, s'.value n = some v ∧ ∀ env, Solves (settled srt s) env → ∃ b, env n = some (v, b) := by
  rcases update_settled hs.good hs.proper hcond hsrt with h | ⟨ch, rk, -, -, -, -, -, hc⟩
  · exact Or.inl h.1
  · right
    intro ord hord hsen
    obtain ⟨ev, s', hu, hU⟩ := hc ord hord hsen.defined hsen.boolean
    refine ⟨ev, s', hu, fun n hn => ?_⟩
    obtain ⟨i, hi⟩ := Option.isSome_iff_exists.mp hn
    obtain ⟨k, ⟨v, b⟩, hk⟩ := hsen.defined n i hi
    refine ⟨v, by rw [output_value hs.good hU.struct hi, (hU.value n i k v b hi hk).1], fun env henv => ⟨b, ?_⟩⟩
    exact den_le_solution (settled srt s) env (fun m w hw => by rw [henv m]; exact hw) k n (v, b) hk

example : ∃ ev s', update Ex.srt Ex.ord Ex.s10 = (.ok ev, s') ∧
    ∀ n, Ex.s10.hasOutputCell n = true → ∃ v, s'.value n = some v ∧ ∀ env, Solves (settled Ex.srt Ex.s10) env → ∃ b, env n = some (v, b) :=
  ((C51_update_computes_the_solution Ex.s10_reachable Ex.cond10 Ex.srt_ok).resolve_left (Ex.not_over Ex.ok10)) Ex.ord Ex.enum10 Ex.sensible10

/-- C51.  The cells which are not computed keep their values, and linked interface cells remember the computed value. -/
theorem C51_inputs_are_kept {s : Sheet N V} (hs : Reachable s) (hcond : CondOk (startUpdate s)) {srt : Sorter} (hsrt : SortOk srt) :
    OverConstrained srt s ∨ ∀ ord, Enumerates s ord → Sensible srt s → ∃ ev s', update srt ord s = (.ok ev, s') ∧
      (∀ n i, s.nameIndex.find n = some i → ((s.cell i).spec = .input ∨ (s.cell i).spec = .constant) → s'.value n = s.value n) ∧
      ∀ n i j, s.nameIndex.find n = some i → (s.cell i).input = some j →
        (s'.cell j).state = if (s.cell j).linked then (s'.cell i).state else (s.cell j).state := by
  rcases update_settled hs.good hs.proper hcond hsrt with h | ⟨ch, rk, -, -, -, -, -, hc⟩
  · exact Or.inl h.1
  · right
    intro ord hord hsen
    obtain ⟨ev, s', hu, hU⟩ := hc ord hord hsen.defined hsen.boolean
    refine ⟨ev, s', hu, fun n i hn hi => ?_, hU.linked⟩
    have : s'.nameIndex = s.nameIndex := by have := congrArg Sheet.nameIndex hU.struct; exact this
    unfold Sheet.value
    rw [this, hn]
    exact congrArg some (hU.base i hi).1

/-- C52.  The relations are directed: `update` either throws "over constrained" or chooses exactly one term `ch r` of each active relation;
a derived cell carries the expression of the chosen term it belongs to, and no cell is derived otherwise.  The choice follows the
priorities: each of the other terms has a cell which precedes (`rk`) the cells of the chosen term, and which is itself derived or has a priority at
least as high. -/
theorem C52_one_term_per_relation {s : Sheet N V} (hs : Reachable s) (hcond : CondOk (startUpdate s)) {srt : Sorter} (hsrt : SortOk srt) :
    OverConstrained srt s ∨ ∃ ch rk : Nat → Nat,
      (∀ r, Active s r → ∃ t, (s.rel r).terms[ch r]? = some t ∧
        (∀ p n i, t.names[p]? = some n → s.outputIndex.find n = some i → ((settled srt s).cell i).term = some (termAt t p)) ∧
        ∀ k' t', k' ≠ ch r → (s.rel r).terms[k']? = some t' →
          ∃ n ∈ t'.names, ∃ i, s.outputIndex.find n = some i ∧ ∀ n' ∈ t.names, ∀ o, s.outputIndex.find n' = some o →
            rk i < rk o ∧ (((settled srt s).cell i).term.isSome = true ∨ s.priority o ≤ s.priority i)) ∧
      (∀ i x, ((settled srt s).cell i).term = some x → ∃ r t p n, Active s r ∧ (s.rel r).terms[ch r]? = some t ∧ t.names[p]? = some n ∧
        s.outputIndex.find n = some i ∧ x = termAt t p) := by
  rcases update_settled hs.good hs.proper hcond hsrt with h | ⟨ch, rk, -, hd, hrk, -, -, -⟩
  · exact Or.inl h.1
  · right
    refine ⟨ch, rk, fun r hr => ?_, hd.only⟩
    obtain ⟨t, h1, h2⟩ := hd.applied r hr
    exact ⟨t, h1, h2, fun k' t' hk ht => hrk r t hr h1 k' t' hk ht⟩

/-- In the example both relations are active and each has one term applied: `a` and `b` are derived. -/
example : ((settled Ex.srt Ex.s10).cell 1).term.isSome = true ∧ ((settled Ex.srt Ex.s10).cell 3).term.isSome = true ∧
    ((settled Ex.srt Ex.s10).cell 5).term.isSome = false ∧ ((settled Ex.srt Ex.s10).cell 10).term.isSome = false := by decide +kernel
example : Active Ex.s10 0 ∧ Active Ex.s10 1 ∧ ¬ Active Ex.s9 1 := by
  refine ⟨⟨by decide +kernel, ?_⟩, ⟨by decide +kernel, ?_⟩, fun h => h.2 ⟨.ask .f .ret, 1, .bool false, 0, rfl, by decide +kernel, rfl⟩⟩
  · rintro ⟨p, L, v, b, h, -⟩
    cases h
  · rintro ⟨p, L, v, b, h1, h2, h3⟩
    cases h1
    have := peval_det h2 (show Prog.eval none (den (startUpdate Ex.s10) 1) none none (.ask Ex.Nm.f .ret) = some (Ex.Vl.bool true, 0) by decide +kernel)
    cases this
    cases h3

/-- C53.  The result does not depend on the order in which the hash table goes through the cells. -/
theorem C53_order_does_not_matter {s : Sheet N V} (hs : Reachable s) (hcond : CondOk (startUpdate s)) {srt : Sorter} (hsrt : SortOk srt)
    {ord ord' : List Nat} (ho : Enumerates s ord) (ho' : Enumerates s ord') (hsen : Sensible srt s) :
    (OverConstrained srt s) ∨ ∃ ev s1 ev' s1', update srt ord s = (.ok ev, s1) ∧ update srt ord' s = (.ok ev', s1') ∧
      (∀ n i, s.nameIndex.find n = some i → (s.cell i).spec ≠ .logic → s1.value n = s1'.value n) ∧
      (∀ n i j, s.nameIndex.find n = some i → (s.cell i).input = some j → (s1.cell j).state = (s1'.cell j).state) ∧
      s1.priorityAccessed = s1'.priorityAccessed := by
  rcases update_settled hs.good hs.proper hcond hsrt with h | ⟨ch, rk, -, -, -, -, -, hc⟩
  · exact Or.inl h.1
  · right
    obtain ⟨ev, s1, hu, hU⟩ := hc ord ho hsen.defined hsen.boolean
    obtain ⟨ev', s1', hu', hU'⟩ := hc ord' ho' hsen.defined hsen.boolean
    have hn1 : s1.nameIndex = s.nameIndex := by have := congrArg Sheet.nameIndex hU.struct; exact this
    have hn1' : s1'.nameIndex = s.nameIndex := by have := congrArg Sheet.nameIndex hU'.struct; exact this
    have hwf := hs.good.fit.wf
    have hout : ∀ n i, s.outputIndex.find n = some i → (s1.cell i).state = (s1'.cell i).state := by
      intro n i hi
      obtain ⟨k, ⟨v, b⟩, hk⟩ := hsen.defined n i hi
      rw [(hU.value n i k v b hi hk).1, (hU'.value n i k v b hi hk).1]
    refine ⟨ev, s1, ev', s1', hu, hu', fun n i hn hl => ?_, fun n i j hn hj => ?_, ?_⟩
    · unfold Sheet.value
      rw [hn1, hn1', hn]
      refine congrArg some ?_
      show (s1.cell i).state = (s1'.cell i).state
      have hsp := hwf.spec n i hn
      cases hk : (s.cell i).spec with
      | input => rw [(hU.base i (Or.inl hk)).1, (hU'.base i (Or.inl hk)).1]
      | constant => rw [(hU.base i (Or.inr hk)).1, (hU'.base i (Or.inr hk)).1]
      | interfaceInput => exact absurd hk hsp
      | logic => exact absurd hk hl
      | output => exact hout n i ((hwf.output n i).mpr ⟨hn, Or.inl hk⟩)
      | interfaceOutput => exact hout n i ((hwf.output n i).mpr ⟨hn, Or.inr (Or.inl hk)⟩)
      | invariant => exact hout n i ((hwf.output n i).mpr ⟨hn, Or.inr (Or.inr hk)⟩)
    · rw [hU.linked n i j hn hj, hU'.linked n i j hn hj]
      have := hout n i ((hwf.output n i).mpr ⟨hn, Or.inr (Or.inl (input_spec hwf hn hj).1)⟩)
      rw [this]
    · apply Nat.eq_of_testBit_eq
      intro k
      rw [Bool.eq_iff_iff, hU.pa, hU'.pa]

example : (update Ex.srt Ex.ord Ex.s9).2.value .a = (update Ex.srt Ex.ord' Ex.s9).2.value .a := by
  rcases C53_order_does_not_matter Ex.s9_reachable Ex.cond9 Ex.srt_ok Ex.enum9 Ex.enum9' Ex.sensible9 with h | ⟨ev, s1, ev', s1', h1, h2, h3, -⟩
  · exact absurd h (Ex.not_over Ex.ok9)
  · rw [h1, h2]; exact h3 .a 1 (by decide +kernel) (by decide +kernel)

/-- C53 needs the definitions not to be circular: `update` does not report a circle which goes through a logic cell, and the values
it gives depend on the order, although the equations have no solution. -/
theorem C53_circular_definitions_violated : ∃ s : Sheet Ex.Nm Ex.Vl, Reachable s ∧ CondOk (startUpdate s) ∧ ∃ ord ord', Enumerates s ord ∧ Enumerates s ord' ∧
    ∃ ev s1 ev' s1', update Ex.srt ord s = (.ok ev, s1) ∧ update Ex.srt ord' s = (.ok ev', s1') ∧ s1.value .c ≠ s1'.value .c ∧
      ∀ env v b, Solves (settled Ex.srt s) env → env .c ≠ some (v, b) := by
  have h1 : Ex.ok (update Ex.srt [1, 3] Ex.w3) = true := by decide +kernel
  have h2 : Ex.ok (update Ex.srt [3, 1] Ex.w3) = true := by decide +kernel
  have hv : (update Ex.srt [1, 3] Ex.w3).2.value .c = some (.num 6) ∧ (update Ex.srt [3, 1] Ex.w3).2.value .c = some (.num 7) := by decide +kernel
  refine ⟨Ex.w3, Ex.w3_reachable, fun r hr => absurd hr (by have : Ex.w3.nrel = 0 := by decide +kernel
                                                            show ¬ r < Ex.w3.nrel; omega), [1, 3], [3, 1],
    Ex.enum_of (by decide) (fun n => by cases n <;> decide +kernel) (by decide +kernel),
    Ex.enum_of (by decide) (fun n => by cases n <;> decide +kernel) (by decide +kernel), ?_⟩
  cases e1 : update Ex.srt [1, 3] Ex.w3 with
  | mk r1 s1 =>
    cases e2 : update Ex.srt [3, 1] Ex.w3 with
    | mk r2 s2 =>
      rw [e1, e2] at hv
      rw [e1] at h1
      rw [e2] at h2
      cases r1 with
      | error e => cases h1
      | ok ev =>
        cases r2 with
        | error e => cases h2
        | ok ev' =>
          refine ⟨ev, s1, ev', s2, rfl, rfl, by rw [hv.1, hv.2]; decide, fun env v b he hc => ?_⟩
          have ha := he .a
          have hb := he .b
          have hcc := he .c
          have ra : rhs (settled Ex.srt Ex.w3) env .a = Prog.eval (some .a) env (some (.num 5, 1)) (some (.num 5, 1)) (.ask .b .ret) := rfl
          have rb : rhs (settled Ex.srt Ex.w3) env .b = Prog.eval none env none none (Ex.lift1 (fun i => .num (i + 1)) .a) := rfl
          have rc : rhs (settled Ex.srt Ex.w3) env .c = Prog.eval none env none none (.ask .b .ret) := rfl
          rw [ra] at ha; rw [rb] at hb; rw [rc] at hcc
          simp only [Prog.eval, Ex.lift1] at ha hb hcc
          cases hbv : env .b with
          | none => rw [hbv] at hcc; rw [hc] at hcc; cases hcc
          | some w =>
              rw [hbv] at ha hb
              simp at ha
              rw [ha] at hb
              obtain ⟨x, y⟩ := w
              cases x <;> simp [Prog.eval] at hb
              omega

/-- C54.  The value which was set last is kept: after `set n v`, an update gives the interface cell `n` (one without expression) the value `v`,
whatever the relations and the history. -/
theorem C54_last_set_wins {s s1 : Sheet N V} (hs : Reachable s) {n : N} {v : V} (hset : set n v s = (.ok (), s1)) {i : Nat}
    (hn : s.nameIndex.find n = some i) (hi : (s.cell i).spec = .interfaceOutput) (hself : (s.cell i).calculator = .self)
    (hcond : CondOk (startUpdate s1)) {srt : Sorter} (hsrt : SortOk srt) :
    OverConstrained srt s1 ∨ ∀ ord, Enumerates s1 ord → Sensible srt s1 → ∃ ev s', update srt ord s1 = (.ok ev, s') ∧ s'.value n = some v := by
  have hs1 : Reachable s1 := hs.set hset
  rcases set_top hs hset hn hi hcond hsrt with h | ⟨hterm, hc⟩
  · exact Or.inl h.1
  · right
    intro ord hord hsen
    obtain ⟨ev, s', hu, hU⟩ := hc ord hord hsen.defined hsen.boolean
    refine ⟨ev, s', hu, ?_⟩
    obtain ⟨j, h1, h2, h3, h4, h5, h6, h7, h8, h9, h10, h11⟩ := set_ok hset
    have hwf := hs.good.fit.wf
    obtain ⟨j', hj', hjlt, hjsp, hji, hjn⟩ := hwf.iface n i hn hi
    rw [h1] at hji
    cases hji
    have hij : i ≠ j := by rintro rfl; rw [hi] at hjsp; cases hjsp
    have ho : s.outputIndex.find n = some i := (hwf.output n i).mpr ⟨hn, Or.inr (Or.inl hi)⟩
    have ho1 : s1.outputIndex.find n = some i := by rw [h6]; exact ho
    have hden : den (settled srt s1) 1 n = some (v, (s1.cell j).contributing) := by
      have hnd : (settled srt s1).nameIndex.find n = some i := by show s1.nameIndex.find n = some i; rw [h5]; exact hn
      show rhs (settled srt s1) _ n = _
      have hsp : ((settled srt s1).cell i).spec = .interfaceOutput := by show (s1.cell i).spec = _; rw [h4 i hij]; exact hi
      have hcalc : ((settled srt s1).cell i).calculator = .self := by show (s1.cell i).calculator = _; rw [h4 i hij]; exact hself
      have hinp : ((settled srt s1).cell i).input = some j := by show (s1.cell i).input = _; rw [h4 i hij]; exact hj'
      have hcnt : ((settled srt s1).cell i).count = 0 := rfl
      have hjs : ((settled srt s1).cell j).state = v := h2
      have hjc : ((settled srt s1).cell j).contributing = (s1.cell j).contributing := rfl
      unfold rhs
      rw [hnd]
      dsimp only
      rw [hsp, hcalc, hinp, hterm, hcnt]
      simp only [reduceCtorEq, or_self, if_false, ne_eq, not_true_eq_false, firstRef, hjs, hjc]
    rw [output_value hs1.good hU.struct ho1, (hU.value n i 1 v _ ho1 hden).1]

/-- In the example `set f …` is followed by `set b 100`: then `b` is kept and `c` is derived. -/
example : ∃ s1, set .b (.num 100) Ex.s9 = (.ok (), s1) ∧ (s1.cell 3).spec = .interfaceOutput ∧ (update Ex.srt Ex.ord s1).2.value .b = some (.num 100) ∧
    (update Ex.srt Ex.ord s1).2.value .a = some (.num (-93)) :=
  ⟨Ex.run (set .b (.num 100)) Ex.s9, Ex.run_ok (by decide +kernel), by decide +kernel, by decide +kernel, by decide +kernel⟩

/-- C55.  `touch` changes nothing but priorities: those of the touched cells become higher than all the others, in the same order as before. -/
theorem C55_touch {s : Sheet N V} (hs : Reachable s) (ns : List N) {srt : Sorter} (hsrt : SortOk srt) :
    ∃ s', touch srt ns s = (.ok (), s') ∧
      (∃ p : Nat → Int, s' = { s with priorityHigh := s'.priorityHigh, cell := fun i => { s.cell i with priority := p i } }) ∧
      (∀ i, (∀ n ∈ ns, s.inputIndex.find n ≠ some i) → (s'.cell i).priority = (s.cell i).priority) ∧
      (∀ n ∈ ns, ∀ i, s.inputIndex.find n = some i → ∀ j, (∀ m ∈ ns, s.inputIndex.find m ≠ some j) → (s'.cell j).priority < (s'.cell i).priority) ∧
      ∀ n ∈ ns, ∀ i, s.inputIndex.find n = some i → ∀ m ∈ ns, ∀ j, s.inputIndex.find m = some j →
        (s.cell i).priority < (s.cell j).priority → (s'.cell i).priority < (s'.cell j).priority := by
  obtain ⟨hp, hpw⟩ := hsrt (fun i => (s.cell i).priority) (ns.filterMap s.inputIndex.find)
  obtain ⟨s', h1, h2, h3, h4, h5, h6⟩ := raiseAll_ok (srt (fun i => (s.cell i).priority) (ns.filterMap s.inputIndex.find)) s
  have hmem : ∀ i, i ∈ srt (fun i => (s.cell i).priority) (ns.filterMap s.inputIndex.find) ↔ ∃ n ∈ ns, s.inputIndex.find n = some i := by
    intro i; rw [hp.mem_iff, List.mem_filterMap]
  refine ⟨s', ?_, h3, fun i hi => ?_, fun n hn i hi j hj => ?_, fun n hn i hi m hm j hj hij => ?_⟩
  · unfold touch
    simp only [bind_gets, id]
    exact h1
  · exact h4 i fun h => by obtain ⟨n, hn, h⟩ := (hmem i).mp h; exact hi n hn h
  · have a := (h5 i ((hmem i).mpr ⟨n, hn, hi⟩)).1
    have b := h4 j fun h => by obtain ⟨n, hn, h⟩ := (hmem j).mp h; exact hj n hn h
    have c := hs.good.fit.prio.le j
    omega
  · exact h6 _ hpw i ((hmem i).mpr ⟨n, hn, hi⟩) j ((hmem j).mpr ⟨m, hm, hj⟩) hij

example : ((Ex.run (touch Ex.srt [.b, .a]) Ex.s9).cell 0).priority = 5 ∧ ((Ex.run (touch Ex.srt [.b, .a]) Ex.s9).cell 2).priority = 6 ∧
    (Ex.s9.cell 0).priority = 1 ∧ (Ex.s9.cell 2).priority = 2 := by decide +kernel

/-- C56.  Notifications: each update tells the monitors of each output cell its new value if and only if it is not the old one, its new
invariant flag if and only if that changed, its contributors, and nothing else; then the sets of enabled cells. -/
theorem C56_notifications {s : Sheet N V} (hs : Reachable s) (hcond : CondOk (startUpdate s)) {srt : Sorter} (hsrt : SortOk srt) :
    OverConstrained srt s ∨ ∀ ord, Enumerates s ord → Sensible srt s → ∃ ev s', update srt ord s = (.ok ev, s') ∧
      (∀ i v, Event.value i v ∈ ev ↔ (∃ n, s.outputIndex.find n = some i) ∧ v = (s'.cell i).state ∧ (s'.cell i).state ≠ (s.cell i).state) ∧
      (∀ i b, Event.invariant i b ∈ ev ↔ (∃ n, s.outputIndex.find n = some i) ∧ b = (s'.cell i).invariant ∧ (s'.cell i).invariant ≠ (s.cell i).invariant) ∧
      (∀ i b, Event.contributing i b ∈ ev ↔ (∃ n, s.outputIndex.find n = some i) ∧ b = (s'.cell i).contributing) ∧
      (∀ i, (ev.filter (Event.isValue i)).length ≤ 1) ∧
      ∃ ev', ev = ev' ++ [.enabled s'.priorityAccessed s'.active] ∧ ∀ p a, Event.enabled p a ∉ ev' := by
  rcases update_settled hs.good hs.proper hcond hsrt with h | ⟨ch, rk, -, -, -, -, -, hc⟩
  · exact Or.inl h.1
  · right
    intro ord hord hsen
    obtain ⟨ev, s', hu, hU⟩ := hc ord hord hsen.defined hsen.boolean
    have hE := hU.events
    have hcell : ∀ (e : Event N V) i, e ∈ cellEvents s s' i ↔
        (e = .invariant i (s'.cell i).invariant ∧ (s'.cell i).invariant ≠ (s.cell i).invariant) ∨
        (e = .value i (s'.cell i).state ∧ (s'.cell i).state ≠ (s.cell i).state) ∨ e = .contributing i (s'.cell i).contributing := by
      intro e i
      unfold cellEvents
      simp only [List.mem_append, List.mem_singleton]
      rw [or_assoc]
      refine or_congr ?_ (or_congr ?_ Iff.rfl)
      · split <;> simp_all
      · split <;> simp_all
    have hmem : ∀ e, e ∈ ev ↔ (∃ i ∈ ord, e ∈ cellEvents s s' i) ∨ e = .enabled s'.priorityAccessed s'.active := by
      intro e; rw [hE]; simp [List.mem_flatMap]
    refine ⟨ev, s', hu, fun i v => ?_, fun i b => ?_, fun i b => ?_, fun i => ?_, ord.flatMap (cellEvents s s'), hE, fun p a h => ?_⟩
    · rw [hmem]
      simp only [hcell, reduceCtorEq, false_and, false_or, or_false, Event.value.injEq]
      constructor
      · rintro ⟨j, hj, ⟨rfl, rfl⟩, h⟩; exact ⟨(hord.2 i).mp hj, rfl, h⟩
      · rintro ⟨hi, rfl, h⟩; exact ⟨i, (hord.2 i).mpr hi, ⟨rfl, rfl⟩, h⟩
    · rw [hmem]
      simp only [hcell, reduceCtorEq, false_and, or_false, Event.invariant.injEq]
      constructor
      · rintro ⟨j, hj, ⟨rfl, rfl⟩, h⟩; exact ⟨(hord.2 i).mp hj, rfl, h⟩
      · rintro ⟨hi, rfl, h⟩; exact ⟨i, (hord.2 i).mpr hi, ⟨rfl, rfl⟩, h⟩
    · rw [hmem]
      simp only [hcell, reduceCtorEq, false_and, false_or, or_false, Event.contributing.injEq]
      constructor
      · rintro ⟨j, hj, rfl, rfl⟩; exact ⟨(hord.2 i).mp hj, rfl⟩
      · rintro ⟨hi, rfl⟩; exact ⟨i, (hord.2 i).mpr hi, rfl, rfl⟩
    · have hone : ∀ j, ((cellEvents s s' j).filter (Event.isValue i)).length ≤ if j = i then 1 else 0 := by
        intro j
        unfold cellEvents
        by_cases hji : j = i
        · subst hji
          split <;> split <;> simp [Event.isValue]
        · split <;> split <;> simp [Event.isValue, hji]
      have hgen : ∀ l : List Nat, ((l.flatMap (cellEvents s s')).filter (Event.isValue i)).length ≤ l.count i := by
        intro l
        induction l with
        | nil => simp
        | cons j l ih =>
            rw [List.flatMap_cons, List.filter_append, List.length_append, List.count_cons]
            have h1 := hone j
            by_cases hji : j = i
            · rw [if_pos hji] at h1; rw [if_pos (by simpa using hji)]; omega
            · rw [if_neg hji] at h1; rw [if_neg (by simpa using hji)]; omega
      rw [hE, List.filter_append, List.length_append]
      have := Nat.le_trans (hgen ord) (List.nodup_iff_count_le_one.mp hord.1 i)
      have h0 : ([Event.enabled s'.priorityAccessed s'.active].filter (Event.isValue i : Event N V → Bool)).length = 0 := rfl
      omega
    · obtain ⟨i, hi, h⟩ := List.mem_flatMap.mp h
      rw [hcell] at h
      simp at h

/-- C57.  The contributors are complete: let only the values of interface cells change (not the priorities, so that the user has changed values in
the same order), and let no conditional read them; then the relations are directed in the same way and each output cell which has none of the
changed cells among its contributors has the same value. -/
theorem C57_contributors_are_complete {s : Sheet N V} (hs : Reachable s) (hcond : CondOk (startUpdate s)) {srt : Sorter} (hsrt : SortOk srt) {f : Nat → V}
    (hf : ∀ i, ((s.cell i).spec = .input ∨ (s.cell i).spec = .constant) → f i = (s.cell i).state) (hc : CondFree f s)
    {ord ord' : List Nat} (ho : Enumerates s ord) (ho' : Enumerates s ord') (hsen : Sensible srt s) (hsen' : Sensible srt (reval f s)) :
    (OverConstrained srt s ∧ OverConstrained srt (reval f s)) ∨ ∃ ev s1 ev' s1', update srt ord s = (.ok ev, s1) ∧
      update srt ord' (reval f s) = (.ok ev', s1') ∧
      ∀ n b, s1.contributingTo n = some b → (∀ j, Changed f s j → b.testBit j = false) → s1'.value n = s1.value n := by
  have hg := hs.good
  have hg' := reval_good hg f
  have hP' := reval_proper hs.proper f
  have hcond' := condOk_agree hg hf hc hcond
  obtain ⟨q1, q2, q3⟩ := settled_indep (srt := srt) hg hcond hf hc
  rcases update_settled hg hs.proper hcond hsrt with ⟨h, s', hp⟩ | ⟨ch, rk, ⟨pa, hpa⟩, -, -, -, -, hcomp⟩
  · rcases update_settled hg' hP' hcond' hsrt with ⟨h', -⟩ | ⟨ch', rk', ⟨pa', hpa'⟩, -⟩
    · exact Or.inl ⟨h, h'⟩
    · rw [hp, hpa'] at q1; cases q1
  · rcases update_settled hg' hP' hcond' hsrt with ⟨h', s', hp'⟩ | ⟨ch', rk', -, -, -, -, -, hcomp'⟩
    · rw [hpa, hp'] at q1; cases q1
    · right
      obtain ⟨ev, s1, hu, hU⟩ := hcomp ord ho hsen.defined hsen.boolean
      obtain ⟨ev', s1', hu', hU'⟩ := hcomp' ord' ho' hsen'.defined hsen'.boolean
      refine ⟨ev, s1, ev', s1', hu, hu', fun n b hb hch => ?_⟩
      have ho1 : s1.outputIndex = s.outputIndex := by have := congrArg Sheet.outputIndex hU.struct; exact this
      unfold Sheet.contributingTo at hb
      rw [ho1] at hb
      obtain ⟨i, hi, hib⟩ := Option.map_eq_some_iff.mp hb
      obtain ⟨k, ⟨v, b0⟩, hk⟩ := hsen.defined n i hi
      obtain ⟨e1, e2⟩ := hU.value n i k v b0 hi hk
      have hk' := q3 n k v b0 hk fun j hj => by
        have h1 := (e2 j).1
        rw [hib] at h1
        have h2 := hch j hj
        cases hb0 : b0.testBit j with
        | false => rfl
        | true => rw [h1 hb0] at h2; cases h2
      have hi' : (reval f s).outputIndex.find n = some i := hi
      rw [output_value hg hU.struct hi, output_value hg' hU'.struct hi', e1, (hU'.value n i k v b0 hi' hk').1]

/-- In the example only the value of `g` changes: it contributes neither to `a` nor to `d` while the conditional relation is off. -/
example : ∃ ev s1 ev' s1', update Ex.srt Ex.ord Ex.s9 = (.ok ev, s1) ∧
    update Ex.srt Ex.ord (reval (fun i => if i = 9 then .num 99 else (Ex.s9.cell i).state) Ex.s9) = (.ok ev', s1') ∧ s1'.value .a = s1.value .a := by
  have hch : ∀ j, Changed (fun i => if i = 9 then .num 99 else (Ex.s9.cell i).state) Ex.s9 j → j = 9 := by
    intro j hj
    by_contra h
    exact hj.2 (if_neg h)
  have hr : Ex.ok (update Ex.srt Ex.ord (reval (fun i => if i = 9 then .num 99 else (Ex.s9.cell i).state) Ex.s9)) = true := by decide +kernel
  rcases C57_contributors_are_complete Ex.s9_reachable Ex.cond9 Ex.srt_ok (f := fun i => if i = 9 then .num 99 else (Ex.s9.cell i).state)
    (fun i hi => by
      by_cases h : i = 9
      · subst h; revert hi; decide +kernel
      · exact if_neg h)
    (by
      intro r p L v b hr hp he j hj
      have hr : r < 2 := hr
      obtain rfl | rfl : r = 0 ∨ r = 1 := by omega
      · cases hp
      · cases hp
        have := peval_det he (show Prog.eval none (den (startUpdate Ex.s9) 1) none none (.ask Ex.Nm.f .ret) = some (Ex.Vl.bool false, 0) by decide +kernel)
        cases this
        simp)
    Ex.enum9 Ex.enum9 Ex.sensible9
    (by
      refine sensible_of 6 (fun n => by cases n <;> decide +kernel) (fun n i hn hi => ?_)
      have : n = .e := Ex.inv9 n i hn hi
      rw [this]
      exact ⟨(.bool true, 16), by decide +kernel, by decide⟩) with ⟨h, -⟩ | ⟨ev, s1, ev', s1', h1, h2, h3⟩
  · exact absurd h (Ex.not_over Ex.ok9)
  · refine ⟨ev, s1, ev', s1', h1, h2, h3 .a 20 ?_ ?_⟩
    · have : (update Ex.srt Ex.ord Ex.s9).2.contributingTo .a = some 20 := by decide +kernel
      rw [h1] at this; exact this
    · intro j hj
      rw [hch j hj]; decide

/-- C57.  The contributors are not too many: beyond the cells read while computing the value of the cell, they are only cells read while computing the
conditionals; and the set contains all the cells read. -/
theorem C57_contributors_are_read {s : Sheet N V} (hs : Reachable s) (hcond : CondOk (startUpdate s)) {srt : Sorter} (hsrt : SortOk srt) :
    OverConstrained srt s ∨ ∀ ord, Enumerates s ord → Sensible srt s → ∃ ev s', update srt ord s = (.ok ev, s') ∧
      ∀ n k v b, s.hasOutputCell n = true → den (settled srt s) k n = some (v, b) → ∃ x, s'.contributingTo n = some x ∧
        ∀ j, (b.testBit j = true → x.testBit j = true) ∧ (x.testBit j = true → b.testBit j = true ∨ (settled srt s).condContributing.testBit j = true) := by
  rcases update_settled hs.good hs.proper hcond hsrt with h | ⟨ch, rk, -, -, -, -, -, hc⟩
  · exact Or.inl h.1
  · right
    intro ord hord hsen
    obtain ⟨ev, s', hu, hU⟩ := hc ord hord hsen.defined hsen.boolean
    refine ⟨ev, s', hu, fun n k v b hn hk => ?_⟩
    obtain ⟨i, hi⟩ := Option.isSome_iff_exists.mp hn
    have ho1 : s'.outputIndex = s.outputIndex := by have := congrArg Sheet.outputIndex hU.struct; exact this
    refine ⟨(s'.cell i).contributing, ?_, (hU.value n i k v b hi hk).2⟩
    unfold Sheet.contributingTo
    rw [ho1, hi]
    rfl

/-- C58.  Invariants: after an update the flag of an output cell is false exactly when one of its contributors contributes to an invariant which is
false.  The cells to enable are those whose priority was used and those which contribute to an output (to an interface cell if there are no
outputs). -/
theorem C58_invariants_and_enabling {s : Sheet N V} (hs : Reachable s) (hcond : CondOk (startUpdate s)) {srt : Sorter} (hsrt : SortOk srt) :
    OverConstrained srt s ∨ ∀ ord, Enumerates s ord → Sensible srt s → ∃ ev s', update srt ord s = (.ok ev, s') ∧
      (∀ n i, s.outputIndex.find n = some i → ((s'.cell i).invariant = false ↔ ∃ k m q, s.nameIndex.find m = some q ∧ (s.cell q).spec = .invariant ∧
        Values.asBool (s'.cell q).state = some false ∧ (s'.cell q).contributing.testBit k = true ∧ (s'.cell i).contributing.testBit k = true)) ∧
      (∀ k, s'.priorityAccessed.testBit k = true ↔ ∃ i, (∃ r ∈ (s.cell i).relations, Active s r) ∧ (s.cell i).input = some k) ∧
      (∀ k, s'.active.testBit k = true ↔ s'.priorityAccessed.testBit k = true ∨
        ∃ n i, s.outputIndex.find n = some i ∧ ((s.cell i).spec = .output ∨ (s.hasOutput = false ∧ (s.cell i).spec = .interfaceOutput)) ∧
          (s'.cell i).contributing.testBit k = true) := by
  rcases update_settled hs.good hs.proper hcond hsrt with h | ⟨ch, rk, -, -, -, -, -, hc⟩
  · exact Or.inl h.1
  · right
    intro ord hord hsen
    obtain ⟨ev, s', hu, hU⟩ := hc ord hord hsen.defined hsen.boolean
    refine ⟨ev, s', hu, fun n i hi => ?_, hU.pa, hU.active⟩
    have h := hU.invariant n i hi
    have hw := hs.good.fit.wf
    constructor
    · intro hf
      have h' : ¬ ∀ k, ¬ (Poisoned s' s.invariants k ∧ (s'.cell i).contributing.testBit k = true) := fun hk => by
        rw [h.mpr hk] at hf; cases hf
      obtain ⟨k, hk⟩ := not_forall.mp h'
      obtain ⟨⟨q, hq, hq1, hq2⟩, hk2⟩ := not_not.mp hk
      obtain ⟨m, hm, hsp⟩ := (hw.invs q).mp hq
      exact ⟨k, m, q, hm, hsp, hq1, hq2, hk2⟩
    · rintro ⟨k, m, q, hm, hsp, hq1, hq2, hk2⟩
      cases hb : (s'.cell i).invariant with
      | false => rfl
      | true => exact absurd ⟨⟨q, (hw.invs q).mpr ⟨m, hm, hsp⟩, hq1, hq2⟩, hk2⟩ (h.mp hb k)

/-- C59.  Whether it returns or throws, `update` keeps the cells, the relations and the indices of the sheet. -/
theorem C59_update_keeps_the_structure (s : Sheet N V) (srt : Sorter) (ord : List Nat) {s' : Sheet N V} {r : Except (Err N) (List (Event N V))}
    (h : update srt ord s = (r, s')) :
    s'.size = s.size ∧ s'.nrel = s.nrel ∧ s'.nameIndex = s.nameIndex ∧ s'.inputIndex = s.inputIndex ∧ s'.outputIndex = s.outputIndex ∧
      s'.invariants = s.invariants ∧
      (∀ i, (s'.cell i).spec = (s.cell i).spec ∧ (s'.cell i).name = (s.cell i).name ∧ (s'.cell i).calculator = (s.cell i).calculator ∧
        (s'.cell i).linked = (s.cell i).linked ∧ (s'.cell i).input = (s.cell i).input ∧ (s'.cell i).relations = (s.cell i).relations) ∧
      ∀ k, (s'.rel k).cond = (s.rel k).cond ∧ (s'.rel k).terms = (s.rel k).terms ∧ (s'.rel k).edges = (s.rel k).edges := by
  have hl := update_keeps (N := N) (V := V) srt ord s
  rw [h] at hl
  have hst := hl.struct
  refine ⟨?_, ?_, ?_, ?_, ?_, ?_, fun i => ?_, fun k => ?_⟩
  · have := congrArg Sheet.size hst; exact this
  · have := congrArg Sheet.nrel hst; exact this
  · have := congrArg Sheet.nameIndex hst; exact this
  · have := congrArg Sheet.inputIndex hst; exact this
  · have := congrArg Sheet.outputIndex hst; exact this
  · have := congrArg Sheet.invariants hst; exact this
  · have hc := struct_cell hst i
    have a1 := congrArg Cell.spec hc; have a2 := congrArg Cell.name hc; have a3 := congrArg Cell.calculator hc
    have a4 := congrArg Cell.linked hc; have a5 := congrArg Cell.input hc; have a6 := congrArg Cell.relations hc
    exact ⟨a1, a2, a3, a4, a5, a6⟩
  · have hr := congrFun (congrArg Sheet.rel hst) k
    have a1 := congrArg Rel.cond hr; have a2 := congrArg Rel.terms hr; have a3 := congrArg Rel.edges hr
    exact ⟨a1, a2, a3⟩

/-- C59.  A `set` which throws leaves the sheet as it was. -/
theorem C59_failed_set_changes_nothing {s s' : Sheet N V} {n : N} {v : V} {e : Err N} (h : set n v s = (.error e, s')) : s' = s := set_error h

/-- C60.  An exception during `update` does not harm the sheet, unless it came out of the expression of an interface cell: the sheet is again one to which all the
other theorems apply. -/
theorem C60_failed_update_partial {s s' : Sheet N V} (hs : Reachable s) {srt : Sorter} {ord : List Nat} (ho : Enumerates s ord) {e : Err N}
    (h : update srt ord s = (.error e, s')) :
    Reachable s' ∨ ∃ n i, s.nameIndex.find n = some i ∧ (s.cell i).spec = .interfaceOutput ∧ s'.getStack.map (·.1) = [n] := by
  rcases update_failed hs.good ho h with hg | h'
  · exact Or.inl (hs.failed ho h hg.stack)
  · exact Or.inr h'

theorem poisonLoop_err (s : Sheet N V) : ∀ (l : List Nat) (b : Bits), ∀ e, (poisonLoop b l s).1 = .error e → e = .badCast
  | [], b, e, h => by cases h
  | i :: l, b, e, h => by
      unfold poisonLoop at h
      simp only [bind_gets] at h
      cases hb : Values.asBool (s.cell i).state with
      | none => rw [hb] at h; cases h; rfl
      | some bl =>
          rw [hb] at h
          cases bl with
          | true => exact poisonLoop_err s l b e h
          | false => exact poisonLoop_err s l _ e h

/-- C60.  In particular an over-constrained sheet recovers: whatever is done next (another priority, a conditional switched off) is as on any other sheet. -/
theorem C60_over_constrained_recovers {s : Sheet N V} (hs : Reachable s) (hcond : CondOk (startUpdate s)) {srt : Sorter} (hsrt : SortOk srt)
    (hover : OverConstrained srt s) {ord : List Nat} (ho : Enumerates s ord) : ∃ s', update srt ord s = (.error .overConstrained, s') ∧ Reachable s' := by
  rcases update_settled hs.good hs.proper hcond hsrt with ⟨-, s', hp⟩ | ⟨ch, rk, ⟨pa, hpa⟩, -⟩
  · have hu : update srt ord s = (.error .overConstrained, s') := by rw [update_split, bind_err hp]
    refine ⟨s', hu, hs.failed ho hu ?_⟩
    have hq := (prepare_kq (N := N) (V := V) srt).2 s hs.good.fit
    rw [hp] at hq
    have := hq.stack
    rw [hs.good.stack] at this
    simpa using this
  · exfalso
    obtain ⟨s', hu⟩ := hover []
    cases hp : prepare srt s with
    | mk r s1 =>
        rw [hp] at hpa
        have hpa' : r = .ok pa := hpa
        subst hpa'
        rw [update_split, bind_ok hp] at hu
        unfold finishUpdate at hu
        have h0 : calcOutputs (N := N) (V := V) [] s1 = (.ok (), s1) := rfl
        rw [bind_ok h0] at hu
        simp only [bind_gets] at hu
        have hpl := poisonLoop_err s1 s1.invariants 0
        cases hq : poisonLoop 0 s1.invariants s1 with
        | mk r2 s2 =>
            rw [hq] at hpl
            cases r2 with
            | error e =>
                rw [bind_err hq] at hu
                have := hpl e rfl
                subst this
                cases hu
            | ok b =>
                rw [bind_ok hq] at hu
                cases hu

example : OverConstrained Ex.srt Ex.x4 := by
  intro ord
  have h : (match (prepare Ex.srt Ex.x4).1 with | .error .overConstrained => true | _ => false) = true := by decide +kernel
  cases hp : prepare Ex.srt Ex.x4 with
  | mk r s' =>
      rw [hp] at h
      have hr : r = .error .overConstrained := by
        cases r with
        | ok pa => cases h
        | error e => cases e <;> first | rfl | cases h
      subst hr
      exact ⟨s', by rw [update_split, bind_err hp]⟩
example : CondOk (startUpdate Ex.x4) := by
  intro r hr hc
  have hr : r < 2 := hr
  obtain rfl | rfl : r = 0 ∨ r = 1 := by omega
  · exact absurd rfl hc
  · exact absurd rfl hc

/-- C60 in full is false: the exception of an interface cell leaves its name on the stack of the cells being computed; after the cause has been removed,
the cell is not computed any more when another cell reads it: its input value is read instead of its expression. -/
theorem C60_failed_update_violated : ∃ s s1 s2 : Sheet Ex.Nm Ex.Vl, ∃ ord e, Reachable s ∧ Enumerates s ord ∧ update Ex.srt ord s = (.error e, s1) ∧
    set .b (.num 1) s1 = (.ok (), s2) ∧ Enumerates s2 ord ∧ CondOk (startUpdate s2) ∧ Sensible Ex.srt s2 ∧ ∃ ev s3, update Ex.srt ord s2 = (.ok ev, s3) ∧
      s3.value .c = some (.num 5) ∧ ∀ env, Solves (settled Ex.srt s2) env → ∃ b, env .c = some (.num 10, b) := by
  have h1 : (match (update Ex.srt Ex.vord Ex.v3).1 with | .error .evalFailed => true | _ => false) = true := by decide +kernel
  have h2 : Ex.ok (update Ex.srt Ex.vord Ex.v5) = true := by decide +kernel
  have hv : (update Ex.srt Ex.vord Ex.v5).2.value .c = some (.num 5) := by decide +kernel
  have hden : den (settled Ex.srt Ex.v5) 4 .c = some (.num 10, 1) := by decide +kernel
  refine ⟨Ex.v3, Ex.v4, Ex.v5, Ex.vord, .evalFailed, Ex.v3_reachable,
    Ex.enum_of (by decide) (fun n => by cases n <;> decide +kernel) (by decide +kernel), ?_, Ex.run_ok (by decide +kernel),
    Ex.enum_of (by decide) (fun n => by cases n <;> decide +kernel) (by decide +kernel),
    fun r hr => absurd hr (by have : Ex.v5.nrel = 0 := by decide +kernel
                              show ¬ r < Ex.v5.nrel; omega), ?_, ?_⟩
  · refine Prod.ext ?_ rfl
    revert h1
    cases (update Ex.srt Ex.vord Ex.v3).1 with
    | ok ev => intro h; cases h
    | error e => cases e <;> intro h <;> first | rfl | cases h
  · refine sensible_of 4 (fun n => by cases n <;> decide +kernel) (fun n i hn hi => ?_)
    have hall : ((Ex.v5.nameIndex.find n).all fun i => decide ((Ex.v5.cell i).spec ≠ .invariant)) = true := by cases n <;> decide +kernel
    rw [hn] at hall
    simp [hi] at hall
  · cases e2 : update Ex.srt Ex.vord Ex.v5 with
    | mk r s3 =>
      rw [e2] at h2 hv
      cases r with
      | error e => cases h2
      | ok ev => exact ⟨ev, s3, rfl, hv, fun env he => ⟨1, den_le_solution _ env (fun m w hw => by rw [he m]; exact hw) 4 .c _ hden⟩⟩

/-- C61.  `reinitialize`: the value of an interface cell whose initializer has read none of the input cells which were set since the last
time is kept; otherwise it becomes the value of the initializer, provided that the initializer reads input cells and constants only. -/
theorem C61_reinitialize_partial {s s' : Sheet N V} (hs : Reachable s) {ord : List Nat} (ho : Enumerates s ord) (h : reinitialize ord s = (.ok (), s')) :
    Reachable s' ∧ ∀ n i j, s.nameIndex.find n = some i → (s.cell i).input = some j →
      if s.initDirty &&& (s.cell j).initContributing = 0 then s'.cell j = s.cell j
      else ∀ p, (s.cell j).calculator = .expr p → p.Avoids (IsInterface s) → ∃ w, initValue s p = some w ∧ (s'.cell j).state = w.1 := by
  refine ⟨hs.reinitialize h, fun n i j hn hj => ?_⟩
  have hf := hs.good.fit
  have hsp := (input_spec hf.wf hn hj).1
  have hout : s.outputIndex.find n = some i := (hf.wf.output n i).mpr ⟨hn, Or.inr (Or.inl hsp)⟩
  obtain ⟨s1, h1, h2⟩ := inInitMode_ok h
  cases hx : reinitLoop ord { s with initMode := true } with
  | mk r s2 =>
      cases r with
      | error e => rw [bind_err hx] at h1; cases h1
      | ok u =>
          rw [bind_ok hx] at h1
          have := (Prod.mk.inj h1).2
          subst h2 this
          have key := reinitLoop_exact s hf ord { s with initMode := true } s2 rfl ho.1 (fun k hk => by
            obtain ⟨m, hm⟩ := (ho.2 k).mp hk
            exact ⟨m, out_named hf hm⟩) rfl rfl rfl (fun _ _ => rfl) (fun _ _ _ _ => rfl) hx
          exact key.2.2.2 i ((ho.2 i).mpr ⟨n, hout⟩) j hj

/-- C61 for initializers which read other interface cells is false: what they read depends on the order in which the hash table goes through the cells. -/
theorem C61_reinitialize_violated : ∃ s s1 s2 : Sheet Ex.Nm Ex.Vl, ∃ ord ord', Reachable s ∧ Enumerates s ord ∧ Enumerates s ord' ∧
    reinitialize ord s = (.ok (), s1) ∧ reinitialize ord' s = (.ok (), s2) ∧ ∃ i, s.inputIndex.find .c = some i ∧ (s1.cell i).state ≠ (s2.cell i).state :=
  ⟨Ex.r4, Ex.run (reinitialize [2, 4]) Ex.r4, Ex.run (reinitialize [4, 2]) Ex.r4, [2, 4], [4, 2], Ex.r4_reachable,
    Ex.enum_of (by decide) (fun n => by cases n <;> decide +kernel) (by decide +kernel),
    Ex.enum_of (by decide) (fun n => by cases n <;> decide +kernel) (by decide +kernel), Ex.run_ok (by decide +kernel), Ex.run_ok (by decide +kernel),
    3, by decide +kernel, by decide +kernel⟩
/-- In the example the initializer of `b` reads the input only. -/
example : (Ex.run (reinitialize [4, 2]) Ex.r4).value .a = some (.num 5) ∧ ((Ex.run (reinitialize [4, 2]) Ex.r4).cell 1).state = .num 6 ∧
    Ex.r4.initDirty &&& (Ex.r4.cell 1).initContributing ≠ 0 := by decide +kernel
example : (Ex.lift1 (fun i => .num (i + 1)) .a).Avoids (IsInterface Ex.r4) := by
  refine .ask _ _ ?_ fun v => ?_
  · rintro ⟨i, hi, hsp⟩
    cases hi
    revert hsp
    decide +kernel
  · cases v <;> constructor

end Verif.Adam
