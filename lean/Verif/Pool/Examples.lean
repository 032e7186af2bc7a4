import Verif.Pool.Props
/-!
Examples, and what the pool does not do.
-/
namespace Verif.Pool
open Spec

/-- "ab" at 100, "c" at 200, all else zero. -/
def exMem : Mem := ((Mem.set (fun _ => 0) 100 97).set 101 98).set 200 99

def stOf (r : Res Nat) : St := r.st.getD (.new fun _ => 0)

def ex1 : St := stOf (add 4 10 (.new exMem) 100 2 ⟨some 1000, false, false⟩)
def ex2 : St := stOf (add 4 10 ex1 200 1 ⟨some 2000, false, false⟩)

theorem ex_call1 : Call 4 10 (.new exMem) 100 [97, 98] ⟨some 1000, false, false⟩ := by
  refine ⟨.inr ⟨by decide, by decide, ?_⟩, ?_, ?_⟩
  · intro i hi
    simp only [List.length_cons, List.length_nil] at hi
    have : i = 0 ∨ i = 1 ∨ i = 2 := by omega
    rcases this with rfl | rfl | rfl <;> rfl
  · intro i hi hu; simp only [Unused, St.new] at hu; omega
  · intro b hb; cases hb
    refine ⟨by decide, fun a h1 h2 => ⟨?_, ?_, ?_⟩⟩
    · rintro ⟨k, hk, _⟩; simp [St.new] at hk
    · omega
    · simp only [List.length_cons, List.length_nil]; omega

theorem ex_hist1 : Hist 4 10 False ex1 [([97, 98], 1000)] :=
  .add (Hist.new (m := exMem) (by decide) rfl) ex_call1 (by simp) rfl

theorem ex_call2 : Call 4 10 ex1 200 [99] ⟨some 2000, false, false⟩ := by
  refine ⟨.inr ⟨by decide, by decide, ?_⟩, ?_, ?_⟩
  · intro i hi
    simp only [List.length_cons, List.length_nil] at hi
    have : i = 0 ∨ i = 1 := by omega
    rcases this with rfl | rfl <;> rfl
  · intro i hi hu
    have h1 : ex1.next = 1003 := rfl
    unfold Unused at hu
    simp only [List.length_cons, List.length_nil] at hi
    omega
  · intro b hb; cases hb
    refine ⟨by decide, fun a h1 h2 => ⟨?_, ?_, ?_⟩⟩
    · rintro ⟨k, hk, hi⟩
      have : ex1.blocks = [(1000, 4)] := rfl
      rw [this] at hk; simp at hk; subst hk
      unfold inBlock at hi; simp only at hi; omega
    · omega
    · simp only [List.length_cons, List.length_nil]; omega

/-- Two strings in two blocks. -/
theorem ex_hist2 : Hist 4 10 False ex2 [([99], 2000), ([97, 98], 1000)] :=
  .add ex_hist1 ex_call2 (by simp) rfl

example : ex2.blocks = [(1000, 4), (2000, 4)] ∧ ex2.freed = [1000, 2000] ∧ ex2.news = [2000, 1000] ∧ ex2.next = 2002 := by
  refine ⟨rfl, rfl, rfl, rfl⟩
example : CStr ex2.mem 1000 [97, 98] := C104_stable ex_hist2 (by simp)
example : add 4 10 ex2 2000 1 ⟨none, false, false⟩ = .ok 2000 ex2 :=
  C104_again ex_hist2 (x := [99]) (by simp) (.inr ⟨by decide, C104_stable ex_hist2 (by simp)⟩) _
/-- A string that is longer than the size of a block gets a block of its own size. -/
example : (stOf (add 2 10 (.new exMem) 100 2 ⟨some 1000, false, false⟩)).blocks = [(1000, 3)] := rfl

/-- When the node of the list cannot be allocated, the new block is never given back. -/
theorem C104_leak_violated : ∃ s a, Hist 4 10 True s [] ∧ a ∈ s.news ∧ a ∉ s.freed := by
  refine ⟨stOf (add 4 10 (.new exMem) 100 2 ⟨some 1000, true, false⟩), 1000, ?_, ?_, ?_⟩
  · refine Hist.throw (str := 100) (x := [97, 98]) (e := ⟨some 1000, true, false⟩) (Hist.new (m := exMem) (by decide) rfl) ?_ (by simp) rfl
    exact ⟨ex_call1.arg, ex_call1.used, fun b hb => ex_call1.fresh b hb⟩
  · exact List.mem_cons_self
  · intro h; cases h

/-- When the node of the set cannot be allocated, the room for the string is lost: the next call for the same string takes more. -/
theorem C104_room_violated : ∃ s, Hist 4 10 True s [] ∧ s.blocks = [(1000, 4)] ∧ s.store = [] ∧ s.next = 1003 := by
  refine ⟨stOf (add 4 10 (.new exMem) 100 2 ⟨some 1000, false, true⟩), ?_, rfl, rfl, rfl⟩
  refine Hist.throw (str := 100) (x := [97, 98]) (e := ⟨some 1000, false, true⟩) (Hist.new (m := exMem) (by decide) rfl) ?_ (by simp) rfl
  exact ⟨ex_call1.arg, ex_call1.used, fun b hb => ex_call1.fresh b hb⟩

end Verif.Pool
