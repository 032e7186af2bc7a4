import Verif.Zuid.Props
/-!
Concrete cases for C98-C101.
-/
namespace Verif.Zuid
open Verif.Zuid.Spec

/-- The name space of DNS names of RFC 4122. -/
def dns : Uuid := ⟨0x6ba7b810#32, 0x9dad#16, 0x11d1#16, #v[0x80#8, 0xb4#8, 0x00#8, 0xc0#8, 0x4f#8, 0xd4#8, 0x30#8, 0xc8#8]⟩

/-- C98: text. -/
example : str dns = "6ba7b810-9dad-11d1-80b4-00c04fd430c8".toList := by decide +kernel
example : ofString "6BA7B810-9dAD-11d1-80b4-00C04FD430C8".toList = some dns := by decide +kernel

/-- C98: the hypothesis of `C98_reads`. -/
example : IsText "6BA7B810-9dAD-11d1-80b4-00C04FD430C8".toList := by
  refine ⟨"6BA7B810".toList, "9dAD".toList, "11d1".toList, "80b4".toList, "00C04FD430C8".toList, by decide, by decide, by decide, by decide,
    by decide, by decide, ?_⟩
  intro x hx
  rw [← isHex_iff]
  revert x
  decide

/-- C99: order. -/
example : lt dns { dns with data3 := 0x11d2#16 } = true ∧ lt { dns with data3 := 0x11d2#16 } dns = false ∧ eq dns dns = true := by
  decide +kernel

/-- C100: the UUID of `python.org`. -/
example : (ofName (List.replicate 64 0) dns ("python.org".toUTF8.toList.map fun b => BitVec.ofNat 8 b.toNat)).map str =
    some "6fa459ea-ee8a-3ca4-894e-db77e160355e".toList := by decide +kernel

/-- A clock that goes backwards. -/
def backwards : List Input := (List.range 40).map fun k => ⟨BitVec.ofNat 64 (1000 - 20 * k), #v[1, 2, 3, 4, 5, 6], 77#64⟩

/-- C101: the hypotheses hold, the UUIDs. -/
example : (∀ i ∈ backwards, i.now.toNat < 2 ^ 60 - 2 ^ 16) ∧ backwards.length < 2 ^ 30 := by decide +kernel
example : ((creates .start .start backwards).2.2.map str).take 2 =
    ["000003e9-0000-1000-804d-010203040506".toList, "000003ea-0000-1000-804d-010203040506".toList] := by decide +kernel

/-- C101: two threads. -/
example : (run .start (fun _ => .start) [(0, ⟨5, #v[1, 2, 3, 4, 5, 6], 1⟩), (1, ⟨5, #v[1, 2, 3, 4, 5, 6], 1⟩)]).map str =
    ["00000006-0000-1000-8001-010203040506".toList, "00000007-0000-1000-8001-010203040506".toList] := by decide +kernel

end Verif.Zuid
