import Verif.Sha.Model
import Verif.Sha.Spec
/-
What a sequence of calls means to a client.
-/
namespace Verif.Sha
open Spec

/-- the bits a call adds -/
def Call.content : Call → List Bool
  | .bytes l => bitsOf l
  | .bits l n => (bitsOf l).take n
  | .finalize => []

/-- the digests `finalize` should return, `H` being the hash function and `m` what came before -/
def expected {α : Type} (H : List Bool → α) : List Bool → List Call → List α
  | _, [] => []
  | m, .finalize :: cs => H m :: expected H m cs
  | m, c :: cs => expected H (m ++ c.content) cs

def message (cs : List Call) : List Bool := (cs.map Call.content).flatten

/-- the client only passes whole bytes (and counts at most the bytes there are) -/
def Call.WholeBytes : Call → Prop
  | .bits l n => n % 8 = 0 ∧ n ≤ 8 * l.length
  | _ => True

/-- the client may pass a part of a byte, in the last update -/
def ValidBits : List Call → Prop
  | [] => True
  | .bits l n :: cs => n ≤ 8 * l.length ∧ (n % 8 ≠ 0 → ∀ c ∈ cs, c = .finalize) ∧ ValidBits cs
  | _ :: cs => ValidBits cs

/-- the bits of the last byte that are not to be used are zero -/
def Call.UnusedZero : Call → Prop
  | .bits l n => n % 8 ≠ 0 → ∀ i, n % 8 ≤ i → (l.getD (n / 8) 0).getMsbD i = false
  | _ => True

end Verif.Sha
