import Verif.XmlAttr.Props
/-! Concrete sets. -/
namespace Verif.XmlAttr
open Spec

/-- The text `id=1 c=2 id=3 b=2` with single bytes for the punctuation: names of length 2 and 1, values of length 1. -/
def sample : Mem := fun i => [105, 100, 49, 99, 50, 105, 100, 51, 98, 50].getD i 0

def sampleAttrs : List Attr :=
  [(⟨0, 2⟩, ⟨2, 3⟩), (⟨3, 4⟩, ⟨4, 5⟩), (⟨5, 7⟩, ⟨7, 8⟩), (⟨8, 9⟩, ⟨9, 10⟩)]

/-- The insertion of `id` for the second time keeps the first range of the name and replaces the value; the set is in
shortlex order. -/
example : insertAll sample [] sampleAttrs = some [(⟨8, 9⟩, ⟨9, 10⟩), (⟨3, 4⟩, ⟨4, 5⟩), (⟨0, 2⟩, ⟨7, 8⟩)] := by
  decide +kernel

example : lookup sample [(⟨8, 9⟩, ⟨9, 10⟩), (⟨3, 4⟩, ⟨4, 5⟩), (⟨0, 2⟩, ⟨7, 8⟩)] ⟨5, 7⟩ = some ⟨7, 8⟩ := by decide +kernel

example : lookup sample [(⟨8, 9⟩, ⟨9, 10⟩), (⟨3, 4⟩, ⟨4, 5⟩), (⟨0, 2⟩, ⟨7, 8⟩)] ⟨0, 1⟩ = some .null := by decide +kernel

theorem sampleBuilt : Built sample [(⟨3, 4⟩, ⟨4, 5⟩), (⟨0, 2⟩, ⟨2, 3⟩)] :=
  .insert (a := (⟨3, 4⟩, ⟨4, 5⟩)) (.insert (a := (⟨0, 2⟩, ⟨2, 3⟩)) (s' := [(⟨0, 2⟩, ⟨2, 3⟩)]) .empty (by decide +kernel)) (by decide +kernel)

theorem sampleBuilt' : Built sample [(⟨8, 9⟩, ⟨9, 10⟩), (⟨5, 7⟩, ⟨7, 8⟩)] :=
  .insert (a := (⟨8, 9⟩, ⟨9, 10⟩)) (.insert (a := (⟨5, 7⟩, ⟨7, 8⟩)) (s' := [(⟨5, 7⟩, ⟨7, 8⟩)]) .empty (by decide +kernel)) (by decide +kernel)

/-- `id` collides, `b` and `c` do not. -/
example : hasCollisions sample [(⟨8, 9⟩, ⟨9, 10⟩), (⟨5, 7⟩, ⟨7, 8⟩)] [(⟨3, 4⟩, ⟨4, 5⟩), (⟨0, 2⟩, ⟨2, 3⟩)] = some true := by
  decide +kernel

example : merge sample [(⟨3, 4⟩, ⟨4, 5⟩), (⟨0, 2⟩, ⟨2, 3⟩)] [(⟨8, 9⟩, ⟨9, 10⟩), (⟨5, 7⟩, ⟨7, 8⟩)] =
    [(⟨8, 9⟩, ⟨9, 10⟩), (⟨3, 4⟩, ⟨4, 5⟩), (⟨0, 2⟩, ⟨2, 3⟩)] := by decide +kernel

/-- The hypothesis of `C90_count_collisions_partial` holds here. -/
example : ∀ a ∈ [(⟨3, 4⟩, ⟨4, 5⟩), ((⟨0, 2⟩, ⟨2, 3⟩) : Attr)], ∀ b ∈ [((⟨8, 9⟩, ⟨9, 10⟩) : Attr), (⟨5, 7⟩, ⟨7, 8⟩)],
    a.1.text sample = b.1.text sample → a.2.text sample = b.2.text sample → a.2 = b.2 := by decide +kernel

end Verif.XmlAttr
