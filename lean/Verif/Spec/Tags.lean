import Verif.Py.Str

/-!
# Specification of tag filters
-/

namespace Spec
open Py

/-- The characters that mark an excluded tag. -/
def negationMarks : List Char := ['!', '^', '-']

/-- The entries of a filter ask for `tag`. -/
def Included (entries : List PStr) (tag : PStr) : Prop := tag ∈ entries ∧ ∀ c ∈ negationMarks, tag.head? ≠ some c

/-- The entries of a filter ask to leave out `tag`. -/
def Excluded (entries : List PStr) (tag : PStr) : Prop := ∃ c ∈ negationMarks, (c :: tag) ∈ entries

/-- Something with tags `tags` passes a filter that includes `incl` and excludes `excl`. -/
def Selected (incl excl tags : List PStr) : Prop :=
  (∀ x ∈ tags, x ∉ excl) ∧ (incl = [] ∨ ∃ x ∈ tags, x ∈ incl)

end Spec
