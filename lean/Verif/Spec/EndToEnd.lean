/-
Specification of what is read back from the files written by a run.
-/
import Verif.Spec.ReadBack
import Verif.Spec.ReloadFields

namespace Verif.Spec

/-- The names in a mapping for target files are simple, and the labels of the fields, which have no prefix, can be
read back. -/
def ReadableNames (xmlMapping : Dict (Dict Str)) (mains : List (Option Str)) : Prop :=
  ∀ section_ ∈ xmlMapping, ∀ e ∈ section_.2, OneStep e.1 ∧
    ('.' ∉ e.1 → e.1 ≠ [] ∧ tagValue (some e.1) = some e.1 ∧ some e.1 ∈ mains)

end Verif.Spec
