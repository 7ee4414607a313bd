/-
Specification of the references which can be fixed.
-/
import Verif.Model.JatsFix

namespace Verif.Spec

/-- A DOI annotation, in upper or lower case. -/
def DoiAnnotation (env : JatsEnv) (e : JNode) : Prop :=
  e.tag = c!"pub-id" ∧ ∃ type, e.attrs.get? c!"pub-id-type" = some type ∧ (type = c!"doi" ∨ env.lower type = c!"doi")

/-- The DOI annotations of a reference have text, and none follows another one directly, without text between them. -/
def DoisApart (env : JatsEnv) (n : JNode) : Prop :=
  ∀ m ∈ jAll n, ∀ l e r, m.children = l ++ e :: r → DoiAnnotation env e →
    (∃ s, e.text = some s) ∧ ∀ p, l.getLast? = some p → DoiAnnotation env p → ∃ c s, p.tail = some (c :: s)

end Verif.Spec
