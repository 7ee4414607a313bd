/-
Specification for C151: headings and labels in front of a match.
-/
import Verif.Model.SimpleMatching

namespace Verif.Spec

/-- The text `s` is `u`, the heading of an abstract, and white space. -/
structure HeadingAtEnd (cc : CharClass) (s u h w : Str) : Prop where
  text : s = u ++ h ++ w
  heading : h = c!"abstract" ∨ h = c!"summary"
  space : ∀ c ∈ w, cc.isSpace c = true

/-- The text `s` is `u`, the label, and behind it white space, dots and dashes, and white space. -/
structure LabelBefore (cc : CharClass) (label s u : Str) : Prop where
  text : ∃ w p w', s = u ++ label ++ w ++ p ++ w' ∧ (∀ c ∈ w, cc.isSpace c = true) ∧ (∀ c ∈ p, c = '.' ∨ c = '-') ∧ ∀ c ∈ w', cc.isSpace c = true

end Verif.Spec
