/-
Specification for C150: labels of identifiers in references.
-/
import Verif.Spec.JatsPatterns
import Verif.Spec.Reference

namespace Verif.Spec

/-- `s` is `u`, a word `l`, a colon (perhaps after one white space) or nothing, and perhaps a line break. The word starts
within `s`. -/
structure LabelAtEnd (cc : CharClass) (word : Str → Prop) (s u l k n : Str) : Prop where
  text : s = u ++ l ++ k ++ n
  word : word l
  begins : WordEdge cc u l
  colon : k = [] ∨ k = c!":" ∨ ∃ c, k = [c, ':'] ∧ cc.isSpace c = true
  line : n = [] ∨ n = ['\n']

/-- At least two letters. -/
def TwoLetters (l : Str) : Prop := 2 ≤ l.length ∧ ∀ c ∈ l, ('a' ≤ c ∧ c ≤ 'z') ∨ ('A' ≤ c ∧ c ≤ 'Z')

/-- The sub tags of identifiers. -/
def identifierTags : List Str :=
  [c!"reference-issn", c!"reference-isbn", c!"reference-doi", c!"reference-pii", c!"reference-pmid", c!"reference-pmcid", c!"reference-arxiv"]

/-- The words accepted as label of the identifiers with the given sub tag: `DOI` and `PII` for these, any two letters for the others. -/
def LabelWord (same : Char → Char → Bool) (v l : Str) : Prop :=
  v = c!"reference-doi" ∧ SameLetters same c!"DOI" l ∨ v = c!"reference-pii" ∧ SameLetters same c!"PII" l ∨
  v ∈ [c!"reference-issn", c!"reference-isbn", c!"reference-pmid", c!"reference-pmcid", c!"reference-arxiv"] ∧ TwoLetters l

end Verif.Spec
