/-
Specification for C107: names of target files.
-/
import Verif.Model.Basic

namespace Verif.Spec

/-- The text starts with the suffix, where a dot stands for any character. -/
def StartsLike (suffix s : Str) : Prop :=
  suffix.length ≤ s.length ∧ ∀ (i : Nat) (c : Char), suffix[i]? = some c → c = '.' ∨ s[i]? = some c

/-- A suffix which is plain text, apart from dots. -/
def PlainSuffix (suffix : Str) : Prop :=
  suffix ≠ [] ∧ ∀ c ∈ suffix, c ∉ c!"\\^$*+?{}[]|()/\n"

/-- An extension which is plain text: it has no backslash and does not begin with a digit (which would become
a part of the number of the group). -/
def PlainExt (ext : Str) : Prop :=
  (∀ c ∈ ext, c ≠ '\\' ∧ c ≠ '/') ∧ ∀ c ∈ ext.head?, c.isDigit = false

/-- The expression replacing the suffix of a file name. -/
def suffixPattern (suffix ext : Str) : Str := c!"/(.*)" ++ suffix ++ c!"/\\1" ++ ext ++ c!"/"

/-- A part of a file name. -/
def InName (s : Str) : Prop := ∀ c ∈ s, c ≠ '/' ∧ c ≠ '\n'

/-- The suffixes of the source files of the tools. -/
def toolSuffixes : List Str :=
  [c!".header.tei.xml", c!".segmentation.tei.xml", c!".references.referenceSegmenter.tei.xml",
   c!".references.tei.xml", c!".affiliation.tei.xml", c!".header.affiliation.tei.xml", c!".fulltext.tei.xml",
   c!".figure.tei.xml", c!".table.tei.xml"]

end Verif.Spec
