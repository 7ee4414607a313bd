/-
Specification of what can be read back from the file a tool has written.
-/
import Verif.Spec.Reload
import Verif.Spec.ReloadTokens
import Verif.Spec.ExactPlace

namespace Verif.Spec

/-- White space in the texts of lines is spaces, tabs and line feeds only. -/
def CommonSpace (cc : CharClass) (lines : List (List Str)) : Prop :=
  ∀ l ∈ lines, ∀ s ∈ l, ∀ c ∈ s, cc.isSpace c = true → c = ' ' ∨ c = '\t' ∨ c = '\n'

/-- A document has neighbouring texts with the label (up to white space, nothing without the label is between them) which
spell the value, after each of them is normalised as it is for matching, up to white space. -/
def ReadBack (cc : CharClass) (lower : Str → Str) (d : Doc) (value label : Str) : Prop :=
  ∃ texts : List Str,
    texts.flatMap (fun s => (s.filter (fun c => !cc.isSpace c)).map (fun c => (c, some label))) <:+: labelledText cc d ∧
    noSpace value <:+: noSpace (texts.flatMap (normaliseStr lower))

end Verif.Spec
