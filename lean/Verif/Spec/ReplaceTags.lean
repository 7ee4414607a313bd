/-
Specification of the exact effect of replacing tags, for C24.
-/
import Verif.Spec.PostAnnotators

namespace Verif.Spec

/-- The tag a token is to be given: its value is in the table of replacements. -/
def tagInTable (repl : Dict (Option Str)) (d : Doc) (i : Nat) : Option (Option Str) :=
  replacedTag repl (valueOf d none i) (d.getTagOrPreserved i)

/-- A token is to be given a tag with a value other than its own. -/
def ChangesValue (repl : Dict (Option Str)) (d : Doc) (i : Nat) : Prop :=
  ∃ t, tagInTable repl d i = some t ∧ stripTagPrefix t ≠ stripTagPrefix (d.getTagOrPreserved i)

/-- Token `j` is on the line of token `i`, and both have the same (not empty) label of the source
file on a level. -/
def SamePreservedLabel (d : Doc) (level : Option Nat) (i j : Nat) : Prop :=
  j ∈ d.lineOf i ∧ truthy (stripTagPrefix (d.getPreservedTag i level)) = true ∧
    stripTagPrefix (d.getPreservedTag j level) = stripTagPrefix (d.getPreservedTag i level)

/-- A token whose only label is that of the source file, which loses it before it is reached: an
earlier token of the same line with the same label of the source file is given another value. -/
def LosesLabel (repl : Dict (Option Str)) (d : Doc) (j : Nat) : Prop :=
  ¬ truthy (d.getTag j) = true ∧
  ∃ before after, d.nonSpaceTokens = before ++ j :: after ∧
    ∃ i ∈ before, ChangesValue repl d i ∧ SamePreservedLabel d none i j

end Verif.Spec
