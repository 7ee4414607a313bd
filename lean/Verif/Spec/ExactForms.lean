/-
Words for the exact forms of C56 and C92: braces left open in the components of a path, the tools without the removal of text, the text of tokens.
-/
import Verif.Model.Tools
import Verif.Spec.Removed

namespace Verif.Spec

/-- Reads a component of a path: `none` if it has a slash outside of braces, otherwise whether a brace is left open. -/
def openBrace : Bool → Str → Option Bool
  | o, [] => some o
  | o, c :: s => if c = '/' ∧ o = false then none else openBrace (if c = '{' then true else if c = '}' then false else o) s

/-- A tool without the option to remove references or affiliations without labels. -/
def withoutRemoval : Tool → Tool
  | .reference s p _ => .reference s p false
  | .affiliation s _ => .affiliation s false
  | t => t

/-- The text of some tokens. -/
def textOf (d : Doc) (ids : List Nat) : Str := ids.flatMap (fun i => (d.tok i).text)

/-- The number of lines up to which something stays. -/
def linesWithText (d : Doc) : Nat :=
  ((List.range d.lines.length).filter (fun k => !(staying d ((d.lines.take (k + 1)).flatMap (·.tokens))).isEmpty)).length

end Verif.Spec
