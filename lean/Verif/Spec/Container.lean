/-
Specification for C154: the part of a document a tool works on.
-/
import Verif.Model.CommandLine

namespace Verif.Spec

/-- The name of an element in a name space, as lxml writes it. -/
def expandedName (ns : Option Str) (name : Str) : Str :=
  match ns with
  | none => name
  | some url => '{' :: (url ++ '}' :: name)

/-- The name space of the documents of a tool. -/
def toolNamespace : CliTool → Option Str
  | .reference _ _ _ => some c!"http://www.tei-c.org/ns/1.0"
  | .affiliation _ _ => some c!"http://www.tei-c.org/ns/1.0"
  | _ => none

/-- The names of the elements from the root of a document to the part a tool works on, without the root. -/
def toolPart : CliTool → List Str
  | .header => [c!"text", c!"front"]
  | .reference _ _ _ => [c!"text", c!"back", c!"listBibl"]
  | .affiliation _ _ => [c!"teiHeader", c!"fileDesc", c!"sourceDesc", c!"biblStruct", c!"analytic", c!"author"]
  | _ => [c!"text"]

/-- `x` is reached from `e` through children with the given names. -/
inductive ReachedBy : List Str → Elem → Elem → Prop
  | here (e : Elem) : ReachedBy [] e e
  | child {e c x : Elem} {names : List Str} (hc : c ∈ e.children) (h : ReachedBy names c x) :
    ReachedBy (c.tag :: names) e x

/-- The elements a tool works on. -/
def ToolPart (t : CliTool) (root x : Elem) : Prop :=
  ReachedBy ((toolPart t).map (expandedName (toolNamespace t))) root x

/-- An element of a path is in a name space, or in none. -/
def InNamespace (ns : Option Str) (step : Str) : Prop :=
  ∃ name, step = expandedName ns name ∧ '{' ∉ name ∧ ':' ∉ name

end Verif.Spec
