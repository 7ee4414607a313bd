/-
Specification vocabulary for documents.
-/
import Verif.Model.TeiDoc

namespace Verif.Spec

/-- The name used for a path: the last tag that is mapped to the path, or the path itself. -/
def tagOfPath (mapping : Dict Str) (path : Str) : Str :=
  match (mapping.filter (fun p => p.2 = path)).getLast? with
  | some p => p.1
  | none => path

/-- A prefix in front of a value; an empty value has no prefix. -/
def withPrefix (p v : Str) : Str := if v = [] then [] else p ++ v

/-- Renames the value of a tag, keeping its prefix. -/
def renameTag (f : Str → Str) : Str → Str
  | 'b' :: '-' :: v => withPrefix c!"b-" (f v)
  | 'i' :: '-' :: v => withPrefix c!"i-" (f v)
  | v => f v

/-- The text of an element and what follows it. -/
def outerText (e : Elem) : Str := itertext e ++ orEmpty e.tail

/-- The text of each line of a document. -/
def lineTexts (d : Doc) : List Str := d.lines.map (fun l => l.tokens.flatMap (fun i => (d.tok i).text))

end Verif.Spec
