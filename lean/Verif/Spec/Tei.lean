/-
Specification vocabulary for TEI documents, independent of the loader and the writer.
-/
import Verif.Model.TeiLoad
import Verif.Spec.Text

namespace Verif.Spec

/-- The characters of an optional text. -/
def chars (x : Option Str) : List (Option Char) := (orEmpty x).map some

mutual
/-- The content of an element as a stream of characters and line breaks (`none`), in document
order, without the tail of the element. A line break stands where an `lb` element starts. -/
def flow : Elem → List (Option Char)
  | .mk _ _ x cs _ => chars x ++ flowList cs
def flowList : List Elem → List (Option Char)
  | [] => []
  | .mk t a x cs tl :: es =>
    (if t = c!"lb" then [none] else []) ++ flow (.mk t a x cs tl) ++ chars tl ++ flowList es
end

/-- Splits a stream at its line breaks. -/
def splitBreaks : List (Option Char) → List Str
  | [] => [[]]
  | none :: r => [] :: splitBreaks r
  | some c :: r =>
    match splitBreaks r with
    | [] => [[c]]
    | l :: ls => (c :: l) :: ls

/-- Drops a final empty line. -/
def dropFinalEmpty (ls : List Str) : List Str :=
  if ls.getLast? = some [] then ls.dropLast else ls

mutual
/-- Every element strictly below satisfies `p` (given its tag and attributes). -/
def allBelow (p : Str → Dict Str → Prop) : Elem → Prop
  | .mk _ _ _ cs _ => allBelowList p cs
def allBelowList (p : Str → Dict Str → Prop) : List Elem → Prop
  | [] => True
  | .mk t a x cs tl :: es => p t a ∧ allBelow p (.mk t a x cs tl) ∧ allBelowList p es
end

mutual
/-- The text nodes inside an element, in document order (without the tail of the element). -/
def textNodes : Elem → List Str
  | .mk _ _ x cs _ => orEmpty x :: textNodesList cs
def textNodesList : List Elem → List Str
  | [] => []
  | .mk t a x cs tl :: es => textNodes (.mk t a x cs tl) ++ [orEmpty tl] ++ textNodesList es
end

/-- The path component of an element: its tag, with its attribute if it has one. -/
def component (tag : Str) (attrib : Dict Str) : Str :=
  match attrib with
  | [] => tag
  | (k, v) :: _ => tag ++ c!"[@" ++ k ++ c!"=\"" ++ v ++ c!"\"]"

/-- Whether an element is taken as a tagged element: it directly contains text that is not
blank, or its path is one of the configured paths. -/
def isTagged (cc : CharClass) (rootPaths : List Str) (path : List Str) (x : Option Str)
    (cs : List Elem) : Bool :=
  !isBlank cc x || cs.any (fun c => !isBlank cc c.tail) ||
    rootPaths.contains (joinWith c!"/" path)

mutual
/-- The text nodes of an element grouped by main tag: an outermost tagged element contributes
all its text under its path, other text has no tag. -/
def segments (cc : CharClass) (rootPaths : List Str) (path : List Str) :
    Elem → List (Option Str × List Str)
  | .mk t a x cs tl =>
    if path ≠ [] ∧ isTagged cc rootPaths path x cs = true then
      [(some (joinWith c!"/" path), textNodes (.mk t a x cs tl))]
    else (none, [orEmpty x]) :: segmentsList cc rootPaths path cs
def segmentsList (cc : CharClass) (rootPaths : List Str) (path : List Str) :
    List Elem → List (Option Str × List Str)
  | [] => []
  | .mk t a x cs tl :: es =>
    segments cc rootPaths (path ++ [component t a]) (.mk t a x cs tl) ++
      [(none, [orEmpty tl])] ++ segmentsList cc rootPaths path es
end

/-- Tags a list of tokens as one entity: begin prefix on the first, inside prefix on the
others. -/
def beginInside (p : Str) : List Str → List (Str × Option Str)
  | [] => []
  | t :: ts => (t, some (c!"b-" ++ p)) :: ts.map (fun t => (t, some (c!"i-" ++ p)))

/-- The tagged tokens of a segment. -/
def segmentTokens (cc : CharClass) : Option Str × List Str → List (Str × Option Str)
  | (none, nodes) => (nodes.flatMap (cutAt (tokenBoundary cc))).map (fun t => (t, none))
  | (some p, nodes) => beginInside p (nodes.flatMap (cutAt (tokenBoundary cc)))

end Verif.Spec
