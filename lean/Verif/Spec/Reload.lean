/-
Specification vocabulary for saving a document and loading it again.
-/
import Verif.Spec.Tei
import Verif.Spec.TeiWrite
import Verif.Spec.TeiDoc
import Verif.Spec.SimpleMatching
import Verif.Model.ToolPaths

namespace Verif.Spec

/-- The value of the main tag of a token (explicit or preserved) without its begin/inside prefix;
an empty tag is no tag. -/
def mainValue (t : Tok) : Option Str :=
  match tagValue (fullTag t) with
  | some (c :: v) => some (c :: v)
  | _ => none

/-- The characters of tokens that are not white space, each with the main tag of its token. -/
def labelledChars (cc : CharClass) (toks : List Tok) : List (Char × Option Str) :=
  toks.flatMap (fun t => (t.text.filter (fun c => !cc.isSpace c)).map (fun c => (c, mainValue t)))

/-- The characters of a document that are not white space, in order, each with its main tag. -/
def labelledText (cc : CharClass) (d : Doc) : List (Char × Option Str) :=
  labelledChars cc d.lineToks.flatten

/-- The path component is read back as it was written, and is not a line break. -/
def Stable (component' : Str) : Prop :=
  ∀ tag attrib, parseTagExpression component' = .ok (tag, attrib) →
    component tag attrib = component' ∧ tag ≠ c!"lb"

/-- The tags of the token `t` of a document with the tokens `toks` can be read back from the
elements they are written to:
* the components of its path are stable;
* without a main path there is no sub path either;
* the main path is a configured one, unless the token has no sub element;
* no element around the main element is taken for the main element: its path is not configured and
  no text is written directly into such an element;
* and the main path belongs to the tag of the token only. -/
structure Distinct (cc : CharClass) (mapping : Dict Str) (toks : List Tok) (t : Tok) : Prop where
  stable : ∀ f ∈ tokenPath mapping t, Stable f
  main : mainPath mapping t = [] → tokenPath mapping t = []
  configured : joinWith c!"/" (mainPath mapping t) ∈ mapping.map (·.2) ∨
    tokenPath mapping t = mainPath mapping t
  outermost : ∀ k, 0 < k → k < (mainPath mapping t).length →
    joinWith c!"/" ((mainPath mapping t).take k) ∉ mapping.map (·.2) ∧
    ∀ u ∈ toks, blank cc u = false → tokenPath mapping u ≠ (mainPath mapping t).take k
  owner : mainPath mapping t ≠ [] →
    tagOfPath mapping (joinWith c!"/" (mainPath mapping t)) = (mainValue t).getD []

/-- The value of the sub tag of a token; an empty tag is no tag. -/
def subValue (t : Tok) : Option Str :=
  match tagValue (fullSubTag t) with
  | some (c :: v) => some (c :: v)
  | _ => none

/-- The paths of the tools that write TEI name spaces; they only contain ASCII characters. -/
def teiPaths (mapping : Dict Str) : Dict Str := resolveMapping asciiClass teiNsMap mapping

/-- For each tool: the paths of its tags and the main tags that can be read back. Not among them
are `list_item` of the full text tool and, for the segmentation tool, text without a tag. -/
def toolTags : List (Dict Str × List (Option Str)) :=
  [(headerMapping,
    [none, some c!"title", some c!"abstract", some c!"author", some c!"author_aff", some c!"line_no"]),
   (segmentationMapping,
    [some c!"front", some c!"body", some c!"headnote", some c!"acknowledgment", some c!"annex", some c!"page",
     some c!"line_no", some c!"reference"]),
   (referenceSegmenterMapping, [none, some c!"reference"]),
   (teiPaths referenceMapping, [none, some c!"reference"]),
   (teiPaths affiliationMapping, [none, some c!"author_aff"]),
   (fulltextMapping,
    [none, some c!"note_other", some c!"keywords", some c!"section_title", some c!"section_paragraph",
     some c!"figure", some c!"table", some c!"reference_list_title", some c!"appendix_group_title",
     some c!"appendix", some c!"boxed_text_title", some c!"boxed_text_paragraph", some c!"list"]),
   (teiPaths figureMapping, [none, some c!"figure"]),
   (teiPaths tableMapping, [none, some c!"table"])]

/-- The main tag of a token (explicit or preserved) has the begin prefix. -/
def beginsEntity (t : Tok) : Bool :=
  match fullTag t with
  | some v => startsWith c!"b-" v
  | none => false

/-- Characters with a tag, the first of them marked as the start of an entity or not. -/
def entityLabels (v : Option Str) (start : Bool) : Str → List (Char × Option Str × Bool)
  | [] => []
  | c :: s => (c, v, start) :: s.map (fun c => (c, v, false))

/-- The characters of tokens that are not white space, each with the main tag of its token and
whether an entity starts there.  Within tagged text an entity starts where the tag differs from
that of the previous text, or where the token, or white space in front of it, has the same tag with
the begin prefix.  `prev` is the tag of the previous text, `begun` lists the tags with begin prefix
on white space since then. -/
def entityChars (cc : CharClass) (prev : Option Str) (begun : List (Option Str)) :
    List Tok → List (Char × Option Str × Bool)
  | [] => []
  | t :: ts =>
    if blank cc t then
      entityChars cc prev (if beginsEntity t then mainValue t :: begun else begun) ts
    else
      entityLabels (mainValue t)
        (decide (mainValue t ≠ none ∧ (beginsEntity t = true ∨ mainValue t ∈ begun ∨ prev ≠ mainValue t)))
        (t.text.filter (fun c => !cc.isSpace c)) ++
      entityChars cc (mainValue t) [] ts

/-- The characters of a document that are not white space, in order, each with its main tag and
whether an entity starts there. -/
def entityText (cc : CharClass) (d : Doc) : List (Char × Option Str × Bool) :=
  entityChars cc none [] d.lineToks.flatten

/-- A sub tag with the begin prefix belongs to an element inside the main element (otherwise it is
ignored, but still ends the current element, C09). -/
def SubBelow (mapping : Dict Str) (t : Tok) : Prop :=
  isSubBegin t → hasSub mapping t ∧ (mainPath mapping t).length < (subPath mapping t).length

end Verif.Spec
