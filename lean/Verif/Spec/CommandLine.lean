/-
Specification for the options given on the command line.
-/
import Verif.Model.Tools
import Verif.Spec.FieldLists
import Verif.Model.FieldLists

namespace Verif.Spec

/-- The characters of the names of fields are no white space. -/
def PlainNames (cc : CharClass) : Prop := ∀ c : Char, 33 ≤ c.toNat → c.toNat ≤ 126 → cc.isSpace c = false

/-- What an option with fields selects: the default if it is not given, the fields listed, or the default with the
fields after `+` added and those after `-` removed. -/
inductive Selected (cc : CharClass) (dflt : List Str) : Option Str → List Str → Prop
  | default : Selected cc dflt none dflt
  | listed {s : Str} (h : ∀ item items, commaList cc s = item :: items → ¬ signed item) :
      Selected cc dflt (some s) (commaList cc s)
  | edited {s item : Str} {items sel : List Str} (hl : commaList cc s = item :: items) (hs : signed item)
      (hc : ∀ x, sel.count x + (edits false (item :: items)).count (.remove x) =
        dflt.count x + (edits false (item :: items)).count (.add x)) :
      Selected cc dflt (some s) sel

/-- The key is in the section of the mapping, or in the overrides, which apply to every section. -/
def keyAvailable (m : Dict (Dict Str)) (overrides : Dict Str) (section_ key : Str) : Prop :=
  ∃ d, m.get? section_ = some d ∧ ((∃ v, (key, v) ∈ d) ∨ ∃ v, (key, v) ∈ overrides)

/-- The field may be annotated with values from a document with this root element. -/
def annotatable (m : Dict (Dict Str)) (overrides : Dict Str) (selected : List Str) (rootTag field : Str) : Prop :=
  '.' ∉ field ∧ keyAvailable m overrides rootTag field ∧ (selected = [] ∨ field ∈ selected)

/-- The sub field of the field may be annotated with values from a document with this root element. -/
def subAnnotatable (m : Dict (Dict Str)) (overrides : Dict Str) (selected subSelected : List Str) (rootTag field sub : Str) : Prop :=
  annotatable m overrides selected rootTag field ∧ '.' ∉ sub ∧
    keyAvailable m overrides rootTag (field ++ c!".sub." ++ sub) ∧ (subSelected = [] ∨ sub = [] ∨ sub ∈ subSelected)

/-- The labels a tool adds of its own, whatever is in the target file: those of line numbers if asked for, those of
the segmentation, and the one for the items of a list. -/
def fixedLabels (a : ToolArgs) : Tool → List Str
  | .header => if a.useLineNumbers then [c!"line_no"] else []
  | .referenceSegmenter => if a.useLineNumbers then [c!"line_no"] else []
  | .segmentation cfg _ =>
    (if a.useLineNumbers then [c!"line_no"] else []) ++ cfg.mapping.map (·.1) ++
    [c!"front", c!"page", c!"headnote", c!"annex"] ++
    (if cfg.noMergeReferences then [] else [c!"reference"]) ++ (if a.noPreserveTags then [c!"body"] else [])
  | .fulltext _ _ _ => [c!"list"]
  | _ => []

/-- Whether the fields of the target file are labels of the result: not where a tool keeps the labels of its own field. -/
def labelsFields : Tool → Bool
  | .figure segment => segment
  | .table segment => segment
  | .reference segment _ _ => segment
  | .affiliation segment _ => segment
  | _ => true

/-- The sub labels a tool adds of its own. -/
def fixedSubLabels : Tool → List Str
  | .reference _ _ _ => [c!"reference-page"]
  | .affiliation _ _ => [c!"author_aff-address"]
  | _ => []

/-- Whether the sub fields of the target file are sub labels of the result. -/
def labelsSubFields (a : ToolArgs) : Tool → Bool
  | .header => !a.simpleMatcher
  | .segmentation _ _ => !a.simpleMatcher
  | _ => true

end Verif.Spec
