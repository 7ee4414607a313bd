/-
Specification of options which differ only in the order of the elements of sets.
-/
import Verif.Model.ToolPaths
import Verif.Model.ToolRun

namespace Verif.Spec

/-- Two lists of the elements of the same set, in any order. -/
def SameSet (a b : List Str) : Prop := ∀ x, x ∈ a ↔ x ∈ b

/-- The same tool; the fields given to the tool for segmentation are a set. -/
inductive SameTool : Tool → Tool → Prop
  | refl (t : Tool) : SameTool t t
  | segmentation (cfg : SegConfig) (fields fields' : List Str) :
    SameSet fields fields' → SameTool (.segmentation cfg fields) (.segmentation cfg fields')

/-- The options of the same run, once with the elements of all sets of fields in one order and once in another
order: the fields of the tool, from which the paths for fields without a path are made, the fields which are
always kept, the sub fields which are not kept, and the fields which are checked. `base` are the paths of the tool
before those for the fields are added. -/
structure SameOptions (o o' : RunOpts) : Prop where
  tool : SameTool o.tool o'.tool
  args : ∃ fields always sub : List Str,
    o'.args = { o.args with fields := fields, alwaysPreserve := always, noPreserveSubFields := sub } ∧
    SameSet o.args.fields fields ∧ SameSet o.args.alwaysPreserve always ∧ SameSet o.args.noPreserveSubFields sub
  xmlPath : o'.xmlPath = o.xmlPath
  xmlRegex : o'.xmlRegex = o.xmlRegex
  xmlMapping : o'.xmlMapping = o.xmlMapping
  matching : SameSet o.requireMatching o'.requireMatching
  required : SameSet o.required o'.required
  doc : ∃ (base : Dict Str) (fields fields' : List Str), SameSet fields fields' ∧
    o.doc.mapping = addFieldPaths base fields ∧ o'.doc = { o.doc with mapping := addFieldPaths base fields' }

/-- Whether a tool checks its documents with the checks for the labels of the segmentation model. -/
def usesSegChecks : Tool → Bool
  | .segmentation _ _ => true
  | _ => false

end Verif.Spec
