/-
Specification for C155: the files of each tool.
-/
import Verif.Model.FilePatterns

namespace Verif.Spec

/-- The number of a tool, whatever its options. -/
def toolKind : CliTool → Nat
  | .header => 0
  | .referenceSegmenter => 1
  | .segmentation _ _ _ => 2
  | .fulltext _ _ _ => 3
  | .figure _ => 4
  | .table _ => 5
  | .reference _ _ _ => 6
  | .affiliation _ _ => 7

/-- What stands in front of `.tei.xml` in the names of the files of a tool. -/
def fileStem : CliTool → Str
  | .header => c!".header"
  | .referenceSegmenter => c!".references.referenceSegmenter"
  | .segmentation _ _ _ => c!".segmentation"
  | .fulltext _ _ _ => c!".fulltext"
  | .figure _ => c!".figure"
  | .table _ => c!".table"
  | .reference _ _ _ => c!".references"
  | .affiliation _ _ => c!".affiliation"

/-- A name of a file of a tool: in some place it has the stem followed by `.tei.xml`. -/
def FileOf (t : CliTool) (name : Str) : Prop :=
  '/' ∉ name ∧ ∃ before after, name = before ++ (fileStem t ++ c!".tei.xml") ++ after

/-- A text occurs in one place only. -/
def InOnePlace (k s : Str) : Prop :=
  ∀ a b a' b', s = a ++ k ++ b → s = a' ++ k ++ b' → a = a'

end Verif.Spec
