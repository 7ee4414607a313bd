/-
Model of the names of the source files of the tools.
-/
import Verif.Model.CommandLine

namespace Verif

/-- `*` of a pattern for files: any characters but slashes, followed by what `rest` accepts. -/
def starMatch (rest : Str → Bool) : Str → Bool
  | [] => rest []
  | c :: s => rest (c :: s) || (decide (c ≠ '/') && starMatch rest s)

/-- Whether a name matches a pattern for files, as used with `find_matching_filenames_with_limit` of sciencebeam_utils
(auto_annotate_utils.py:696-699). Simplification: the patterns of the tools only have `*` as a special character. -/
def globMatch : Str → Str → Bool
  | [], s => s.isEmpty
  | p :: ps, s =>
    if p = '*' then starMatch (globMatch ps) s
    else match s with
      | [] => false
      | c :: s => decide (c = p) && globMatch ps s

/-- `tei_filename_pattern` of the tools (auto_annotate_header.py:56, auto_annotate_segmentation.py:170,
auto_annotate_reference_segmenter.py:54, auto_annotate_fulltext.py:194, auto_annotate_figure.py:112,
auto_annotate_table.py:91, auto_annotate_reference.py:175, auto_annotate_affiliation_address.py:131). -/
def CliTool.filePattern : CliTool → Str
  | .header => c!"*.header.tei.xml*"
  | .referenceSegmenter => c!"*.references.referenceSegmenter.tei.xml*"
  | .segmentation _ _ _ => c!"*.segmentation.tei.xml*"
  | .fulltext _ _ _ => c!"*.fulltext.tei.xml*"
  | .figure _ => c!"*.figure.tei.xml*"
  | .table _ => c!"*.table.tei.xml*"
  | .reference _ _ _ => c!"*.references.tei.xml*"
  | .affiliation _ _ => c!"*.affiliation.tei.xml*"

end Verif
