/-
Model of the choice of the source files of a run and of the repair of a source file by the figure tool.
-/
import Verif.Model.Pipeline
import Verif.Model.MatchingUtils

namespace Verif

/-- The options of `AbstractAnnotatePipelineFactory` that tell the source files
(auto_annotate_utils.py:571-580). -/
structure SourceOpts where
  sourcePath : Option Str
  sourceBasePath : Option Str
  pattern : Str
  limit : Option Nat

/-- `get_source_file_list` (auto_annotate_utils.py:688-699). `find` gives the files matching a pattern;
`find_matching_filenames_with_limit` of sciencebeam_utils gives the first of them. `os.path.join` of `None`
raises a `TypeError`. -/
def sourceFiles (find : Str → List Str) (o : SourceOpts) : Except Err (List Str) :=
  match o.sourcePath with
  | some (c :: p) => .ok [c :: p]
  | _ =>
    match o.sourceBasePath with
    | none => .error .typeError
    | some base =>
      let found := find (joinPath base o.pattern)
      .ok (match o.limit with
        | none => found
        | some n => found.take n)

/-- The check of `process_annotation_pipeline_arguments` (auto_annotate_utils.py:324-327): whether the
options are accepted. -/
def sourceOptsAccepted (o : SourceOpts) : Bool :=
  !(o.sourceBasePath.getD []).isEmpty || !(o.sourcePath.getD []).isEmpty

/-- Python `t in s` for texts. -/
def occursIn (t : Str) : Str → Bool
  | [] => t.isEmpty
  | c :: s => startsWith t (c :: s) || occursIn t s

/-- `fix_source_file_to` (auto_annotate_figure.py:92-97): the data written for the data read. -/
def fixContentEnd (data : Str) : Str :=
  if occursIn c!"</content>" data && !occursIn c!"<content>" data then replaceAll c!"</content>" [] data
  else data

/-- The name of the repaired copy, `get_fixed_source_url` (auto_annotate_figure.py:100-105), in the
temporary directory `dir`. -/
def fixedSourceUrl (dir source : Str) : Str := joinPath dir (baseName source)

end Verif
