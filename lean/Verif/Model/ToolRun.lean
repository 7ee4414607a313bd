/-
Model of the annotation of one source file with its target file, from reading to saving
(`auto_annotate_utils.py:625-686` and the methods of the tools called there).
-/
import Verif.Model.SegChecks
import Verif.Model.SourceFiles
import Verif.Model.TargetAnnotations
import Verif.Model.TargetFile
import Verif.Model.Tools
import Verif.Model.XmlFix

namespace Verif

/-- What a run depends on outside the code, apart from the files. -/
structure RunEnv where
  tool : ToolEnv
  /-- `re.sub` -/
  reSub : Str → Str → Str → Except Err Str
  /-- `load_xml_root(..., parser=etree.XMLParser(recover=True))` (structured_document/grobid_training_tei.py:729-737)
  for the data of the file -/
  parseSource : Str → Except Err Elem
  /-- `parse_xml(path).getroot()` for the data of the file: the root and its tag -/
  parseTarget : Str → Except Err (Str × XNode)
  /-- the functions of `lxml`, for the document with this root, and of the standard library -/
  target : XNode → TargetEnv
  /-- `etree.tostring(root)` -/
  tostring : Elem → Str
  /-- whether `etree.fromstring` succeeds -/
  validXml : Str → Bool
  /-- the HTML parser of the standard library -/
  tokenise : Str → List HtmlEvent
  /-- `get_levenshtein_ratio` -/
  ratio : Str → Str → Rat
  /-- whether `fuzzy_search(text, value, threshold=0.8)` finds a match -/
  search : Str → Str → Except Err Bool

/-- The options of a run of a tool for the annotation of documents (auto_annotate_utils.py:555-606 and the
constructors of the tools). The targets given in `args` are not used. Only some tools have the options for
the checks; the lists are empty for the others. -/
structure RunOpts where
  tool : Tool
  args : ToolArgs := {}
  xmlPath : Str
  xmlRegex : Str
  xmlMapping : Dict (Dict Str)
  requireMatching : List Str := []
  required : List Str := []
  doc : DocCfg

/-- The data of the file returned by `get_final_source_url` (auto_annotate_utils.py:645-646,
auto_annotate_fulltext.py:216-219, auto_annotate_figure.py:135-138) for the data of the source file.
Simplification: the data are text; the temporary copy exists until it was read (see `Model/TempFiles.lean`). -/
def finalSource (env : RunEnv) (t : Tool) (data : Str) : Except Err Str :=
  match t with
  | .fulltext _ _ _ => getFixedXmlStr env.validXml env.tokenise data
  | .figure _ => .ok (fixContentEnd data)
  | _ => .ok data

/-- Whether a tool uses `get_default_annotators` (auto_annotate_utils.py:489-514), which does not read a file
if its path is empty. -/
def Tool.usesDefault : Tool → Bool
  | .header => true
  | .referenceSegmenter => true
  | .segmentation _ _ => true
  | _ => false

/-- `xml_root_to_target_annotations(parse_xml(xml_path).getroot(), xml_mapping)` as called by the tools
(auto_annotate_utils.py:498-502, auto_annotate_fulltext.py:145-148, auto_annotate_figure.py:68-71,
auto_annotate_table.py:63-66, auto_annotate_reference.py:140-143,
auto_annotate_affiliation_address.py:91-94). -/
def readTargets (env : RunEnv) (o : RunOpts) (fs : FileStore) (path : Str) : Except Err (List TargetItem) :=
  if o.tool.usesDefault && path.isEmpty then .ok []
  else
    match fs path with
    | none => .error .exception
    | some data =>
      match env.parseTarget data with
      | .error e => .error e
      | .ok (tag, root) => xmlRootToTargetAnnotations (env.target root) o.xmlMapping tag root

/-- The target annotation for the complex matcher; sub annotations have the default options
(core/annotation/target_annotation.py:50-62). -/
def TargetItem.core (i : TargetItem) : CoreTarget :=
  ⟨i.target.name, i.target.value, i.matchMultiple, i.bonding, i.requireNext,
    i.target.subs.map (fun s => { name := s.1, value := s.2 })⟩

/-- The target annotation for the checks. -/
def TargetItem.check (i : TargetItem) : CheckTarget :=
  ⟨i.target.name, match i.target.value with
    | .one s => some s
    | .many _ => none⟩

/-- The options for annotating a document with these target annotations. -/
def RunOpts.withTargets (o : RunOpts) (path : Str) (items : List TargetItem) : ToolArgs :=
  { o.args with hasXml := !path.isEmpty, targets := items.map (·.target), coreTargets := items.map (·.core) }

/-- The attribute `target_annotations` of the annotators of a tool (`Tool.annotators`, in the same order), `none` for annotators
without it: only the two matchers have it (annotation/simple_matching_annotator.py:370,
core/annotation/matching_annotator.py:650). -/
def Tool.annotatorTargets (a : ToolArgs) (items : List TargetItem) : Tool → List (Option (List TargetItem))
  | .header => (if a.useLineNumbers then [none] else []) ++ (if a.hasXml then [some items] else [])
  | .referenceSegmenter => (if a.useLineNumbers then [none] else []) ++ (if a.hasXml then [some items] else [])
  | .segmentation _ _ => (if a.useLineNumbers then [none] else []) ++ (if a.hasXml then [some items] else []) ++ [none]
  | .fulltext _ previous following =>
    [some items, none, none] ++ (if previous then [none] else []) ++ (if following then [none] else [])
  | .figure _ => [some items]
  | .table _ => [some items]
  | .reference _ _ removeInvalid => [some items, none] ++ (if removeInvalid then [none] else [])
  | .affiliation _ removeInvalid => [some items] ++ (if removeInvalid then [none] else []) ++ [none]

/-- `is_structured_document_passing_checks` of the tools (auto_annotate_utils.py:634-643,
auto_annotate_segmentation.py:198-209) with the target annotations of the annotator, which are those read
(`C28_checked_targets` in `Props/ToolRun.lean`). -/
def runChecks (env : RunEnv) (o : RunOpts) (items : List TargetItem) : Doc → Except Err Bool :=
  match o.tool with
  | .segmentation cfg _ => segPassesChecks env.search cfg o.requireMatching o.required (items.map (·.check))
  | _ => passesChecks env.ratio (4/5) o.requireMatching o.required (items.map (·.check))

/-- The part of `_auto_annotate` within the `try` (auto_annotate_utils.py:653-676): the document to be written
and the path to write it to, if any. -/
def annotateFile (env : RunEnv) (o : RunOpts) (cfg : PipelineConfig) (fs : FileStore) (source : Str) :
    Except Err (Option (Str × Elem)) :=
  match fs source with
  | none => .error .exception
  | some data =>
    match finalSource env o.tool data with
    | .error e => .error e
    | .ok final =>
      match targetXml env.reSub o.xmlPath o.xmlRegex source with
      | .error e => .error e
      | .ok path =>
        match readTargets env o fs path with
        | .error e => .error e
        | .ok items =>
          match env.parseSource final with
          | .error e => .error e
          | .ok root =>
            o.tool.run env.tool (o.withTargets path items) o.doc (runChecks env o items) root
              (annotatedOutput cfg.outputPath source) (failedOutput cfg.failedOutputPath source)

/-- The result as seen by the pipeline (`Model/Pipeline.lean`). The path tells whether the checks passed; if it is
the path for both cases, the same data are written to it. -/
def processFile (env : RunEnv) (o : RunOpts) (cfg : PipelineConfig) (fs : FileStore) (source : Str) : DocResult :=
  match annotateFile env o cfg fs source with
  | .error _ => .error
  | .ok none => .failedChecks []
  | .ok (some (path, root)) =>
    if path = annotatedOutput cfg.outputPath source then .passed (env.tostring root)
    else .failedChecks (env.tostring root)

end Verif
