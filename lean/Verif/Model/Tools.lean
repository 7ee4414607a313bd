/-
Model of the command line tools for annotating training data: which annotators each tool runs, its
options, and the annotation of one document from loading to saving (`auto_annotate_utils.py:440-686` and
`auto_annotate_*.py`).

The target annotations are parameters; `targets` and `coreTargets` are the same list for the two kinds of
matchers (`Model/TargetAnnotations.lean`).
-/
import Verif.Model.Checks
import Verif.Model.CoreMatching
import Verif.Model.LineNumber
import Verif.Model.PostAnnotators
import Verif.Model.Reference
import Verif.Model.Segmentation

namespace Verif

/-- What the annotators depend on outside the code. -/
structure ToolEnv where
  simple : MatchEnv
  core : CoreEnv
  seg : SegEnv
  ref : RefEnv
  parseInt : Str → Option Int

/-! ### Options (auto_annotate_utils.py:116-330) -/

/-- The options for line numbers (auto_annotate_utils.py:226-247). `ratio` is the text given for
`--min-line-number-ratio`, whose type is `str`; without it the default is a number. -/
structure LineNumberArgs where
  minPerPage : Int := 10
  maxGap : Int := 10
  ratio : Option Str := none

/-- The options common to all tools (auto_annotate_utils.py:116-330). -/
structure ToolArgs where
  /-- `--xml-path` -/
  hasXml : Bool := true
  /-- `--matcher simple` -/
  simpleMatcher : Bool := true
  threshold : Rat := 4/5
  lookahead : Nat := 200
  tagConfigMap : Dict TagConfig := []
  useLineNumbers : Bool := false
  lineNumbers : LineNumberArgs := {}
  targets : List Target := []
  coreTargets : List CoreTarget := []
  noPreserveTags : Bool := false
  alwaysPreserve : List Str := []
  fields : List Str := []
  preserveSubTags : Bool := false
  noPreserveSubFields : List Str := []

/-! ### Default annotators (auto_annotate_utils.py:440-514) -/

/-- `TextLineNumberAnnotatorConfig(min_line_number=…, line_number_ratio_threshold=…)`
(auto_annotate_utils.py:597-600) with the default ratio: the maximum gap is not passed on, so that its
default (annotation/line_number_annotator.py:18, 138) is used. -/
def lineNumberCfg (env : ToolEnv) (a : LineNumberArgs) : LineNumberCfg :=
  ⟨env.simple.cc, env.parseInt, c!"line_no", a.minPerPage, 10, 1/10⟩

/-- `TextLineNumberAnnotator.annotate` (annotation/line_number_annotator.py:156-168) as configured by the
options. Comparing the ratio with a text (annotation/line_number_annotator.py:111) raises `TypeError`. -/
def lineNumberAnnotator (env : ToolEnv) (a : LineNumberArgs) (d : Doc) : Except Err Doc :=
  match a.ratio with
  | none => annotateLineNumbers (lineNumberCfg env a) d
  | some _ =>
    let first := firstTokens d
    let cands := lineNumberCandidates env.parseInt (d.getText env.simple.cc) a.minPerPage 10 first
    if (cands.length : Int) < a.minPerPage then .ok d
    else if first.length = 0 then .error .zeroDivision
    else .error .typeError

/-- `get_simple_annotator_config` (auto_annotate_utils.py:460-470) with the arguments the tools add. -/
def simpleCfg (a : ToolArgs) (useSub preserveSub extend : Bool) : MatchCfg :=
  { threshold := a.threshold
    lookahead := a.lookahead
    tagConfigMap := a.tagConfigMap
    useSubAnnotations := useSub
    preserveSubAnnotations := preserveSub
    extendToLineEnabled := extend }

/-- `get_matching_annotator_config` (auto_annotate_utils.py:472-484). -/
def complexCfg (a : ToolArgs) : CoreCfg :=
  { seqFilter := simpleFilter a.threshold 5 50
    choiceFilter := simpleFilter a.threshold 1 100 }

/-- `get_default_annotators` (auto_annotate_utils.py:488-514). -/
def defaultAnnotators (env : ToolEnv) (a : ToolArgs) (useSub : Bool) : List (Doc → Except Err Doc) :=
  (if a.useLineNumbers then [lineNumberAnnotator env a.lineNumbers] else []) ++
  (if a.hasXml then
    [if a.simpleMatcher then simpleAnnotate env.simple (simpleCfg a useSub false true) a.targets
     else coreAnnotate env.core (complexCfg a) a.coreTargets]
   else [])

/-! ### The tools -/

/-- The tools with their own options. -/
inductive Tool
  /-- `auto_annotate_header.py` -/
  | header
  /-- `auto_annotate_reference_segmenter.py` -/
  | referenceSegmenter
  /-- `auto_annotate_segmentation.py`; `--no-preserve-fields` -/
  | segmentation (cfg : SegConfig) (noPreserveFields : List Str)
  /-- `auto_annotate_fulltext.py`; `--no-extend-to-line`, `--expand-to-previous-untagged-lines`,
  `--expand-to-following-untagged-lines` -/
  | fulltext (noExtend previous following : Bool)
  /-- `auto_annotate_figure.py`; `--segment-figures` -/
  | figure (segment : Bool)
  /-- `auto_annotate_table.py`; `--segment-tables` -/
  | table (segment : Bool)
  /-- `auto_annotate_reference.py`; `--segment-references`, `--include-idno-prefix`,
  `--remove-invalid-references` -/
  | reference (segment includePrefix removeInvalid : Bool)
  /-- `auto_annotate_affiliation_address.py`; `--segment-affiliation`, `--remove-invalid-affiliations` -/
  | affiliation (segment removeInvalid : Bool)

/-- `SimpleMatchingAnnotator` if the tool segments, else `SubTagOnlyAnnotator`
(auto_annotate_figure.py:78-87, auto_annotate_table.py:73-82, auto_annotate_reference.py:150-159,
auto_annotate_affiliation_address.py:101-110), whose two overridden methods do nothing
(annotation/sub_tag_annotator.py:21-25). -/
def matchOrSubTags (env : ToolEnv) (cfg : MatchCfg) (targets : List Target) (segment : Bool) : Doc → Except Err Doc :=
  if segment then simpleAnnotate env.simple cfg targets
  else subTagOnlyAnnotate cfg.preserveSubAnnotations
    (simpleAnnotate env.simple { cfg with mainTags := false, extendToLineEnabled := false } targets)

/-- `REPLACED_TAG_BY_TAG_MAP` (auto_annotate_fulltext.py:119-122). -/
def fulltextReplaced : Dict (Option Str) := [(c!"note_other", none), (c!"note[@type=\"other\"]", none)]

/-- `GROUP_TAG_BY_TAG_MAP.get` (auto_annotate_fulltext.py:125-127, 166). -/
def fulltextGroup (tag : Str) : Option Str := if tag = c!"list_item" then some c!"list" else none

/-- `EXPAND_TO_UNTAGGED_LINES_ENABLED_TAGS` (auto_annotate_fulltext.py:132-135). -/
def fulltextExpanded : List Str := [c!"figure", c!"table"]

/-- `needle in s`. -/
def hasSubstring (needle : Str) : Str → Bool
  | [] => needle.isEmpty
  | c :: s => startsWith needle (c :: s) || hasSubstring needle s

/-- `get_address_group_tag_for_sub_tag` (auto_annotate_affiliation_address.py:79-82, 73-76). -/
def addressGroup (subTag : Str) : Option Str :=
  if hasSubstring c!"address" subTag then some c!"author_aff-address" else none

/-- `IDNO_SUB_TAGS` (auto_annotate_reference.py:94-102). -/
def idnoSubTags : List Str :=
  [c!"reference-issn", c!"reference-isbn", c!"reference-doi", c!"reference-pii", c!"reference-pmid",
   c!"reference-pmcid", c!"reference-arxiv"]

/-- `_get_default_reference_annotator_config` (auto_annotate_reference.py:122-131; the
constants are 77-119) and `--include-idno-prefix` (auto_annotate_reference.py:195-196). -/
def referenceCfg (includePrefix : Bool) : RefConfig where
  subTagMap := [(c!"reference-fpage", c!"reference-page"), (c!"reference-lpage", c!"reference-page")]
  mergeTags := [c!"reference-author", c!"reference-editor", c!"reference-issue", c!"reference-page"]
  prefixTags := if includePrefix then idnoSubTags else []
  suffixTags := [c!"reference-author", c!"reference-editor"]
  prefixRegex :=
    [(c!"reference-issn", c!"\\b[a-zA-Z]{2,}(\\s?:)?$"), (c!"reference-isbn", c!"\\b[a-zA-Z]{2,}(\\s?:)?$"),
     (c!"reference-doi", c!"(?i)\\bDOI(\\s?:)?$"), (c!"reference-pii", c!"(?i)\\bPII(\\s?:)?$"),
     (c!"reference-pmid", c!"\\b[a-zA-Z]{2,}(\\s?:)?$"), (c!"reference-pmcid", c!"\\b[a-zA-Z]{2,}(\\s?:)?$"),
     (c!"reference-arxiv", c!"\\b[a-zA-Z]{2,}(\\s?:)?$")]
  etal := c!"reference-etal"
  etalMerge := [c!"reference-author", c!"reference-editor"]

/-- An annotator that raises no exception. -/
def total (f : Doc → Doc) (d : Doc) : Except Err Doc := .ok (f d)

/-- `RemoveUntaggedPostProcessingAnnotator.annotate` (annotation/remove_untagged_annotator.py:13-16) if
enabled. -/
def removeUntaggedIf (enabled : Bool) : List (Doc → Except Err Doc) :=
  if enabled then [total Doc.removeAllUntagged] else []

/-- `_get_annotator` of the tools: auto_annotate_header.py:46-49, auto_annotate_reference_segmenter.py:44-47,
auto_annotate_segmentation.py:93-105, auto_annotate_fulltext.py:138-187, auto_annotate_figure.py:63-89,
auto_annotate_table.py:58-84, auto_annotate_reference.py:134-168,
auto_annotate_affiliation_address.py:85-124. -/
def Tool.annotators (env : ToolEnv) (a : ToolArgs) : Tool → List (Doc → Except Err Doc)
  | .header => defaultAnnotators env a false
  | .referenceSegmenter => defaultAnnotators env a true
  | .segmentation cfg _ =>
    defaultAnnotators env a false ++ [total (segment env.seg cfg (!a.noPreserveTags))]
  | .fulltext noExtend previous following =>
    [simpleAnnotate env.simple (simpleCfg a true true (!noExtend)) a.targets,
     total (replaceTags fulltextReplaced),
     total (mergeGroupTags fulltextGroup none)] ++
    (if previous then [total (expandPrevious fulltextExpanded)] else []) ++
    (if following then [total (expandFollowing fulltextExpanded)] else [])
  | .figure seg => [matchOrSubTags env (simpleCfg a true true false) a.targets seg]
  | .table seg => [matchOrSubTags env (simpleCfg a true true false) a.targets seg]
  | .reference seg includePrefix removeInvalid =>
    [matchOrSubTags env (simpleCfg a true false false) a.targets seg,
     referenceAnnotate env.ref (referenceCfg includePrefix)] ++ removeUntaggedIf removeInvalid
  | .affiliation seg removeInvalid =>
    [matchOrSubTags env (simpleCfg a true true false) a.targets seg] ++ removeUntaggedIf removeInvalid ++
    [total (mergeGroupTags addressGroup (some subLevel))]

/-- The field whose elements a tool keeps unless it segments (auto_annotate_figure.py:121-122,
auto_annotate_table.py:100-101, auto_annotate_reference.py:182-183,
auto_annotate_affiliation_address.py:140-141). -/
def Tool.ownField : Tool → Option Str
  | .figure false => some c!"figure"
  | .table false => some c!"table"
  | .reference false _ _ => some c!"reference"
  | .affiliation false _ => some c!"author_aff"
  | _ => none

/-- Whether a tool has the options for sub tags (auto_annotate_figure.py:116-117,
auto_annotate_table.py:95-96, auto_annotate_affiliation_address.py:135-136); the defaults are
auto_annotate_utils.py:562-563. -/
def Tool.hasSubTagOptions : Tool → Bool
  | .figure _ => true
  | .table _ => true
  | .affiliation _ _ => true
  | _ => false

/-- The options with which a document is annotated (auto_annotate_utils.py:577-592, 654-669); the field
kept by a tool replaces the option `--always-preserve-fields`. -/
def Tool.annotateCfg (a : ToolArgs) (t : Tool) : AnnotateCfg where
  preserveTags := !a.noPreserveTags
  fields := match t with
    | .segmentation _ noPreserve => noPreserve
    | _ => a.fields
  preserveFields := match t.ownField with
    | some f => [f]
    | none => a.alwaysPreserve
  preserveSubTags := t.hasSubTagOptions && a.preserveSubTags
  noPreserveSubFields := if t.hasSubTagOptions then a.noPreserveSubFields else []

/-- The annotation of one document (`_auto_annotate`, auto_annotate_utils.py:648-676, calling
`annotate_structured_document`); `passes` are the checks. Tags are always preserved on loading
(structured_document/grobid_training_tei.py:557; annotation/annotator.py:168-171 does not pass the option). -/
def Tool.run (env : ToolEnv) (a : ToolArgs) (t : Tool) (cfg : DocCfg) (passes : Doc → Except Err Bool)
    (root : Elem) (target : Str) (failedTarget : Option Str) : Except Err (Option (Str × Elem)) :=
  annotateDocument
    { load := loadDoc { cfg with preserveTags := true } root
      prepare := beforeAnnotator (t.annotateCfg a)
      annotate := annotateAll (t.annotators env a)
      passes := passes
      serialise := docRoot cfg root }
    target failedTarget

end Verif
