/-
Model of what the tools make of the options given on the command line: the constructors of the tools
(`auto_annotate_*.py`, `auto_annotate_utils.py:555-606`) and the types of the options
(`auto_annotate_utils.py:116-330`).
-/
import Verif.Model.ConfigFile
import Verif.Model.TagConfig
import Verif.Model.ToolPaths
import Verif.Model.ToolRun

namespace Verif

/-- What reading the options depends on outside the code. -/
structure CliEnv where
  tag : TagConfigEnv
  /-- `parse_list` of sciencebeam_utils -/
  parseList : Str → List Str
  /-- which names lxml's element factory accepts -/
  okNode : Str → Dict Str → Bool

/-- A tool with its own options as given. -/
inductive CliTool
  /-- `auto_annotate_header.py` -/
  | header
  /-- `auto_annotate_reference_segmenter.py` -/
  | referenceSegmenter
  /-- `auto_annotate_segmentation.py`: the lines of `--segmentation-config`, `--no-merge-references`,
  `--no-preserve-fields` -/
  | segmentation (config : List Str) (noMergeReferences : Bool) (noPreserveFields : Option Str)
  /-- `auto_annotate_fulltext.py` -/
  | fulltext (noExtend previous following : Bool)
  /-- `auto_annotate_figure.py` -/
  | figure (segment : Bool)
  /-- `auto_annotate_table.py` -/
  | table (segment : Bool)
  /-- `auto_annotate_reference.py` -/
  | reference (segment includePrefix removeInvalid : Bool)
  /-- `auto_annotate_affiliation_address.py` -/
  | affiliation (segment removeInvalid : Bool)

/-- The options given to a tool; `none` if an option is not given. -/
structure CliArgs where
  tool : CliTool
  /-- the options which are numbers or switches; the lists in it are not used -/
  plain : ToolArgs := {}
  /-- the lines of the file `--xml-mapping-path` -/
  mapping : List Str
  xmlPath : Str
  xmlRegex : Str
  fields : Option Str := none
  /-- only for the tools with this option -/
  subFields : Option Str := none
  overrides : Option Str := none
  alwaysPreserve : Option Str := none
  /-- only for the tools with this option -/
  noPreserveSubFields : Option Str := none
  /-- only for the tools with this option -/
  requireMatching : Option Str := none
  /-- only for the tools with this option -/
  required : Option Str := none

/-- An option of type `comma_separated_str_to_list`; `None` counts like the empty list wherever these options are
used (annotation/annotator.py:82-88, 173, auto_annotate_utils.py:636-643). -/
def listOption (cc : CharClass) (s : Option Str) : List Str :=
  match s with
  | none => []
  | some s => commaList cc s

/-- `plus_minus_comma_separated_str_to_set` (utils/string.py:45-48): the elements of the set. -/
def plusMinusSet (cc : CharClass) (dflt : List Str) (s : Str) : Except Err (List Str) :=
  (plusMinusList cc (fun _ => dflt) 0 1 s).2

/-- `--fields` and `--sub-fields` (auto_annotate_utils.py:278-304). Without a value `argparse` applies the type to
the default, which is a text if there is any; the result `None` counts like the empty set. -/
def fieldsOption (cc : CharClass) (dflt : List Str) (s : Option Str) : Except Err (List Str) :=
  match s with
  | none => if dflt.isEmpty then .ok [] else plusMinusSet cc dflt (joinStr c!"," dflt)
  | some s => plusMinusSet cc dflt s

/-- `DEFAULT_FIELDS` (auto_annotate_segmentation.py:63-86). -/
def segmentationFields : List Str :=
  [c!"title", c!"abstract", c!"keywords_title", c!"keywords", c!"manuscript_type", c!"author", c!"author_aff",
   c!"author_notes", c!"body_section_title", c!"body_section_paragraph", c!"body_figure", c!"body_table",
   c!"back_section_title", c!"back_section_paragraph", c!"back_figure", c!"back_table",
   c!"acknowledgment_section_title", c!"acknowledgment_section_paragraph", c!"appendix_group_title", c!"appendix",
   c!"reference_list_title", c!"reference"]

/-- `ALL_FIELDS` (auto_annotate_fulltext.py:100-113). -/
def fulltextFields : List Str :=
  [c!"keywords", c!"section_title", c!"section_paragraph", c!"boxed_text_title", c!"boxed_text_paragraph", c!"list",
   c!"list_item", c!"appendix_group_title", c!"appendix", c!"figure", c!"table", c!"reference_list_title"]

/-- The default of `--fields` (auto_annotate_header.py:85, auto_annotate_segmentation.py:214,
auto_annotate_reference_segmenter.py:37, auto_annotate_fulltext.py:236, auto_annotate_figure.py:60,
auto_annotate_table.py:55, auto_annotate_reference.py:75, auto_annotate_affiliation_address.py:70). -/
def CliTool.defaultFields : CliTool → List Str
  | .header => []
  | .referenceSegmenter => [c!"reference"]
  | .segmentation _ _ _ => segmentationFields
  | .fulltext _ _ _ => fulltextFields
  | .figure _ => [c!"figure"]
  | .table _ => [c!"table"]
  | .reference _ _ _ => [c!"reference"]
  | .affiliation _ _ => [c!"author_aff"]

/-- The default of `--sub-fields` of the tools with this option (auto_annotate_fulltext.py:116, 237,
auto_annotate_figure.py:153, auto_annotate_table.py:127, auto_annotate_affiliation_address.py:169). -/
def CliTool.defaultSubFields : CliTool → Option (List Str)
  | .fulltext _ _ _ => some (fulltextMapping.map (·.1))
  | .figure _ => some []
  | .table _ => some []
  | .affiliation _ _ => some []
  | _ => none

/-- Whether a tool has the options for checks (auto_annotate_header.py:84, auto_annotate_segmentation.py:213,
auto_annotate_fulltext.py:235). -/
def CliTool.hasChecks : CliTool → Bool
  | .header => true
  | .segmentation _ _ _ => true
  | .fulltext _ _ _ => true
  | _ => false

/-- The tool with its configuration (auto_annotate_segmentation.py:181-185). -/
def CliTool.tool (env : CliEnv) : CliTool → Except Err Tool
  | .header => .ok .header
  | .referenceSegmenter => .ok .referenceSegmenter
  | .segmentation config noMerge noPreserve =>
    match parseSegConfig env.tag.cc env.tag.lower env.tag.parseInt env.parseList config with
    | .error e => .error e
    | .ok cfg =>
      .ok (.segmentation (if noMerge then { cfg with noMergeReferences := true } else cfg) (listOption env.tag.cc noPreserve))
  | .fulltext noExtend previous following => .ok (.fulltext noExtend previous following)
  | .figure segment => .ok (.figure segment)
  | .table segment => .ok (.table segment)
  | .reference segment includePrefix removeInvalid => .ok (.reference segment includePrefix removeInvalid)
  | .affiliation segment removeInvalid => .ok (.affiliation segment removeInvalid)

/-- `tag_to_tei_path_mapping` of a tool before paths for fields are added; the name spaces are resolved first
(auto_annotate_utils.py:570-573). -/
def CliTool.basePaths (cc : CharClass) : CliTool → Dict Str
  | .header => headerMapping
  | .referenceSegmenter => referenceSegmenterMapping
  | .segmentation _ _ _ => segmentationMapping
  | .fulltext _ _ _ => fulltextMapping
  | .figure _ => resolveMapping cc teiNsMap figureMapping
  | .table _ => resolveMapping cc teiNsMap tableMapping
  | .reference _ _ _ => resolveMapping cc teiNsMap referenceMapping
  | .affiliation _ _ => resolveMapping cc teiNsMap affiliationMapping

/-- The paths for the fields (auto_annotate_header.py:68-71 and the same lines of the other tools); the tool for
segmentation has none (auto_annotate_segmentation.py:165-185). -/
def CliTool.paths (cc : CharClass) (t : CliTool) (fields : List Str) : Dict Str :=
  match t with
  | .segmentation _ _ _ => t.basePaths cc
  | _ => addFieldPaths (t.basePaths cc) fields

/-- A name in the TEI name space. -/
def teiName (name : Str) : Str := c!"{http://www.tei-c.org/ns/1.0}" ++ name

/-- The container (auto_annotate_header.py:29, auto_annotate_segmentation.py:45,
auto_annotate_reference_segmenter.py:27, auto_annotate_fulltext.py:56, auto_annotate_figure.py:49,
auto_annotate_table.py:44, auto_annotate_reference.py:48, auto_annotate_affiliation_address.py:51-53). -/
def CliTool.container : CliTool → List Str
  | .header => [c!"text", c!"front"]
  | .reference _ _ _ => [c!"text", c!"back", c!"listBibl"].map teiName
  | .affiliation _ _ => [c!"teiHeader", c!"fileDesc", c!"sourceDesc", c!"biblStruct", c!"analytic", c!"author"].map teiName
  | _ => [c!"text"]

/-- The sub fields selected; the empty set if the tool has no such option. -/
def CliTool.subFields (cc : CharClass) (t : CliTool) (s : Option Str) : Except Err (List Str) :=
  match t.defaultSubFields with
  | none => .ok []
  | some dflt => fieldsOption cc dflt s

/-- `--xml-mapping-overrides` (auto_annotate_utils.py:248-253); `None` counts like the empty dictionary. -/
def overridesOption (cc : CharClass) (s : Option Str) : Except Err (Dict Str) :=
  match s with
  | none => .ok []
  | some s => parseDict cc s

/-- `get_simple_tag_config_map` where the simple matcher is used (auto_annotate_utils.py:466-473, 503-509): the tools
which do not use `get_default_annotators` always use it. -/
def matcherTagConfigs (env : CliEnv) (tool : Tool) (simpleMatcher : Bool) (mapping : Mapping) : Except Err (Dict TagConfig) :=
  if tool.usesDefault && !simpleMatcher then .ok [] else getSimpleTagConfigMap env.tag mapping

/-- The options of a run for the options given (auto_annotate_utils.py:555-606 and the constructors of the tools).
Simplification: options of fields which cannot be read make the run fail here; in the code they make the annotation of
each document fail, with the same effect on the files. -/
def CliArgs.options (env : CliEnv) (c : CliArgs) : Except Err RunOpts :=
  let cc := env.tag.cc
  match fieldsOption cc c.tool.defaultFields c.fields with
  | .error e => .error e
  | .ok fields =>
    match c.tool.subFields cc c.subFields with
    | .error e => .error e
    | .ok subFields =>
      match overridesOption cc c.overrides with
      | .error e => .error e
      | .ok overrides =>
        match parseXmlMapping cc env.tag.lower c.mapping with
        | .error e => .error e
        | .ok mapping =>
          let selected := mappingAndFields mapping fields subFields overrides
          match c.tool.tool env with
          | .error e => .error e
          | .ok tool =>
            match matcherTagConfigs env tool c.plain.simpleMatcher selected.1 with
            | .error e => .error e
            | .ok configs =>
              .ok {
                tool := tool
                args := { c.plain with
                  tagConfigMap := configs
                  alwaysPreserve := listOption cc c.alwaysPreserve
                  fields := fields
                  noPreserveSubFields := listOption cc c.noPreserveSubFields }
                xmlPath := c.xmlPath
                xmlRegex := c.xmlRegex
                xmlMapping := selected.1
                requireMatching := if c.tool.hasChecks then listOption cc c.requireMatching else []
                required := if c.tool.hasChecks then listOption cc c.required else []
                doc := {
                  cc := cc
                  mapping := c.tool.paths cc selected.2
                  okNode := env.okNode
                  containerPath := c.tool.container
                  preserveTags := true } }

end Verif
