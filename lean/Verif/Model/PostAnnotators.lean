/-
Model of the small annotators working on whole documents:
`annotation/expand_to_untagged_lines_annotator.py`, `annotation/replace_tags_annotator.py`,
`annotation/merge_group_tags_annotator.py`, `annotation/remove_untagged_annotator.py`,
`annotation/annotator.py` and `core/annotation/annotator.py`.
-/
import Verif.Model.TeiDoc

namespace Verif

/-- Loop state of `ExpandToPreviousUntaggedLinesPostProcessingAnnotator.annotate`. -/
structure PrevState where
  doc : Doc
  /-- `previous_untagged_tokens` -/
  pending : List Nat

/-- The loop over `enumerate(previous_untagged_tokens)`
(annotation/expand_to_untagged_lines_annotator.py:61-65). -/
def tagPending (d : Doc) (value : Str) : List Nat → Doc
  | [] => d
  | i :: is =>
    is.foldl (fun d j => d.setTagOnly j (addTagPrefix (some value) (some iPrefix)))
      (d.setTagOnly i (addTagPrefix (some value) (some bPrefix)))

/-- The loop body (annotation/expand_to_untagged_lines_annotator.py:42-70); the sets collected for
logging are left out. -/
def expandPreviousStep (enabled : List Str) (st : PrevState) (i : Nat) : PrevState :=
  let value := st.doc.getTagOrPreservedValue i
  if !truthy value then { st with pending := st.pending ++ [i] }
  else if st.pending.isEmpty then st
  else if !enabled.contains (value.getD []) then { st with pending := [] }
  else
    { doc := (tagPending st.doc (value.getD []) st.pending).setTagOnly i
        (addTagPrefix value (some iPrefix))
      pending := [] }

/-- `ExpandToPreviousUntaggedLinesPostProcessingAnnotator.annotate`
(annotation/expand_to_untagged_lines_annotator.py:38-72). -/
def expandPrevious (enabled : List Str) (d : Doc) : Doc :=
  (d.nonSpaceTokens.foldl (expandPreviousStep enabled) ⟨d, []⟩).doc

/-- The loop body of `ExpandToFollowingUntaggedLinesPostProcessingAnnotator.annotate`
(annotation/expand_to_untagged_lines_annotator.py:95-116); the state is
`previous_enabled_tag_value` and the document. -/
def expandFollowingStep (enabled : List Str) (st : Option Str × Doc) (i : Nat) : Option Str × Doc :=
  let value := st.2.getTagOrPreservedValue i
  if truthy value then
    (if enabled.contains (value.getD []) then value else none, st.2)
  else if !truthy st.1 then st
  else (st.1, st.2.setTagOnly i (addTagPrefix st.1 (some iPrefix)))

/-- `ExpandToFollowingUntaggedLinesPostProcessingAnnotator.annotate`
(annotation/expand_to_untagged_lines_annotator.py:90-121). -/
def expandFollowing (enabled : List Str) (d : Doc) : Doc :=
  (d.nonSpaceTokens.foldl (expandFollowingStep enabled) (none, d)).2

/-- The loop body of `ReplaceTagsPostProcessingAnnotator.annotate`
(annotation/replace_tags_annotator.py:40-50); `repl` is `replaced_tag_by_tag`, whose values may be
`None`. -/
def replaceTagsStep (repl : Dict (Option Str)) (d : Doc) (i : Nat) : Doc :=
  let (pre, value) := splitTagPrefix (d.getTagOrPreserved i)
  if !truthy value then d
  else match repl.get? (value.getD []) with
    | none => d
    | some new => d.setTag i (addTagPrefix new pre)

/-- `ReplaceTagsPostProcessingAnnotator.annotate` (annotation/replace_tags_annotator.py:37-52). -/
def replaceTags (repl : Dict (Option Str)) (d : Doc) : Doc :=
  d.nonSpaceTokens.foldl (replaceTagsStep repl) d

/-- The loop body of `MergeGroupTagsPostProcessingAnnotator.annotate`
(annotation/merge_group_tags_annotator.py:49-67); `group` is `get_group_tag_for_tag_fn`, `level` is
`tag_level` (`None` or a positive level). -/
def mergeGroupStep (group : Str → Option Str) (level : Option Nat) (st : Option Str × Doc) (i : Nat) :
    Option Str × Doc :=
  if level.isSome && !truthy (st.2.getTagOrPreserved i) then st
  else
    let value := st.2.getTagOrPreservedValue i level
    if truthy value then (group (value.getD []), st.2)
    else if !truthy st.1 then st
    else (st.1, st.2.setTagOnly i (addTagPrefix st.1 (some iPrefix)) level)

/-- `MergeGroupTagsPostProcessingAnnotator.annotate`
(annotation/merge_group_tags_annotator.py:40-69). -/
def mergeGroupTags (group : Str → Option Str) (level : Option Nat) (d : Doc) : Doc :=
  (d.nonSpaceTokens.foldl (mergeGroupStep group level) (none, d)).2

/-- `_preserve_tag_fn` (annotation/annotator.py:48-58).  `None` sets are represented by empty lists,
which behave alike. -/
def preserveTagFn (includeFields excludeFields : List Str) (existing : Option Str) : Option Str :=
  let simple := stripTagPrefix existing
  if simple.any (fun t => excludeFields.contains t) then none
  else if !includeFields.isEmpty && !simple.any (fun t => includeFields.contains t) then none
  else existing

/-- The loop body of `_map_token_tags` (annotation/annotator.py:41-45). -/
def mapTokenTagsStep (tagFn : Option Str → Option Str) (level : Option Nat) (d : Doc) (i : Nat) : Doc :=
  let tag := d.getTagOrPreserved i level
  let updated := tagFn tag
  if updated ≠ tag then (d.setTagOnly i updated level).clearPreservedTagOnly i level else d

/-- `_map_token_tags` (annotation/annotator.py:35-45). -/
def mapTokenTags (tagFn : Option Str → Option Str) (level : Option Nat) (d : Doc) : Doc :=
  d.allTokens.foldl (mapTokenTagsStep tagFn level) d

/-- Options of the annotation of a document (annotation/annotator.py:73-80, 152-165). -/
structure AnnotateCfg where
  preserveTags : Bool
  /-- the fields to be annotated -/
  fields : List Str
  /-- `preserve_fields` / `always_preserve_fields` -/
  preserveFields : List Str
  preserveSubTags : Bool
  noPreserveSubFields : List Str

/-- `annotate_structured_document_inplace` (annotation/annotator.py:73-128) up to the call of the
annotator. -/
def prepareDoc (cfg : AnnotateCfg) (d : Doc) : Doc :=
  let tagFn :=
    if cfg.preserveTags || !cfg.preserveFields.isEmpty then
      preserveTagFn cfg.preserveFields
        (cfg.fields.filter (fun f => !cfg.preserveFields.contains f))
    else fun _ => none
  let d1 := mapTokenTags tagFn none d
  if !cfg.preserveSubTags then mapTokenTags (fun _ => none) (some subLevel) d1
  else if !cfg.noPreserveSubFields.isEmpty then
    mapTokenTags (preserveTagFn [] cfg.noPreserveSubFields) (some subLevel) d1
  else d1

/-- The loop body of `_apply_preserved_fields` (annotation/annotator.py:136-143). -/
def applyPreservedStep (fields : List Str) (d : Doc) (i : Nat) : Doc :=
  let full := d.getTagOrPreserved i
  if (stripTagPrefix full).any (fun t => fields.contains t) then d.setTag i full else d

/-- `_apply_preserved_fields` (annotation/annotator.py:131-149). -/
def applyPreservedFields (fields : List Str) (d : Doc) : Doc :=
  d.allTokens.foldl (applyPreservedStep fields) d

/-- The state of a loaded document just before the annotator runs
(annotation/annotator.py:172-183 and 81-126). -/
def beforeAnnotator (cfg : AnnotateCfg) (d : Doc) : Doc :=
  prepareDoc cfg (if cfg.preserveFields.isEmpty then d else applyPreservedFields cfg.preserveFields d)

/-- `Annotator.annotate` (core/annotation/annotator.py:20-23): the annotators one after the
other. -/
def annotateAll {D : Type} (annotators : List (D → Except Err D)) (d : D) : Except Err D :=
  match annotators with
  | [] => .ok d
  | a :: as =>
    match a d with
    | .error e => .error e
    | .ok d1 => annotateAll as d1

/-- The environment of `annotate_structured_document` (annotation/annotator.py:152-202): loading,
the steps changing the document, the checks and serialising, all of which may raise. -/
structure SaveEnv (D X : Type) where
  load : Except Err D
  prepare : D → D
  annotate : D → Except Err D
  passes : D → Except Err Bool
  serialise : D → Except Err X

/-- `annotate_structured_document` (annotation/annotator.py:152-202): the file written (path and
content), if any.  An empty failed path counts as none.  Errors of `serialise` are reported as
`RuntimeError` (structured_document/grobid_training_tei.py:741-745). -/
def annotateDocument {D X : Type} (env : SaveEnv D X) (target : Str) (failedTarget : Option Str) :
    Except Err (Option (Str × X)) :=
  match env.load with
  | .error e => .error e
  | .ok d0 =>
    match env.annotate (env.prepare d0) with
    | .error e => .error e
    | .ok d =>
      match env.passes d with
      | .error e => .error e
      | .ok true =>
        match env.serialise d with
        | .error _ => .error .runtimeError
        | .ok x => .ok (some (target, x))
      | .ok false =>
        match failedTarget with
        | some (c :: s) =>
          match env.serialise d with
          | .error _ => .error .runtimeError
          | .ok x => .ok (some (c :: s, x))
        | _ => .ok none

/-- `SubTagOnlyAnnotator.annotate` (annotation/sub_tag_annotator.py:27-49); `inner` is
`SimpleMatchingAnnotator.annotate` with the two overridden methods. The saved tags are not used
by the restoring loop (45-48 overwrites the loop variable). -/
def subTagOnlyAnnotate (preserveSub : Bool) (inner : Doc → Except Err Doc) (d : Doc) : Except Err Doc :=
  let ids := d.allTokens
  let d1 := ids.foldl (fun d i =>
    let d' := d.setTagOnly i none
    if preserveSub then d' else d'.clearPreservedSubTag i) d
  match inner d1 with
  | .error e => .error e
  | .ok d2 => .ok (ids.foldl (fun d i => d.setTagOnly i (d.getTagOrPreserved i)) d2)

end Verif
