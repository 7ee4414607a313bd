/-
Model of `annotation/simple_matching_annotator.py`.
-/
import Verif.Model.MatchingUtils
import Verif.Model.PyList
import Verif.Model.FuzzySearch

namespace Verif

/-! ### Index ranges (annotation/simple_matching_annotator.py:146-231) -/

/-- Order of Python tuples of two numbers. -/
def rangeLe (r r' : Nat × Nat) : Bool := decide (r.1 < r'.1) || (decide (r.1 = r'.1) && decide (r.2 ≤ r'.2))

/-- `merge_index_ranges` (annotation/simple_matching_annotator.py:146-150) of a nonempty list;
`min` and `max` of an empty sequence raise a `ValueError`. -/
def mergeIndexRanges : List (Nat × Nat) → Except Err (Nat × Nat)
  | [] => .error .valueError
  | r :: rs => .ok (rs.foldl (fun m x => min m x.1) r.1, rs.foldl (fun m x => max m x.2) r.2)

/-- `IndexRangeCluster` (annotation/simple_matching_annotator.py:161-163): its sorted ranges. -/
abbrev Cluster := List (Nat × Nat)

/-- `IndexRangeCluster.__init__` (annotation/simple_matching_annotator.py:162-163, 153-154). -/
def mkCluster (rs : List (Nat × Nat)) : Cluster := sortBy rangeLe rs

/-- `IndexRangeCluster.start` (168-170); clusters are not empty. -/
def Cluster.start (c : Cluster) : Int := ((c.head?.map Prod.fst).getD 0 : Nat)
/-- `IndexRangeCluster.end` (172-174). -/
def Cluster.stop (c : Cluster) : Int := ((c.getLast?.map Prod.snd).getD 0 : Nat)
/-- `IndexRangeCluster.length` (176-178). -/
def Cluster.len (c : Cluster) : Int := c.stop - c.start
/-- `IndexRangeCluster.gap_to` (180-183). -/
def Cluster.gapTo (c c' : Cluster) : Int :=
  if c'.start ≥ c.stop then c'.start - c.stop else c.start - c'.stop
/-- `IndexRangeCluster.should_merge` (185-190). -/
def Cluster.shouldMerge (c c' : Cluster) : Bool := decide (c.gapTo c' ≤ max c.len c'.len + 10)

/-- One iteration of the `while` loop of `merge_related_clusters` (198-206): `last` is
`merged_clusters[-1]`; the result is `merged_clusters` from there on. -/
def mergePass (last : Cluster) : List Cluster → List Cluster
  | [] => [last]
  | c :: cs =>
    if last.shouldMerge c then mergePass (mkCluster (last ++ c)) cs
    else last :: mergePass c cs

/-- `has_merged` (200-204). -/
def hasMerged (last : Cluster) : List Cluster → Bool
  | [] => false
  | c :: cs => if last.shouldMerge c then true else hasMerged c cs

/-- `merge_related_clusters` (196-209). The first argument bounds the number of iterations, `none` means
that it was too small. `clusters[0]` raises an `IndexError` for an empty list. -/
def mergeRelated : Nat → List Cluster → Except Err (Option (List Cluster))
  | _, [] => .error .indexError
  | 0, _ :: _ => .ok none
  | n + 1, c :: cs =>
    if hasMerged c cs then mergeRelated n (mergePass c cs) else .ok (some (mergePass c cs))

/-- `select_index_ranges` (212-231). `sorted(…, reverse=True)` keeps the order of equal elements. -/
def selectIndexRanges (rs : List (Nat × Nat)) : Except Err (List (Nat × Nat) × List (Nat × Nat)) :=
  if rs.length ≤ 1 then .ok (rs, [])
  else
    match mergeRelated rs.length ((sortBy rangeLe rs).map (fun r => mkCluster [r])) with
    | .error e => .error e
    | .ok none => .error .runtimeError
    | .ok (some clusters) =>
      match sortBy (fun c c' => decide (c'.len ≤ c.len)) clusters with
      | [] => .error .indexError
      | c :: cs => .ok (c, sortBy rangeLe cs.flatten)

/-! ### Tags of a line (annotation/simple_matching_annotator.py:242-357) -/

/-- `to_inside_tag` (251-257). -/
def toInsideTag (tag : Option Str) : Option Str :=
  let (pre, value) := splitTagPrefix tag
  if pre = some bPrefix then addTagPrefix value (some iPrefix) else tag

/-- `to_begin_inside_tags` (260-269). -/
def toBeginInsideTags (tag : Option Str) : Nat → List (Option Str)
  | 0 => []
  | n + 1 =>
    let (pre, value) := splitTagPrefix tag
    if !truthy pre then List.replicate (n + 1) tag
    else addTagPrefix value (some bPrefix) :: List.replicate n (addTagPrefix value (some iPrefix))

/-- `get_merged_begin_inside_tags_of_same_tag_value` (272-283). -/
def mergedTags (tags : List (Option Str)) : List (Option Str) :=
  match tags with
  | [] => []
  | t :: ts =>
    let (pre, value) := splitTagPrefix t
    if !truthy pre then t :: ts
    else t :: List.replicate ts.length (addTagPrefix value (some iPrefix))

/-- `get_dict_safe(map, value, default)` (utils/misc.py:9-16) and `map.get(value, default)`. -/
def enabledFor (m : Dict Bool) (dflt : Bool) (value : Option Str) : Bool :=
  match value with
  | none => dflt
  | some v => m.getD v dflt

/-- Options of `get_extended_line_token_tags` (286-291). -/
structure ExtendCfg where
  extendMap : Dict Bool
  mergeMap : Dict Bool
  defaultExtend : Bool := true
  defaultMerge : Bool := true

/-- `next_group[0] = to_inside_tag(next_group[0])` (328-329, 352-353); the condition that its prefix is
the begin prefix is that of `to_inside_tag`. -/
def insideHead : List (Option Str) → List (Option Str)
  | [] => []
  | t :: g => toInsideTag t :: g

/-- The loop of `get_extended_line_token_tags` (314-355): `prev` is `prev_group`, and `changed` tells that
the first tag of the next group has been made an inside tag. Groups are not empty. -/
def extendLoop (cfg : ExtendCfg) (prev : Option (List (Option Str))) (changed : Bool) :
    List (List (Option Str)) → List (Option Str)
  | [] => []
  | g0 :: gs =>
    let g := if changed then insideHead g0 else g0
    let lastPrev := (prev.bind List.getLast?).join
    let prevValue := stripTagPrefix lastPrev
    let firstNext := (gs.head?.bind List.head?).join
    let nextValue := stripTagPrefix firstNext
    let inside := List.replicate g.length (toInsideTag lastPrev)
    if truthy g.head?.join then g ++ extendLoop cfg (some g) false gs
    else match prev, gs.head? with
      | some _, some _ =>
        if prevValue = nextValue ∧ enabledFor cfg.mergeMap cfg.defaultMerge prevValue = true then
          inside ++ extendLoop cfg (some g) true gs
        else g ++ extendLoop cfg (some g) false gs
      | some p, none =>
        if !enabledFor cfg.extendMap cfg.defaultExtend prevValue then g ++ extendLoop cfg (some g) false gs
        else if g.length < p.length then inside ++ extendLoop cfg (some g) false gs
        else g ++ extendLoop cfg (some g) false gs
      | none, some n =>
        if !enabledFor cfg.extendMap cfg.defaultExtend nextValue then g ++ extendLoop cfg (some g) false gs
        else if g.length < n.length then
          toBeginInsideTags firstNext g.length ++ extendLoop cfg (some g) true gs
        else g ++ extendLoop cfg (some g) false gs
      | none, none => g ++ extendLoop cfg (some g) false gs

/-- `get_extended_line_token_tags` (286-357). -/
def extendedLineTags (cfg : ExtendCfg) (tags : List (Option Str)) : List (Option Str) :=
  let groups := (groupBy stripTagPrefix tags).map (fun kg =>
    if enabledFor cfg.mergeMap cfg.defaultMerge (stripTagPrefix kg.2.head?.join) then mergedTags kg.2 else kg.2)
  extendLoop cfg none false groups

/-! ### The annotator (annotation/simple_matching_annotator.py:360-753) -/

/-- `SimpleTagConfig` (67-81); no alternative spellings are an empty dictionary. -/
structure TagConfig where
  matchPrefixRegex : Option Str := none
  alternativeSpellings : Dict (List Str) := []
  mergeEnabled : Bool := true
  extendToLineEnabled : Bool := true
  maxChunks : Int := 1
  blockName : Option Str := none

/-- `SimpleSimpleMatchingConfig` (100-120). -/
structure MatchCfg where
  threshold : Rat := 4/5
  lookahead : Nat := 200
  minTokenLength : Nat := 2
  exactWordMatchThreshold : Nat := 5
  useBeginPrefix : Bool := true
  extendToLineEnabled : Bool := true
  useSubAnnotations : Bool := false
  preserveSubAnnotations : Bool := false
  tagConfigMap : Dict TagConfig := []
  /-- not an option: false for `SubTagOnlyAnnotator`, whose `update_annotation_for_index_range` does nothing
  (annotation/sub_tag_annotator.py:21-22) -/
  mainTags : Bool := true

/-- `get_tag_config` (142-143). -/
def MatchCfg.tagConfig (cfg : MatchCfg) (name : Str) : TagConfig := cfg.tagConfigMap.getD name {}

/-- What the annotator depends on outside the code: character classes, `str.lower`, the matchers,
Python's `round`, and regular expressions (`re.search` returning the start of the match, or raising for
an invalid pattern; `re.escape`). -/
structure MatchEnv where
  cc : CharClass
  lower : Str → Str
  lsm : Str → Str → List Block
  diff : List Str → List Str → List Block
  rnd : Rat → Int
  reSearch : Str → Str → Except Err (Option Nat)
  reEscape : Str → Str

/-- The value of a target annotation: a text or several texts. Nested lists are not modelled. -/
inductive TargetValue
  | one (s : Str)
  | many (ss : List Str)
  deriving DecidableEq

/-- `TargetAnnotation` (core/annotation/target_annotation.py:50-62): the fields used here; sub annotations
are given by name and value. -/
structure Target where
  name : Str
  value : TargetValue
  subs : List (Str × TargetValue) := []
  deriving DecidableEq

/-- The arguments given to the fuzzy search (395-400). -/
def searchEnv (env : MatchEnv) (cfg : MatchCfg) (maxChunks : Int) : SearchEnv :=
  ⟨env.lsm, env.diff, env.rnd, defaultIsJunk env.cc, cfg.threshold, cfg.exactWordMatchThreshold, maxChunks⟩

/-- `split_and_join_with_space` (48-56). -/
def splitAndJoinWithSpace (cc : CharClass) (s : Str) : Str :=
  joinStr [' '] ((splitNonWord cc s).filter (fun t => !(strip cc t).isEmpty))

/-- `get_fuzzy_matching_index_range_chunks` (386-412). The result is empty for `None`. -/
def findChunks (env : MatchEnv) (cfg : MatchCfg) (maxChunks : Int) (haystack needle : Str) :
    Except Err (List (Nat × Nat)) :=
  if needle.length < cfg.minTokenLength then .ok []
  else
    let target := normaliseStr env.lower needle
    let h := if target.length < cfg.exactWordMatchThreshold then replaceAll ['\n'] [' '] haystack else haystack
    match searchRangeChunks (searchEnv env cfg maxChunks) h target 0 with
    | .error e => .error e
    | .ok (some (r :: rs)) => .ok (r :: rs)
    | .ok _ =>
      match searchRangeChunks (searchEnv env cfg maxChunks) h
          (splitAndJoinWithSpace env.cc (normaliseStr env.lower needle)) 0 with
      | .error e => .error e
      | .ok rs => .ok (rs.getD [])

/-- The loop over the alternative spellings (427-434). -/
def findFirst (env : MatchEnv) (cfg : MatchCfg) (maxChunks : Int) (haystack : Str) :
    List Str → Except Err (List (Nat × Nat))
  | [] => .ok []
  | needle :: needles =>
    match findChunks env cfg maxChunks haystack needle with
    | .error e => .error e
    | .ok (r :: rs) => .ok (r :: rs)
    | .ok [] => findFirst env cfg maxChunks haystack needles

/-- `get_fuzzy_matching_index_range_with_alternative_spellings_chunks` (414-434). -/
def findWithAlternatives (env : MatchEnv) (cfg : MatchCfg) (maxChunks : Int) (alternatives : Dict (List Str))
    (haystack needle : Str) : Except Err (List (Nat × Nat)) :=
  findFirst env cfg maxChunks haystack (needle :: alternatives.getD needle [])

/-- `get_fuzzy_matching_index_range_with_alternative_spellings` (436-443) for each value of a list, and
the ranges found (592-604). -/
def findMany (env : MatchEnv) (cfg : MatchCfg) (alternatives : Dict (List Str)) (haystack : Str) :
    List Str → Except Err (List (Nat × Nat))
  | [] => .ok []
  | v :: vs =>
    match findWithAlternatives env cfg 1 alternatives haystack v with
    | .error e => .error e
    | .ok chunks =>
      match findMany env cfg alternatives haystack vs with
      | .error e => .error e
      | .ok rest =>
        match chunks.head?, chunks.getLast? with
        | some r, some r' => .ok ((r.1, r'.2) :: rest)
        | _, _ => .ok rest

/-- `iter_matching_index_ranges` (572-630) for one target annotation. -/
def matchingRanges (env : MatchEnv) (cfg : MatchCfg) (text : Str) (target : Target) :
    Except Err (List (Nat × Nat)) :=
  let tc := cfg.tagConfig target.name
  match target.value with
  | .one v => findWithAlternatives env cfg tc.maxChunks tc.alternativeSpellings text v
  | .many vs =>
    match findMany env cfg tc.alternativeSpellings text vs with
    | .error e => .error e
    | .ok [] => .ok []
    | .ok (r :: rs) =>
      match selectIndexRanges (r :: rs) with
      | .error e => .error e
      | .ok (selected, _) =>
        match mergeIndexRanges selected with
        | .error e => .error e
        | .ok m => .ok [m]

/-- `get_sub_tag_placeholders` (445-452). -/
def subTagPlaceholders (subs : List (Str × TargetValue)) : Dict Str :=
  subs.foldl (fun d s => match s.2 with
    | .one v => d.set s.1 v
    | .many _ => d) []

/-- `re.sub(r'{([^}]+)}', …)` of `resolve_regex_placeholders` (454-461): the first argument bounds the
length. -/
def resolvePlaceholders (f : Str → Str) : Nat → Str → Str
  | 0, s => s
  | _, [] => []
  | n + 1, c :: s =>
    let name := s.takeWhile (fun x => !decide (x = '}'))
    let rest := s.dropWhile (fun x => !decide (x = '}'))
    if c = '{' ∧ name ≠ [] ∧ rest ≠ [] then f name ++ resolvePlaceholders f n (rest.drop 1)
    else c :: resolvePlaceholders f n s

/-- `resolve_regex_placeholders` (454-461). -/
def resolveRegex (env : MatchEnv) (pattern : Str) (placeholders : Dict Str) : Str :=
  resolvePlaceholders (fun name => env.reEscape (placeholders.getD name c!"NOT_FOUND")) pattern.length pattern

/-- `apply_match_prefix_regex_to_index_range` (463-489). -/
def applyPrefixRegex (env : MatchEnv) (cfg : MatchCfg) (text : Str) (range : Nat × Nat) (target : Target) :
    Except Err (Nat × Nat) :=
  let regex := (cfg.tagConfig target.name).matchPrefixRegex
  if 0 < range.1 ∧ truthy regex = true then
    match env.reSearch (resolveRegex env (regex.getD []) (subTagPlaceholders target.subs)) (text.take range.1) with
    | .error e => .error e
    | .ok none => .ok range
    | .ok (some start) => .ok (start, range.2)
  else .ok range

/-- The prefix of the tag of the token at an index (509-511, 560-562). -/
def indexPrefix (cfg : MatchCfg) (index : Nat) : Option Str :=
  if cfg.useBeginPrefix then (if index = 0 then some bPrefix else some iPrefix) else none

/-- The loop of `update_annotation_for_index_range` (508-516). -/
def tagTokens (cfg : MatchCfg) (name : Str) (d : Doc) (index : Nat) : List Nat → Doc
  | [] => d
  | i :: is =>
    let full := addTagPrefix (some name) (indexPrefix cfg index)
    tagTokens cfg name (if cfg.preserveSubAnnotations then d.setTagOnly i full else d.setTag i full) (index + 1) is

/-- `update_annotation_for_index_range` (491-516), overridden by annotation/sub_tag_annotator.py:21-22. -/
def updateRange (senv : SeqEnv) (cfg : MatchCfg) (seqs : List (List Nat)) (range : Nat × Nat) (name : Str) (d : Doc) : Doc :=
  if cfg.mainTags then
    let matching := seqTokensBetween senv d range.1 range.2 seqs
    tagTokens cfg name d 0 (matching.filter (fun i => !truthy (d.getTag i)))
  else d

/-- The loop of `process_sub_annotations` over the tokens (559-564). -/
def subTagTokens (cfg : MatchCfg) (name : Str) (d : Doc) (index : Nat) : List Nat → Doc
  | [] => d
  | i :: is =>
    subTagTokens cfg name (d.setSubTag i (addTagPrefix (some name) (indexPrefix cfg index))) (index + 1) is

/-- The loop of `process_sub_annotations` over the ranges found (542-566); `err` is raised when no more
range is found. -/
def subRanges (senv : SeqEnv) (cfg : MatchCfg) (tokens : List Nat) (name : Str) (d : Doc) (err : Option Err) :
    List (Nat × Nat) → Except Err Doc
  | [] => match err with
    | none => .ok d
    | some e => .error e
  | r :: rs =>
    let matching := seqTokensBetween senv d r.1 r.2 [tokens]
    if matching.any (fun i => truthy (d.getSubTag i)) then subRanges senv cfg tokens name d err rs
    else .ok (subTagTokens cfg name d 0 matching)

/-- The loop of `process_sub_annotations` over the sub annotations (532-570). -/
def subAnnotations (env : MatchEnv) (cfg : MatchCfg) (tokens : List Nat) (text : Str) (d : Doc) :
    List (Str × TargetValue) → Except Err Doc
  | [] => .ok d
  | (_, .many _) :: _ => .error .assertionError
  | (name, .one v) :: subs =>
    let found := searchAllRanges (searchEnv env cfg 1) text (env.lower v)
    match subRanges ⟨env.cc, id⟩ cfg tokens name d found.2 found.1 with
    | .error e => .error e
    | .ok d' => subAnnotations env cfg tokens text d' subs

/-- `process_sub_annotations` (518-570). -/
def processSub (env : MatchEnv) (senv : SeqEnv) (cfg : MatchCfg) (seqs : List (List Nat)) (range : Nat × Nat)
    (subs : List (Str × TargetValue)) (d : Doc) : Except Err Doc :=
  if subs.isEmpty then .ok d
  else
    let tokens := seqTokensBetween senv d range.1 range.2 seqs
    subAnnotations env cfg tokens (env.lower (seqsText ⟨env.cc, id⟩ d [tokens])) d subs

/-- The loop of `process_target_annotations` over the ranges found (714-730). -/
def applyRanges (env : MatchEnv) (senv : SeqEnv) (cfg : MatchCfg) (seqs : List (List Nat)) (target : Target) (d : Doc) :
    List (Nat × Nat) → Except Err Doc
  | [] => .ok d
  | r :: rs =>
    match applyPrefixRegex env cfg (seqsText senv d seqs) r target with
    | .error e => .error e
    | .ok r' =>
      let d1 := updateRange senv cfg seqs r' target.name d
      match (if cfg.useSubAnnotations then processSub env senv cfg seqs r' target.subs d1 else .ok d1) with
      | .error e => .error e
      | .ok d2 => applyRanges env senv cfg seqs target d2 rs

/-- State of the loop of `process_target_annotations` (655-665). -/
structure MatchState where
  doc : Doc
  /-- `current_pending_sequences` -/
  current : List (List Nat)
  /-- `current_block_name` -/
  block : Option Str
  /-- `untagged_target_annotations` -/
  untagged : List Target

/-- The sequences of the document: `normalize_fn` is `normalise_and_remove_junk_str` without junk
(656-659, annotation/matching_utils.py:62-67). -/
def matchSeqEnv (env : MatchEnv) : SeqEnv := ⟨env.cc, normaliseStr env.lower⟩

/-- The loop body of `process_target_annotations` (674-730); `pending` is `pending_sequences`. -/
def processTarget (env : MatchEnv) (cfg : MatchCfg) (pending : List (List Nat)) (st : MatchState) (target : Target) :
    Except Err MatchState :=
  let senv := matchSeqEnv env
  let block := pyOr (cfg.tagConfig target.name).blockName (some c!"default")
  let seqs := pendingSequences st.doc st.current (some cfg.lookahead)
  match matchingRanges env cfg (seqsText senv st.doc seqs) target with
  | .error e => .error e
  | .ok (r :: rs) =>
    match applyRanges env senv cfg seqs target st.doc (r :: rs) with
    | .error e => .error e
    | .ok d => .ok { st with doc := d }
  | .ok [] =>
    if st.block = block then .ok { st with untagged := st.untagged ++ [target] }
    else
      let all := pendingSequences st.doc pending none
      match matchingRanges env cfg (seqsText senv st.doc all) target with
      | .error e => .error e
      | .ok [] => .ok { st with untagged := st.untagged ++ [target] }
      | .ok (r :: rs) =>
        match mergeIndexRanges (r :: rs) with
        | .error e => .error e
        | .ok m =>
          match applyRanges env senv cfg all target st.doc (r :: rs) with
          | .error e => .error e
          | .ok d =>
            .ok { doc := d
                  current := seqsBetween senv st.doc m.1 (seqsEnd senv st.doc all) all
                  block := block
                  untagged := st.untagged }

/-- The loop of `process_target_annotations` (666-730). Grouping the target annotations by name has no
effect, since the block name depends on the name only. -/
def processTargets (env : MatchEnv) (cfg : MatchCfg) (pending : List (List Nat)) (st : MatchState) :
    List Target → Except Err MatchState
  | [] => .ok st
  | t :: ts =>
    match processTarget env cfg pending st t with
    | .error e => .error e
    | .ok st' => processTargets env cfg pending st' ts

/-- `process_target_annotations` (651-731). -/
def processTargetAnnotations (env : MatchEnv) (cfg : MatchCfg) (d : Doc) (targets : List Target) :
    Except Err (Doc × List Target) :=
  let pending := pendingOfDoc d
  match processTargets env cfg pending ⟨d, pending, none, []⟩ targets with
  | .error e => .error e
  | .ok st => .ok (st.doc, st.untagged)

/-- The `while` loop of `_do_annotate` (734-745): the document and the target annotations left over. The
first argument bounds the number of iterations; `none` means that it was too small. -/
def annotateLoop (env : MatchEnv) (cfg : MatchCfg) : Nat → Doc → List Target → Except Err (Option (Doc × List Target))
  | _, d, [] => .ok (some (d, []))
  | 0, _, _ :: _ => .ok none
  | n + 1, d, t :: ts =>
    match processTargetAnnotations env cfg d (t :: ts) with
    | .error e => .error e
    | .ok (d', remaining) =>
      if remaining.length = (t :: ts).length then .ok (some (d', remaining))
      else annotateLoop env cfg n d' remaining

/-- `extend_annotations_to_whole_line` (632-649) for one line. -/
def extendLine (ecfg : ExtendCfg) (d : Doc) (l : Line) : Doc :=
  (l.nonSpace.zip (extendedLineTags ecfg (l.nonSpace.map (fun i => d.getTag i)))).foldl
    (fun d x => if truthy x.2 then d.setTag x.1 x.2 else d) d

/-- `merge_enabled_map` and `extend_to_line_enabled_map` (377-384). -/
def extendCfg (cfg : MatchCfg) : ExtendCfg where
  extendMap := cfg.tagConfigMap.map (fun p => (p.1, p.2.extendToLineEnabled))
  mergeMap := cfg.tagConfigMap.map (fun p => (p.1, p.2.mergeEnabled))

/-- `extend_annotations_to_whole_line` (632-649). -/
def extendDoc (cfg : MatchCfg) (d : Doc) : Doc := d.lines.foldl (extendLine (extendCfg cfg)) d

/-- `SimpleMatchingAnnotator.annotate` (733-753) with a bound on the number of rounds. -/
def simpleAnnotateFuel (env : MatchEnv) (cfg : MatchCfg) (targets : List Target) (fuel : Nat) (d : Doc) :
    Except Err (Option Doc) :=
  match annotateLoop env cfg fuel d targets with
  | .error e => .error e
  | .ok none => .ok none
  | .ok (some (d', _)) => .ok (some (if cfg.extendToLineEnabled then extendDoc cfg d' else d'))

/-- `SimpleMatchingAnnotator.annotate` (733-753): as many rounds as there are target annotations suffice
(`C21_terminates`). -/
def simpleAnnotate (env : MatchEnv) (cfg : MatchCfg) (targets : List Target) (d : Doc) : Except Err Doc :=
  match simpleAnnotateFuel env cfg targets targets.length d with
  | .error e => .error e
  | .ok none => .error .runtimeError
  | .ok (some d') => .ok d'

end Verif
