/-
Model of `annotation/reference_annotator.py`. Line numbers refer to this file.
-/
import Verif.Model.SimpleMatching

namespace Verif

/-- `ReferenceAnnotatorConfig` (41-58); sets are lists. -/
structure RefConfig where
  subTagMap : Dict Str
  mergeTags : List Str
  prefixTags : List Str
  suffixTags : List Str
  prefixRegex : Dict Str
  etal : Str
  etalMerge : List Str

/-- What the annotator depends on outside the code: the character classes, and
`re.search(pattern, text).start()` (`none` without a match). -/
structure RefEnv where
  cc : CharClass
  search : Str → Str → Option Nat

/-- Result of the loop of `_iter_group_tokens_by_tag_entity` (76-96): `value` and `pending` are
`pending_tag_value` and `pending_tokens`, which is not empty. -/
def refEntityLoop (d : Doc) (value : Option Str) (pending : List Nat) : List Nat → List (Option Str × List Nat)
  | [] => [(value, pending)]
  | i :: is =>
    let (pre, v) := splitTagPrefix (d.getTag i)
    if value ≠ v ∨ pre = some bPrefix then (value, pending) :: refEntityLoop d v [i] is
    else refEntityLoop d value (pending ++ [i]) is

/-- `_iter_group_tokens_by_tag_entity` (73-96). The generator reads the main tags while the sub tags of the
tokens before are changed; main tags are not changed by the annotator. -/
def refEntities (d : Doc) : List Nat → List (Option Str × List Nat)
  | [] => []
  | i :: is => refEntityLoop d (splitTagPrefix (d.getTag i)).2 [i] is

/-- `_map_tag` (99-104). -/
def mapRefTag (m : Dict Str) (tag : Option Str) : Option Str :=
  let (pre, value) := splitTagPrefix tag
  addTagPrefix (if truthy value then value.map (fun v => m.getD v v) else value) pre

/-- A tag with the text and the white space of its token. -/
abbrev RefTok := Option Str × Str × Option Str

/-- `JoinedText(texts, sep=' ', whitespace_list=whitespaces)` (annotation/matching_utils.py:145-156) of a
group: its text and its items with their ranges. -/
def refJoined (g : List RefTok) : Str × List (Str × Nat × Nat) :=
  match joinWithIndexRanges (g.map (·.2.1)) c!" " [] (some (g.map (·.2.2))) with
  | .ok (text, ranges) => (text, (g.map (·.2.1)).zip ranges)
  | .error _ => ([], [])

/-- The first tag of a group (`group[0][0]`), `none` if there is no group. -/
def firstRefTag (g : Option (List RefTok)) : Option Str := (g.bind List.head?).bind (·.1)

/-- The loop of `get_prefix_extended_token_tags` (134-178); `changed` tells that the first tag of the group
has been made an inside tag (173-178, only done for begin tags, as in `to_inside_tag`). -/
def prefixLoop (env : RefEnv) (regex : Dict Str) (enabled : List Str) (changed : Bool) :
    List (List RefTok) → Except Err (List (Option Str))
  | [] => .ok []
  | g :: gs =>
    let tags := if changed then insideHead (g.map (·.1)) else g.map (·.1)
    let next := firstRefTag gs.head?
    let keep := (prefixLoop env regex enabled false gs).map (tags ++ ·)
    if truthy tags.head?.join then keep
    else match stripTagPrefix next with
      | none => keep
      | some v =>
        if v ∉ enabled then keep
        else match regex.get? v with
          | none => .error .keyError
          | some pattern =>
            let joined := refJoined g
            match env.search pattern joined.1 with
            | none => keep
            | some start =>
              let n := (itemsBetween start joined.1.length joined.2).length
              if n = 0 then keep
              else (prefixLoop env regex enabled true gs).map
                ((List.replicate (tags.length - n) none ++ next :: List.replicate (n - 1) (toInsideTag next)) ++ ·)

/-- `get_prefix_extended_token_tags` (114-180) with the white space given. -/
def prefixExtended (env : RefEnv) (regex : Dict Str) (enabled : List Str) (toks : List RefTok) :
    Except Err (List (Option Str)) :=
  prefixLoop env regex enabled false ((groupBy (fun t => stripTagPrefix t.1) toks).map (·.2))

/-- The loop of `get_suffix_extended_token_tags` (226-260); `prev` is the group before. `^\.` matches the
first character of a text which begins with a dot. -/
def suffixLoop (enabled : List Str) (prev : Option (List RefTok)) : List (List RefTok) → List (Option Str)
  | [] => []
  | g :: gs =>
    let tags := g.map (·.1)
    let keep := tags ++ suffixLoop enabled (some g) gs
    if truthy tags.head?.join then keep
    else match stripTagPrefix (firstRefTag prev) with
      | none => keep
      | some v =>
        if v ∉ enabled then keep
        else
          let joined := refJoined g
          if joined.1.head? ≠ some '.' then keep
          else
            let n := (itemsBetween 0 1 joined.2).length
            if n = 0 then keep
            else List.replicate n (toInsideTag (firstRefTag prev)) ++ List.replicate (tags.length - n) none ++
              suffixLoop enabled (some g) gs

/-- `get_suffix_extended_token_tags` (209-262) with the white space given. -/
def suffixExtended (enabled : List Str) (toks : List RefTok) : List (Option Str) :=
  suffixLoop enabled none ((groupBy (fun t => stripTagPrefix t.1) toks).map (·.2))

/-- The loop of `get_etal_mapped_tags` (301-315); `prev` is `previous_accepted_group_sub_tag`. -/
def etalLoop (etal : Str) (merge : List Str) (prev : Option Str) : List (List (Option Str)) → List (Option Str)
  | [] => []
  | g :: gs =>
    let tag := g.head?.join
    let value := stripTagPrefix tag
    if value ≠ some etal ∨ truthy prev = false then
      g ++ etalLoop etal merge (if value ∈ merge.map some then tag else if truthy tag then none else prev) gs
    else prev :: List.replicate (g.length - 1) (toInsideTag prev) ++ etalLoop etal merge prev gs

/-- `get_etal_mapped_tags` (290-316). -/
def etalMapped (etal : Str) (merge : List Str) (tags : List (Option Str)) : List (Option Str) :=
  etalLoop etal merge none ((groupBy stripTagPrefix tags).map (·.2))

/-- `for token, token_sub_tag in zip(…): if token_sub_tag: set_sub_tag(…)` (202-205, 284-287, 335-338,
362-365). -/
def setRefTags (d : Doc) (l : List (Nat × Option Str)) : Doc :=
  l.foldl (fun d x => if truthy x.2 then d.setSubTag x.1 x.2 else d) d

/-- The mapped sub tags of the tokens (188-191, 269-272, 323-324, 345-346). -/
def refSubTags (cfg : RefConfig) (d : Doc) (tokens : List Nat) : List (Option Str) :=
  tokens.map (fun i => mapRefTag cfg.subTagMap (d.getSubTag i))

/-- The mapped sub tags with the text and white space of the tokens (188-191, 269-272). -/
def refToks (env : RefEnv) (cfg : RefConfig) (d : Doc) (tokens : List Nat) : List RefTok :=
  tokens.map (fun i => (mapRefTag cfg.subTagMap (d.getSubTag i), d.getText env.cc i, d.getWhitespace i))

/-- `_map_etal_sub_tag` (319-338). -/
def mapEtal (cfg : RefConfig) (d : Doc) (tokens : List Nat) : Doc :=
  setRefTags d (tokens.zip (etalMapped cfg.etal cfg.etalMerge (refSubTags cfg d tokens)))

/-- `_add_name_text_suffix` (265-287). -/
def addNameSuffix (env : RefEnv) (cfg : RefConfig) (d : Doc) (tokens : List Nat) : Doc :=
  setRefTags d (tokens.zip (suffixExtended cfg.suffixTags (refToks env cfg d tokens)))

/-- `_add_idno_text_prefix` (183-206). -/
def addIdnoPrefix (env : RefEnv) (cfg : RefConfig) (d : Doc) (tokens : List Nat) : Except Err Doc :=
  (prefixExtended env cfg.prefixRegex cfg.prefixTags (refToks env cfg d tokens)).map
    (fun tags => setRefTags d (tokens.zip tags))

/-- The options of `get_extended_line_token_tags` used by `_merge_sub_tags` (347-356). -/
def refExtendCfg (cfg : RefConfig) : ExtendCfg where
  extendMap := []
  mergeMap := Dict.ofPairs (cfg.mergeTags.map (fun k => (k, true)))
  defaultExtend := false
  defaultMerge := false

/-- `_merge_sub_tags` (341-365). -/
def mergeSubTags (cfg : RefConfig) (d : Doc) (tokens : List Nat) : Doc :=
  setRefTags d (tokens.zip (extendedLineTags (refExtendCfg cfg) (refSubTags cfg d tokens)))

/-- The body of the loop of `annotate` (380-401). -/
def refEntity (env : RefEnv) (cfg : RefConfig) (d : Doc) (tokens : List Nat) : Except Err Doc :=
  (addIdnoPrefix env cfg (addNameSuffix env cfg (mapEtal cfg d tokens) tokens) tokens).map
    (fun d => mergeSubTags cfg d tokens)

/-- `ReferencePostProcessingAnnotator.annotate` (373-402); `_iter_all_tokens` (61-70) gives the tokens
without white space. -/
def referenceAnnotate (env : RefEnv) (cfg : RefConfig) (d : Doc) : Except Err Doc :=
  (refEntities d d.nonSpaceTokens).foldlM (fun d e => refEntity env cfg d e.2) d

end Verif
