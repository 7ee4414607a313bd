/-
Model of the checks of the tool for segmentation (`auto_annotate_segmentation.py:107-163`).
-/
import Verif.Model.Checks
import Verif.Model.Segmentation

namespace Verif

/-- The loop over the required values (auto_annotate_segmentation.py:143-163); `search` is
`fuzzy_search(text, value, threshold=threshold)`, true if there is a match. -/
def segValuesMatch (search : Str → Str → Except Err Bool) (cfg : SegConfig) (byName : Dict (List Str)) :
    Dict Str → Except Err Bool
  | [] => .ok true
  | (f, v) :: req =>
    match (segTagByName cfg).get? f with
    | none => .error .keyError
    | some entity =>
      let actual := (byName.get? entity).getD []
      if actual.isEmpty then .ok false
      else
        match search (joinStr c!" " actual) v with
        | .error e => .error e
        | .ok false => .ok false
        | .ok true => segValuesMatch search cfg byName req

/-- `is_segmentation_structured_document_passing_checks` (auto_annotate_segmentation.py:107-163). The set of
fields is a list in the order of its iteration. -/
def segPassesChecks (search : Str → Str → Except Err Bool) (cfg : SegConfig) (matching required : List Str)
    (targets : List CheckTarget) (d : Doc) : Except Err Bool :=
  let fields := matching ++ required
  if fields.isEmpty then .ok true
  else if targets.isEmpty then .error .runtimeError
  else
    match requiredValues targets fields with
    | .error e => .error e
    | .ok values =>
      if !required.isEmpty && required.any (fun f => (values.get? f).isNone) then .ok false
      else if values.isEmpty then .ok true
      else segValuesMatch search cfg (entitiesByName d) values

end Verif
