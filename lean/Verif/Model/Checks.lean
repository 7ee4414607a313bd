/-
Model of `annotation/checks.py`.
-/
import Verif.Model.PyList
import Verif.Model.PyStr
import Verif.Model.TeiDoc

namespace Verif

/-- `get_token_text` (annotation/checks.py:38-45). -/
def tokenText (d : Doc) : List Nat → Str
  | [] => []
  | [i] => (d.tok i).text
  | i :: j :: is => (d.tok i).text ++ ((d.tok i).whitespace).getD [] ++ tokenText d (j :: is)

/-- Loop state of `iter_structured_document_entities`: the entities found so far,
`pending_tokens` and `pending_tag_value`. -/
structure EntState where
  out : List (Str × List Nat)
  pending : List Nat
  value : Option Str

/-- The loop body (annotation/checks.py:61-73). The assertion cannot fail, as pending tokens have
a value; it is modelled by using `getD`. Entities are kept as tokens and turned into
text at the end. -/
def entStep (d : Doc) (st : EntState) (i : Nat) : EntState :=
  let (pre, value) := splitTagPrefix (d.getTag i)
  let st1 : EntState :=
    if !st.pending.isEmpty && (st.value ≠ value || pre = some bPrefix) then
      ⟨st.out ++ [(st.value.getD [], st.pending)], [], none⟩
    else st
  if !truthy value then st1
  else ⟨st1.out, st1.pending ++ [i], value⟩

/-- `iter_structured_document_entities` (annotation/checks.py:56-76) before converting the tokens to
text. -/
def entityTokens (d : Doc) : List (Str × List Nat) :=
  let st := d.nonSpaceTokens.foldl (entStep d) ⟨[], [], none⟩
  if !st.pending.isEmpty then st.out ++ [(st.value.getD [], st.pending)] else st.out

/-- `iter_structured_document_entities` (annotation/checks.py:56-76). -/
def entities (d : Doc) : List (Str × Str) := (entityTokens d).map (fun p => (p.1, tokenText d p.2))

/-- What the checks use of a target annotation: its name and its value, `none` if that is not a
`str`. -/
structure CheckTarget where
  name : Str
  value : Option Str

/-- `get_required_target_annotation_by_name` (annotation/checks.py:79-90). -/
def requiredTargetsByName (targets : List CheckTarget) (fields : List Str) : Dict (List CheckTarget) :=
  Dict.ofPairs ((groupBy CheckTarget.name (sortBy (fun a b => strLe a.name b.name) targets)).filter
    (fun p => fields.contains p.1))

/-- The loop of `get_required_target_value_by_name` (annotation/checks.py:102-118). -/
def requiredValuesLoop (byName : Dict (List CheckTarget)) :
    List Str → Dict Str → Except Err (Dict Str)
  | [], result => .ok result
  | f :: fs, result =>
    match (byName.get? f).getD [] with
    | [] => requiredValuesLoop byName fs result
    | [t] =>
      match t.value with
      | none => .error .runtimeError
      | some v => requiredValuesLoop byName fs (result.set f v)
    | _ :: _ :: _ => .error .runtimeError

/-- `get_required_target_value_by_name` (annotation/checks.py:93-119). -/
def requiredValues (targets : List CheckTarget) (fields : List Str) : Except Err (Dict Str) :=
  requiredValuesLoop (requiredTargetsByName targets fields) fields []

/-- `get_structured_document_entities_by_name` (annotation/checks.py:122-134). -/
def entitiesByName (d : Doc) : Dict (List Str) :=
  (Dict.ofPairs (groupBy Prod.fst (sortBy (fun a b => strLe a.1 b.1) (entities d)))).map
    (fun p => (p.1, p.2.map Prod.snd))

/-- The loop over the required values (annotation/checks.py:162-174); `ratio` is
`get_levenshtein_ratio` (external). -/
def valuesMatch (ratio : Str → Str → Rat) (threshold : Rat) (byName : Dict (List Str)) : Dict Str → Bool
  | [] => true
  | (f, v) :: req =>
    let actual := (byName.get? f).getD []
    if actual.isEmpty then false
    else if ratio v (joinStr c!" " actual) < threshold then false
    else valuesMatch ratio threshold byName req

/-- `is_structured_document_passing_checks` (annotation/checks.py:137-175). The set of fields is
a list, its order does not matter. -/
def passesChecks (ratio : Str → Str → Rat) (threshold : Rat) (matching required : List Str)
    (targets : List CheckTarget) (d : Doc) : Except Err Bool :=
  let fields := matching ++ required
  if fields.isEmpty then .ok true
  else if targets.isEmpty then .error .runtimeError
  else
    match requiredValues targets fields with
    | .error e => .error e
    | .ok values =>
      if !required.isEmpty && required.any (fun f => (values.get? f).isNone) then .ok false
      else if values.isEmpty then .ok true
      else .ok (valuesMatch ratio threshold (entitiesByName d) values)

/-- `get_target_annotations_from_annotator` (annotation/checks.py:178-191): the target annotations of
the first annotator that has them. -/
def targetsFromAnnotators {T : Type} (annotators : List (Option (List T))) : Option (List T) :=
  annotators.findSome? id

end Verif
