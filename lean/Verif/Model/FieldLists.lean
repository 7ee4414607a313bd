/-
Model of `utils/string.py` and of the XML mapping filters of `auto_annotate_utils.py`.
-/
import Verif.Model.PyStr

namespace Verif

/-- `comma_separated_str_to_list` (utils/string.py:17-21). -/
def commaList (cc : CharClass) (s : Str) : List Str :=
  let s := strip cc s
  if s.isEmpty then [] else (splitOn ',' s).map (strip cc)

/-- The list objects, by identity: `plus_minus_comma_separated_str_to_list` is called with a default
list it must not modify. -/
abbrev ListHeap := Nat → List Str

/-- Assigns the contents of a list object. -/
def ListHeap.put (h : ListHeap) (r : Nat) (l : List Str) : ListHeap := fun j => if j = r then l else h j

/-- The loop of `plus_minus_comma_separated_str_to_list` (utils/string.py:30-41) on the list object
`r`; the error is the one of `list.remove`. -/
def plusMinusLoop (r : Nat) (h : ListHeap) (mode : Option Char) : List Str → ListHeap × Option Err
  | [] => (h, none)
  | [] :: items => plusMinusLoop r h mode items
  | (c :: cs) :: items =>
    let mode' := if c = '+' || c = '-' then some c else mode
    let value := if c = '+' || c = '-' then cs else c :: cs
    let h1 := if mode' = some '+' then h.put r (h r ++ [value]) else h
    if mode' = some '-' then
      if value ∈ h1 r then plusMinusLoop r (h1.put r ((h1 r).erase value)) mode' items
      else (h1, some .valueError)
    else plusMinusLoop r h1 mode' items

/-- `plus_minus_comma_separated_str_to_list` (utils/string.py:24-42): the list objects afterwards and
the result. `fresh` is the identity of the copy. -/
def plusMinusList (cc : CharClass) (h : ListHeap) (dflt fresh : Nat) (s : Str) :
    ListHeap × Except Err (List Str) :=
  let userList := commaList cc s
  match userList with
  | (c :: _) :: _ =>
    if c = '+' || c = '-' then
      let h1 := h.put fresh (h dflt)
      match plusMinusLoop fresh h1 none userList with
      | (h2, none) => (h2, .ok (h2 fresh))
      | (h2, some e) => (h2, .error e)
    else (h, .ok userList)
  | _ => (h, .ok userList)

/-- `parse_key_value` (utils/string.py:63-65); without `=` unpacking raises `ValueError`. -/
def parseKeyValue (cc : CharClass) (expr : Str) : Except Err (Str × Str) :=
  match splitOnce '=' expr with
  | [k, v] => .ok (strip cc k, strip cc v)
  | _ => .error .valueError

/-- The loop of `parse_dict` (utils/string.py:72-74). -/
def parseDictLoop (cc : CharClass) (d : Dict Str) : List Str → Except Err (Dict Str)
  | [] => .ok d
  | f :: fs =>
    match parseKeyValue cc f with
    | .error e => .error e
    | .ok (k, v) => parseDictLoop cc (d.set k v) fs

/-- `parse_dict` (utils/string.py:68-75) with the default delimiter. -/
def parseDict (cc : CharClass) (expr : Str) : Except Err (Dict Str) :=
  if expr.isEmpty then .ok [] else parseDictLoop cc [] (splitOn '|' expr)

/-- `get_mapping_key_field_name` (auto_annotate_utils.py:334-335). -/
def mappingKeyFieldName (key : Str) : Str := (splitOnce '.' key).headD []

/-- `get_sub_field_for_key_or_none` (auto_annotate_utils.py:338-343); `XmlMappingSuffix.SUB` is
`.sub` (core/annotation/target_annotation.py:47). -/
def subFieldForKey (key : Str) : Option Str :=
  let pre := mappingKeyFieldName key ++ c!".sub" ++ c!"."
  if !startsWith pre key then none else some (key.drop pre.length)

/-- `is_key_selected_sub_fields_or_no_sub_field` (auto_annotate_utils.py:346-352). -/
def keySelected (subFields : List Str) (key : Str) : Bool :=
  let sf := subFieldForKey key
  if !truthy sf then true else subFields.contains (sf.getD [])

/-- A parsed XML mapping: sections, each with its entries. -/
abbrev Mapping := Dict (Dict Str)

/-- `get_xml_mapping_with_filtered_sub_fields` (auto_annotate_utils.py:355-368); sets are lists, the
default `None` is the empty set. -/
def filterSubFields (subFields : List Str) (m : Mapping) : Mapping :=
  if subFields.isEmpty then m
  else m.map (fun p => (p.1, p.2.filter (fun e => keySelected subFields e.1)))

/-- `get_filtered_xml_mapping_and_fields` (auto_annotate_utils.py:371-397). -/
def filterMapping (fields subFields : List Str) (m : Mapping) : Mapping × List Str :=
  if !fields.isEmpty then
    (filterSubFields subFields
      (m.map (fun p => (p.1, p.2.filter (fun e => fields.contains (mappingKeyFieldName e.1))))), fields)
  else
    (filterSubFields subFields m,
      m.flatMap (fun p => (p.2.map Prod.fst).filter (fun k => !k.contains '.')))

/-- `get_xml_mapping_with_overrides` (auto_annotate_utils.py:400-411). -/
def overrideMapping (overrides : Dict Str) (m : Mapping) : Mapping :=
  if overrides.isEmpty then m
  else m.map (fun p => (p.1, overrides.foldl (fun d e => d.set e.1 e.2) p.2))

/-- `get_xml_mapping_and_fields` (auto_annotate_utils.py:414-427), after parsing the file. -/
def mappingAndFields (m : Mapping) (fields subFields : List Str) (overrides : Dict Str) : Mapping × List Str :=
  filterMapping fields subFields (overrideMapping overrides m)

end Verif
