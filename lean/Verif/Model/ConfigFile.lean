/-
Model of the configuration files: `parse_xml_mapping` (core/annotation/target_annotation.py:70-81) and
`parse_segmentation_config` (annotation/segmentation_annotator.py:76-95) with the `ConfigParser` of Python they use
(configparser.py of Python 3.7, the version of Dockerfile.tools: `_read`, `_join_multiline_values`, `items`, `get`,
`BasicInterpolation`). All errors of the parser are `exception`; the parser collects some of them and raises them at
the end of the file, the model stops at the first one.
-/
import Verif.Model.PyStr
import Verif.Model.Segmentation
import Verif.Model.FieldLists

namespace Verif

/-- The state of `ConfigParser._read`: the options of the sections by name as lists of lines, the current section and
option, and the indentation of the current option. The section `DEFAULT` is kept with the others. -/
structure IniState where
  sections : Dict (Dict (List Str)) := []
  cur : Option Str := none
  opt : Option Str := none
  indent : Nat := 0

/-- `default_section`. -/
def iniDefault : Str := c!"DEFAULT"

/-- `cursect[optname].append(value)` if there is a current section and option. -/
def IniState.append (st : IniState) (value : Str) : IniState :=
  match st.cur, st.opt with
  | some sect, some opt =>
    let options := st.sections.getD sect []
    { st with sections := st.sections.set sect (options.set opt (options.getD opt [] ++ [value])) }
  | _, _ => st

/-- `SECTCRE.match(value)`, the regular expression `\[(?P<header>[^]]+)\]`. (Newer versions of Python take the last
closing bracket.) -/
def iniHeader : Str → Option Str
  | '[' :: s =>
    let name := s.takeWhile (fun c => c ≠ ']')
    if name ≠ [] ∧ name.length < s.length then some name else none
  | _ => none

/-- `=` or `:`. -/
def isDelimiter (c : Char) : Bool := c = '=' || c = ':'

/-- `OPTCRE.match(value)`, the regular expression `(?P<option>.*?)\s*(?P<vi>=|:)\s*(?P<value>.*)$`, with
`optionxform(optname.rstrip())` and `optval.strip()`. -/
def iniOption (cc : CharClass) (lower : Str → Str) (value : Str) : Option (Str × Str) :=
  if value.any isDelimiter then
    some (lower (rstrip cc (value.takeWhile (fun c => !isDelimiter c))),
      strip cc ((value.dropWhile (fun c => !isDelimiter c)).drop 1))
  else none

/-- One line (`ConfigParser._read`, the body of the loop). -/
def iniLine (cc : CharClass) (lower : Str → Str) (st : IniState) (line : Str) : Except Err IniState :=
  let value := strip cc line
  if value.head? = some '#' ∨ value.head? = some ';' then .ok st
  else if value = [] then .ok (st.append [])
  else
    let indent := (line.takeWhile cc.isSpace).length
    if st.cur.isSome ∧ st.opt.isSome ∧ st.indent < indent then .ok (st.append value)
    else match iniHeader value with
      | some name =>
        if (st.sections.get? name).isSome ∧ name ≠ iniDefault then .error .exception
        else .ok { sections := if (st.sections.get? name).isSome then st.sections else st.sections.set name []
                   cur := some name, opt := none, indent := indent }
      | none => match st.cur with
        | none => .error .exception
        | some sect => match iniOption cc lower value with
          | none => .error .exception
          | some (name, text) =>
            if name = [] then .error .exception
            else if ((st.sections.getD sect []).get? name).isSome then .error .exception
            else .ok { st with sections := st.sections.set sect ((st.sections.getD sect []).set name [text])
                               opt := some name, indent := indent }

/-- All lines. -/
def iniLines (cc : CharClass) (lower : Str → Str) (st : IniState) : List Str → Except Err IniState
  | [] => .ok st
  | l :: ls => match iniLine cc lower st l with
    | .error e => .error e
    | .ok st => iniLines cc lower st ls

/-- `config.read_file(f)` (core/annotation/target_annotation.py:74-77): the sections with their options and the values
without interpolation (`_join_multiline_values`). -/
def readConfig (cc : CharClass) (lower : Str → Str) (lines : List Str) : Except Err (Dict (Dict Str)) :=
  match iniLines cc lower {} lines with
  | .error e => .error e
  | .ok st => .ok (st.sections.map (fun s => (s.1, s.2.map (fun o => (o.1, rstrip cc (joinStr c!"\n" o.2))))))

/-- The loop of `BasicInterpolation._interpolate_some`; `look` is the value of a name. -/
def interpolateWith (lower : Str → Str) (look : Str → Except Err Str) : Str → Except Err Str
  | [] => .ok []
  | '%' :: '%' :: s => (interpolateWith lower look s).map ('%' :: ·)
  | '%' :: '(' :: s =>
    if s.takeWhile (fun c => c ≠ ')') ≠ [] ∧ startsWith c!")s" (s.dropWhile (fun c => c ≠ ')')) = true then
      match look (lower (s.takeWhile (fun c => c ≠ ')'))) with
      | .error e => .error e
      | .ok v => (interpolateWith lower look ((s.dropWhile (fun c => c ≠ ')')).drop 2)).map (v ++ ·)
    else .error .exception
  | '%' :: _ => .error .exception
  | c :: s => (interpolateWith lower look s).map (c :: ·)
termination_by s => s.length
decreasing_by
  all_goals simp_wf
  all_goals first
    | omega
    | (have := (List.dropWhile_suffix (fun c => !decide (c = ')')) (l := s)).length_le; omega)

/-- `BasicInterpolation._interpolate_some` with the number of levels left (`MAX_INTERPOLATION_DEPTH` is ten). -/
def interpolate (lower : Str → Str) (d : Dict Str) : Nat → Str → Except Err Str
  | 0, _ => .error .exception
  | n + 1, s => interpolateWith lower (fun name => match d.get? name with
      | none => .error .exception
      | some v => if v.contains '%' then interpolate lower d n v else .ok v) s

/-- The options of a section, those of `DEFAULT` first (`items`: `d = self._defaults.copy(); d.update(section)`). -/
def sectionOptions (config : Dict (Dict Str)) (sect : Str) : Dict Str :=
  (config.getD sect []).foldl (fun d o => d.set o.1 o.2) (config.getD iniDefault [])

/-- A function with exceptions over a list. -/
def mapExcept {α β : Type} (f : α → Except Err β) : List α → Except Err (List β)
  | [] => .ok []
  | a :: l => match f a with
    | .error e => .error e
    | .ok b => (mapExcept f l).map (b :: ·)

/-- `config.items(section)`. -/
def configItems (lower : Str → Str) (config : Dict (Dict Str)) (sect : Str) : Except Err (Dict Str) :=
  let d := sectionOptions config sect
  mapExcept (fun o => (interpolate lower d 10 o.2).map (fun v => (o.1, v))) d

/-- `parse_xml_mapping` (core/annotation/target_annotation.py:70-81) for the lines of the file. -/
def parseXmlMapping (cc : CharClass) (lower : Str → Str) (lines : List Str) : Except Err Mapping :=
  match readConfig cc lower lines with
  | .error e => .error e
  | .ok config =>
    mapExcept (fun s => (configItems lower config s.1).map (fun d => (s.1, d)))
      (config.filter (fun s => s.1 ≠ iniDefault))

/-- `config.getint(section, option, fallback=…)`: the value is read with interpolation; without the section or the
option the fallback is used. `parseInt` is `int(…)`. -/
def configInt (lower : Str → Str) (parseInt : Str → Option Int) (config : Dict (Dict Str)) (sect option : Str)
    (fallback : Int) : Except Err Int :=
  if (config.get? sect).isSome then
    match (sectionOptions config sect).get? (lower option) with
    | none => .ok fallback
    | some v => match interpolate lower (sectionOptions config sect) 10 v with
      | .error e => .error e
      | .ok v => match parseInt v with
        | none => .error .valueError
        | some n => .ok n
  else .ok fallback

/-- `parse_segmentation_config` (annotation/segmentation_annotator.py:76-95). `parse_list` of sciencebeam_utils is
modelled by `commaList` without the check for an empty text: elements separated by commas, without white space around
them (a parameter here). -/
def parseSegConfig (cc : CharClass) (lower : Str → Str) (parseInt : Str → Option Int) (parseList : Str → List Str)
    (lines : List Str) : Except Err SegConfig :=
  match readConfig cc lower lines with
  | .error e => .error e
  | .ok config =>
    match configInt lower parseInt config c!"config" c!"front_max_start_line_index" 0 with
    | .error e => .error e
    | .ok front =>
      match configInt lower parseInt config c!"config" c!"page_header_max_first_line_index" 50 with
      | .error e => .error e
      | .ok page =>
        if (config.get? c!"tags").isSome then
          match configItems lower config c!"tags" with
          | .error e => .error e
          | .ok tags => .ok {
              mapping := tags.map (fun t => (t.1, parseList t.2))
              frontMaxStartLineIndex := front
              pageHeaderMaxFirstLineIndex := page }
        else .error .exception

end Verif
