/-
Model of the options of the fields in the XML mapping (annotation/simple_matching_annotator.py:756-836).
The mapping is that read from the configuration file: section, key and value.
-/
import Verif.Model.SimpleMatching
import Verif.Model.TargetAnnotations

namespace Verif

/-- What reading the options depends on outside the code: character classes, `str.lower`, `int` and `re.compile`. -/
structure TagConfigEnv where
  cc : CharClass
  lower : Str → Str
  parseInt : Str → Option Int
  /-- `re.compile` accepts the expression -/
  validRegex : Str → Bool

/-- The line boundaries of `str.splitlines` other than `\r\n`. -/
def isLineBoundary (c : Char) : Bool :=
  c.toNat ∈ [0x0a, 0x0b, 0x0c, 0x0d, 0x1c, 0x1d, 0x1e, 0x85, 0x2028, 0x2029]

/-- Python `s.splitlines()`: lines without their boundaries; an empty last line is left out. -/
def splitLinesFrom (line : Str) : Str → List Str
  | [] => if line.isEmpty then [] else [line]
  | '\r' :: '\n' :: s => line :: splitLinesFrom [] s
  | c :: s => if isLineBoundary c then line :: splitLinesFrom [] s else splitLinesFrom (line ++ [c]) s

/-- Python `s.splitlines()`. -/
def splitLines (s : Str) : List Str := splitLinesFrom [] s

/-- `parse_regex` (annotation/simple_matching_annotator.py:765-774). `re.error` is `exception`. -/
def parseRegex (env : TagConfigEnv) (s : Option Str) : Except Err (Option Str) :=
  if !truthy s then .ok s
  else
    let r := s.getD []
    let r := if 2 ≤ r.length ∧ r.head? = some '"' ∧ r.getLast? = some '"' then (r.drop 1).dropLast else r
    if env.validRegex r then .ok (some r) else .error .exception

/-- The loop of `parse_alternative_spellings` (annotation/simple_matching_annotator.py:782-788). -/
def spellingLines (env : TagConfigEnv) (result : Dict (List Str)) : List Str → Except Err (Dict (List Str))
  | [] => .ok result
  | line :: lines =>
    let line := strip env.cc line
    if line.isEmpty then spellingLines env result lines
    else match splitOnce '=' line with
      | [key, value] => spellingLines env (result.set (strip env.cc key) (splitOn ',' (strip env.cc value))) lines
      | _ => .error .valueError

/-- `parse_alternative_spellings` (annotation/simple_matching_annotator.py:777-790). -/
def parseAlternativeSpellings (env : TagConfigEnv) (s : Option Str) : Except Err (Dict (List Str)) :=
  if !truthy s then .ok [] else spellingLines env [] (splitLines (s.getD []))

/-- `'%s.%s' % (field, option)`. -/
def optionKey (field option : Str) : Str := field ++ c!"." ++ option

/-- `get_simple_tag_config` (annotation/simple_matching_annotator.py:793-817); options are read in this order. -/
def getSimpleTagConfig (env : TagConfigEnv) (config : Dict Str) (field : Str) : Except Err TagConfig :=
  match parseRegex env (config.get? (optionKey field c!"match-prefix-regex")) with
  | .error e => .error e
  | .ok regex =>
  match parseAlternativeSpellings env (config.get? (optionKey field c!"alternative-spellings")) with
  | .error e => .error e
  | .ok spellings =>
  match strtobool env.lower (config.getD (optionKey field c!"merge") c!"True") with
  | .error e => .error e
  | .ok merge =>
  match strtobool env.lower (config.getD (optionKey field c!"extend-to-line") c!"True") with
  | .error e => .error e
  | .ok extend =>
  match env.parseInt (config.getD (optionKey field c!"max_chunks") c!"1") with
  | none => .error .valueError
  | some n => .ok ⟨regex, spellings, merge, extend, n, config.get? (optionKey field c!"block")⟩

/-- `fields` of `get_simple_tag_config_map` (annotation/simple_matching_annotator.py:822-827), in order of their first
occurrence; Python iterates a set. -/
def configFields (mapping : Dict (Dict Str)) : List Str :=
  ((mapping.flatMap (fun s => s.2.map Prod.fst)).filter (fun k => !k.contains '.')).eraseDups

/-- `flat_config_map` (828-832). -/
def flatConfig (mapping : Dict (Dict Str)) : Dict Str := Dict.ofPairs (mapping.flatMap Prod.snd)

/-- The options of each field (833-836). -/
def tagConfigs (env : TagConfigEnv) (config : Dict Str) : List Str → Except Err (Dict TagConfig)
  | [] => .ok []
  | f :: fs =>
    match getSimpleTagConfig env config f with
    | .error e => .error e
    | .ok c =>
      match tagConfigs env config fs with
      | .error e => .error e
      | .ok cs => .ok ((f, c) :: cs)

/-- `get_simple_tag_config_map` (annotation/simple_matching_annotator.py:819-836). -/
def getSimpleTagConfigMap (env : TagConfigEnv) (mapping : Dict (Dict Str)) : Except Err (Dict TagConfig) :=
  tagConfigs env (flatConfig mapping) (configFields mapping)

end Verif
