/-
Model of how the target XML file of a source file is found
(`utils/regex.py`, `auto_annotate_utils.py:625-632`).
-/
import Verif.Model.Paths
import Verif.Model.PyStr

namespace Verif

/-- `SubstitutionPattern` (utils/regex.py:9-14). -/
structure SubstitutionPattern where
  suffix : Str
  matchPattern : Str
  replacePattern : Str
  options : Str
  deriving DecidableEq

/-- `_parse_subsitution_pattern` (utils/regex.py:17-28): the first character is the delimiter;
unpacking anything but four fragments raises `ValueError`, an empty pattern has no first character
(`IndexError`). -/
def parseSubstitution (pattern : Str) : Except Err SubstitutionPattern :=
  match pattern with
  | [] => .error .indexError
  | delimiter :: _ =>
    match splitOn delimiter pattern with
    | [suffix, m, r, options] => .ok ⟨suffix, m, r, options⟩
    | _ => .error .valueError

/-- `regex_change_name` (utils/regex.py:31-37); `reSub m r s` is `re.sub(m, r, s)`. -/
def regexChangeName (reSub : Str → Str → Str → Except Err Str) (name pattern : Str) : Except Err Str :=
  match parseSubstitution pattern with
  | .error e => .error e
  | .ok p => reSub p.matchPattern p.replacePattern name

/-- `get_target_xml_for_source_file` (auto_annotate_utils.py:625-632). -/
def targetXml (reSub : Str → Str → Str → Except Err Str) (xmlPath pattern source : Str) : Except Err Str :=
  match regexChangeName reSub (baseName source) pattern with
  | .error e => .error e
  | .ok name => .ok (joinPath xmlPath name)

/-- The name of the fixed copy of a source file in a temporary directory (`get_fixed_source_url`,
auto_annotate_figure.py:101-105, utils/xml.py:248-252). -/
def fixedCopy (tempDir source : Str) : Str := joinPath tempDir (baseName source)

/-! ### `re.sub` for the expressions in use

The expressions in the documentation, the `Makefile` and the tests are of the form `(.*)SUFFIX`,
with a suffix of plain characters and dots, and replaced by `\1EXT`. -/

/-- One item of such a suffix: `none` is the dot, which matches anything but a line feed. -/
def itemMatches : Option Char → Char → Bool
  | none, x => x ≠ '\n'
  | some c, x => x = c

/-- The suffix matches at the start of the text. -/
def suffixAt : List (Option Char) → Str → Bool
  | [], _ => true
  | _ :: _, [] => false
  | i :: is, x :: s => itemMatches i x && suffixAt is s

/-- The length of the longest text matched by the group `(.*)` such that the suffix follows. -/
def greedyLen (is : List (Option Char)) : Str → Option Nat
  | [] => if suffixAt is [] then some 0 else none
  | x :: s =>
    match (if x = '\n' then none else greedyLen is s) with
    | some k => some (k + 1)
    | none => if suffixAt is (x :: s) then some 0 else none

/-- `re.sub('(.*)SUFFIX', '\1EXT', s)` for a suffix that is not empty: the loop over the matches.
The first argument is larger than the number of rounds (see `subSuffix`). -/
def subSuffixLoop (is : List (Option Char)) (ext : Str) : Nat → Str → Str
  | 0, s => s
  | n + 1, s =>
    match greedyLen is s with
    | some k => s.take k ++ ext ++ subSuffixLoop is ext n (s.drop (k + is.length))
    | none =>
      match s with
      | [] => []
      | x :: s => x :: subSuffixLoop is ext n s

/-- `re.sub('(.*)SUFFIX', '\1EXT', s)`: every round consumes a character. -/
def subSuffix (is : List (Option Char)) (ext s : Str) : Str := subSuffixLoop is ext (s.length + 1) s

/-- Characters with a meaning in regular expressions (other than the dot). -/
def reSpecial : Str := c!"\\^$*+?{}[]|()"

/-- `re.sub(m, r, s)` for the expressions described above, nothing for others. -/
def simpleReSub (m r s : Str) : Option Str :=
  let suffix := m.drop 4
  let ext := r.drop 2
  if startsWith c!"(.*)" m && startsWith c!"\\1" r && !suffix.isEmpty &&
      suffix.all (fun c => !reSpecial.contains c) && ext.all (fun c => c ≠ '\\') &&
      !(ext.head?.any (fun c => c.isDigit)) then
    some (subSuffix (suffix.map (fun c => if c = '.' then none else some c)) ext s)
  else none

end Verif
