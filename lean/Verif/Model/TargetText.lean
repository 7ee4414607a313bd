/-
Model of core/annotation/target_annotation.py: white space of target texts and extraction of
parts by a regular expression.
-/
import Verif.Model.Basic

namespace Verif

/-- Python `s.replace(old, new)` for a nonempty `old`: occurrences are found from the left and do
not overlap; `skip` is the number of characters left of the occurrence being replaced. -/
def strReplaceGo (old new : Str) : Nat → Str → Str
  | _, [] => []
  | skip + 1, _ :: s => strReplaceGo old new skip s
  | 0, c :: s =>
    if startsWith old (c :: s) then new ++ strReplaceGo old new (old.length - 1) s
    else c :: strReplaceGo old new 0 s

/-- Python `s.replace(old, new)` for a nonempty `old`. -/
def strReplace (old new s : Str) : Str := strReplaceGo old new 0 s

/-- The loop of `relace_recursive` with at most `fuel` rounds. -/
def replaceRecLoop (old new : Str) : Nat → Str → Str
  | 0, s => s
  | fuel + 1, s =>
    let s' := strReplace old new s
    if s' = s then s else replaceRecLoop old new fuel s'

/-- `relace_recursive` (core/annotation/target_annotation.py:84-89).  The number of rounds is
bounded by the length of the text; `C45_loop_finished` shows that the loop ends before for all
replacements used by the code. -/
def replaceRecursive (old new s : Str) : Str := replaceRecLoop old new (s.length + 1) s

/-- The replacements of `strip_whitespace` (core/annotation/target_annotation.py:93-100). -/
def whitespaceReplacements : List (Str × Str) :=
  [(['\t'], [' ']), ([' ', ' '], [' ']), (['\r'], ['\n']), ([' ', '\n'], ['\n']), (['\n', ' '], ['\n']),
    (['\n', '\n'], ['\n'])]

/-- `strip_whitespace` (core/annotation/target_annotation.py:92-103). -/
def stripWhitespace (s : Str) : Str :=
  whitespaceReplacements.foldl (fun s r => replaceRecursive r.1 r.2 s) s

/-- `s[start:stop]` for `0 ≤ start`. -/
def sliceStr (s : Str) (start stop : Nat) : Str := (s.take stop).drop start

/-- The loop of `extract_using_regex` (core/annotation/target_annotation.py:282-292) over the
positions of group 1 of the matches; returns the pieces and the final `start`. -/
def extractLoop (cc : CharClass) (s : Str) : List (Nat × Nat) → Nat → List Str × Nat
  | [], start => ([], start)
  | (ms, me) :: ms', start =>
    let (pieces, start') := extractLoop cc s ms' (me + 1)
    ((if start < ms then [strip cc (sliceStr s start ms)] else []) ++ sliceStr s ms me :: pieces, start')

/-- `extract_using_regex` (core/annotation/target_annotation.py:279-301).  `spans` are the
positions of group 1 of `compiled_pattern.finditer(s)` (external).  A result that is a string is
a list of one string here; the callers flatten the results. -/
def extractUsingRegex (cc : CharClass) (s : Str) (spans : List (Nat × Nat)) : List Str :=
  match spans with
  | [] => [s]
  | _ =>
    let (pieces, start) := extractLoop cc s spans 0
    let pieces := pieces ++ (if start < s.length then [strip cc (s.drop start)] else [])
    if pieces.length = 1 then pieces else pieces ++ [s]

end Verif
