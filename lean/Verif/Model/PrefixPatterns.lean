/-
The regular expressions of config/xml-mapping.conf for the text before a match (7, 58), and `re.escape`.
-/
import Verif.Model.Regex
import Verif.Model.SimpleMatching

namespace Verif

/-- `(abstract|summary)\s*$` (config/xml-mapping.conf:7) -/
def headingPattern (cc : CharClass) : Pattern :=
  ⟨.empty, .seq (.alt (.lit exactly c!"abstract") (.lit exactly c!"summary")) (.seq (.star cc.isSpace) .eol), .empty⟩

/-- `(…)\s*[\.-]*\s*$` (config/xml-mapping.conf:58) with the text of the label in place of the placeholder. -/
def affLabelPattern (cc : CharClass) (label : Str) : Pattern :=
  ⟨.empty, .seq (.lit exactly label) (.seq (.star cc.isSpace) (.seq (.star (fun c => c = '.' || c = '-')) (.seq (.star cc.isSpace) .eol))), .empty⟩

/-- `re.escape`: a backslash in front of special characters. Which ones these are depends on the version of Python. -/
def escapeWith (special : Char → Bool) (s : Str) : Str := s.flatMap (fun c => if special c then ['\\', c] else [c])

/-- The text matched by an expression that `re.escape` has returned. -/
def unescape : Str → Str
  | '\\' :: c :: s => c :: unescape s
  | c :: s => c :: unescape s
  | [] => []

/-- The end of the expression for affiliations. -/
def affLabelEnd : Str := c!")\\s*[\\.-]*\\s*$"

/-- `re.search(pattern, text).start()` for the two expressions; the second contains the escaped label. Other expressions are
not modelled. -/
def prefixSearch (cc : CharClass) (pattern text : Str) : Option Nat :=
  if endsWith affLabelEnd pattern then
    ((affLabelPattern cc (unescape ((pattern.drop 1).take (pattern.length - 1 - affLabelEnd.length)))).search cc text).map (·.1)
  else if pattern = c!"(abstract|summary)\\s*$" then ((headingPattern cc).search cc text).map (·.1)
  else none

/-- The environment with these functions for regular expressions. -/
def withPrefixPatterns (special : Char → Bool) (env : MatchEnv) : MatchEnv :=
  { env with reSearch := fun pattern text => .ok (prefixSearch env.cc pattern text), reEscape := escapeWith special }

end Verif
