/-
The patterns of the post processing of references (reference_annotator.py:38, auto_annotate_reference.py:104-112), as regular
expressions.
-/
import Verif.Model.Regex
import Verif.Model.Reference

namespace Verif

/-- `(\s?:)?$` -/
def labelEndRe (cc : CharClass) : Re := .seq (.opt (.seq (.opt (.chr cc.isSpace)) (.lit exactly c!":"))) .eol

/-- `[a-zA-Z]` -/
def isLetterAZ (c : Char) : Bool := ('a' ≤ c && c ≤ 'z') || ('A' ≤ c && c ≤ 'Z')

/-- DEFAULT_IDNO_PREFIX_REGEX (reference_annotator.py:38). -/
def idnoPrefixPattern (cc : CharClass) : Pattern where
  pre := .empty
  grp := .seq .wordB (.seq (.rep (.chr isLetterAZ) 2 none true) (labelEndRe cc))
  post := .empty

/-- `(?i)\bDOI(\s?:)?$` and the same with `PII` (auto_annotate_reference.py:107-108); `same l c` is whether the character `c`
matches the literal `l` whatever the case. The colon is compared exactly, since it is no letter. -/
def namedPrefixPattern (cc : CharClass) (same : Char → Char → Bool) (name : Str) : Pattern where
  pre := .empty
  grp := .seq .wordB (.seq (.lit same name) (labelEndRe cc))
  post := .empty

/-- `re.search(pattern, text).start()` for the patterns of IDNO_PREFIX_REGEX_MAP (auto_annotate_reference.py:104-112). -/
def refEnvOf (cc : CharClass) (same : Char → Char → Bool) : RefEnv where
  cc := cc
  search pattern text :=
    if pattern = c!"\\b[a-zA-Z]{2,}(\\s?:)?$" then ((idnoPrefixPattern cc).search cc text).map (·.1)
    else if pattern = c!"(?i)\\bDOI(\\s?:)?$" then ((namedPrefixPattern cc same c!"DOI").search cc text).map (·.1)
    else if pattern = c!"(?i)\\bPII(\\s?:)?$" then ((namedPrefixPattern cc same c!"PII").search cc text).map (·.1)
    else none

end Verif
