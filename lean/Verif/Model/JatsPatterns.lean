/-
The patterns of fix_jats_xml.py:79-100, 364-370, as regular expressions.
-/
import Verif.Model.Regex
import Verif.Model.JatsFix

namespace Verif

/-- `\s*` -/
def reSpaces (cc : CharClass) : Re := .star cc.isSpace

/-- PMID_FIX_PATTERN (fix_jats_xml.py:86). Here and below `cc.isDigit` is `\d`. -/
def pmidFixPattern (cc : CharClass) : Pattern where
  pre := .seq (.opt (.cat [.lit exactly c!"PMID", reSpaces cc, .lit exactly c!":", reSpaces cc])) .wordB
  grp := .rep (.chr cc.isDigit) 1 (some 10) true
  post := .wordB

/-- PMID_PATTERN (fix_jats_xml.py:87). -/
def pmidPattern (cc : CharClass) : Pattern where
  pre := .cat [.lit exactly c!"PMID", reSpaces cc, .lit exactly c!":", reSpaces cc]
  grp := .rep (.chr cc.isDigit) 1 (some 10) true
  post := .wordB

/-- PMCID_PATTERN (fix_jats_xml.py:88) with `re.IGNORECASE` (357-358); `same l c` is whether the character `c` matches
the literal `l` then. -/
def pmcidPattern (cc : CharClass) (same : Char → Char → Bool) : Pattern where
  pre := .empty
  grp := .seq (.lit same c!"PMC") (.plus cc.isDigit)
  post := .empty

/-- WOS_PATTERN (fix_jats_xml.py:89) with `re.IGNORECASE` (361-362). -/
def wosPattern (cc : CharClass) (same : Char → Char → Bool) : Pattern where
  pre := .cat [.lit same c!"WOS", reSpaces cc, .lit same c!":", reSpaces cc]
  grp := .rep (.chr cc.isDigit) 15 (some 15) true
  post := .wordB

/-- `[0-9xX]` -/
def isPiiChar (c : Char) : Bool := ('0' ≤ c && c ≤ '9') || c = 'x' || c = 'X'

/-- PII_VALID_PATTERN (fix_jats_xml.py:83). -/
def piiValidPattern (cc : CharClass) : Pattern where
  pre := .wordB
  grp := .cat [.chr (fun c => c = 'S' || c = ',' || c = 'B'), .star (fun c => !cc.isWord c),
    .rep (.seq (.chr isPiiChar) (.star (fun c => !cc.isWord c))) 15 none true, .chr isPiiChar]
  post := .empty

/-- PII_OTHER_PATTERN (fix_jats_xml.py:84). -/
def piiOtherPattern (cc : CharClass) : Pattern where
  pre := .seq .wordB (.opt (.lit exactly c!"doi:"))
  grp := .rep (.chr (fun c => !cc.isSpace c)) 5 none true
  post := .seq (reSpaces cc) (.lit exactly c!"[pii]")

/-- DOI_URL_PREFIX_PATTERN (fix_jats_xml.py:91). -/
def doiUrlPrefixPattern (cc : CharClass) : Pattern where
  pre := .empty
  grp := .cat [
    .opt (.cat [.lit exactly c!"http", .opt (.lit exactly c!"s"), reSpaces cc, .lit exactly c!":", reSpaces cc, .lit exactly c!"/",
      reSpaces cc, .lit exactly c!"/", reSpaces cc]),
    .opt (.cat [.plus (fun c => 'a' ≤ c && c ≤ 'z'), reSpaces cc, .lit exactly c!".", reSpaces cc]),
    .lit exactly c!"doi", reSpaces cc, .chr (fun c => c ≠ '\n'), reSpaces cc, .lit exactly c!"org", reSpaces cc, .lit exactly c!"/",
    reSpaces cc]
  post := .empty

/-- ARTICLE_TITLE_PATTERN (fix_jats_xml.py:93). -/
def titlePattern (cc : CharClass) : Pattern where
  pre := .bol
  grp := .rep (.chr (fun c => c ≠ '\n')) 0 none false
  post := .seq
    (.opt (.alt (.cat [.lit exactly c!";", reSpaces cc, .lit exactly c!"PMC", .plus cc.isDigit])
      (.cat [reSpaces cc, .lit exactly c!",", reSpaces cc])))
    .eol

/-- DOI_TRUNCATE_AT_TOKENS (fix_jats_xml.py:96). -/
def truncateTokens : List Str := [c!"PubMed", c!"PMID", c!"PMCID", c!"Error", c!"Epub", c!"Accessed"]

/-- One alternative of DOI_TRUNCATE_AT_PATTERN (fix_jats_xml.py:98). -/
def truncateRe (cc : CharClass) (same : Char → Char → Bool) (token : Str) : Re :=
  .cat [.chr (fun c => cc.isSpace c || c = '('), .lit same token, .wordB]

/-- DOI_TRUNCATE_AT_PATTERN (fix_jats_xml.py:97-100). The tokens are a set, and have no order; the position found does not
depend on it. -/
def truncatePattern (cc : CharClass) (same : Char → Char → Bool) : Pattern where
  pre := .empty
  grp := truncateTokens.foldr (fun t r => .alt (truncateRe cc same t) r) (.rep (.chr (fun _ => false)) 1 none true)
  post := .empty

/-- DOI_PATTERN (fix_jats_xml.py:80), the expression in the group. -/
def doiRe (cc : CharClass) : Re :=
  .cat [.lit exactly c!"10.", .rep (.chr cc.isDigit) 4 none true,
    .rep (.seq (.chr (exactly '.')) (.rep (.chr cc.isDigit) 1 none true)) 0 none true, .lit exactly c!"/", .plus (fun c => c ≠ '\n')]

/-- DOI_PATTERN (fix_jats_xml.py:80). -/
def doiPattern (cc : CharClass) : Pattern where
  pre := .wordB
  grp := doiRe cc
  post := .empty

/-- The pattern of `find_doi_ext_link_start_end` (fix_jats_xml.py:366); the group is the second one. -/
def doiExtLinkPattern (cc : CharClass) : Pattern where
  pre := .star (fun c => c ≠ '\n')
  grp := .cat [.lit exactly c!"[", .wordB, doiRe cc, .lit exactly c!"]"]
  post := .empty

/-- The functions of fix_jats_xml.py with these patterns. -/
def jatsEnvOf (cc : CharClass) (isPunct : Char → Bool) (same : Char → Char → Bool) (lower : Str → Str) : JatsEnv where
  cc := cc
  isPunct := isPunct
  truncateAt s := ((truncatePattern cc same).search cc s).map (·.1)
  titleSpan := (titlePattern cc).search cc
  lower := lower
  piiValid := (piiValidPattern cc).search cc
  piiOther := (piiOtherPattern cc).search cc
  pmid := (pmidPattern cc).search cc
  pmidFix := (pmidFixPattern cc).search cc
  pmcid := (pmcidPattern cc same).search cc
  wos := (wosPattern cc same).search cc
  doiUrlPrefix := (doiUrlPrefixPattern cc).search cc
  doiExtLink s := ((doiExtLinkPattern cc).matchStart cc s).map (·.1)

end Verif
