/-
Specification for the functions on texts of fix_jats_xml.py.
-/
import Verif.Model.JatsText

namespace Verif.Spec

/-- Facts about Python's character classes used for identifiers: digits are no white space and
none of the characters `.`, `/`, `(`, `[`; dot and slash are no white space. -/
structure DigitsPlain (cc : CharClass) : Prop where
  digit : ∀ c, cc.isDigit c = true → cc.isSpace c = false ∧ c ≠ '.' ∧ c ≠ '/' ∧ c ≠ '(' ∧ c ≠ '[' ∧ c ≠ ' '
  dot : cc.isSpace '.' = false
  slash : cc.isSpace '/' = false

/-- The truncation pattern starts with white space or an opening parenthesis. -/
def TruncatesAtGap (env : JatsTextEnv) : Prop :=
  ∀ s i, env.truncateAt s = some i → ∃ c, s[i]? = some c ∧ (env.cc.isSpace c = true ∨ c = '(')

/-- A text that has the form of a DOI: `10.`, digits and dots, a slash. -/
def IsDoi (cc : CharClass) (s : Str) : Prop :=
  ∃ p q, s = c!"10." ++ p ++ '/' :: q ∧ 4 ≤ p.length ∧ ∀ c ∈ p, cc.isDigit c = true ∨ c = '.'

/-- `s` starts with a URL scheme. -/
def StartsUrl (s : Str) : Prop := c!"http://" <+: s ∨ c!"https://" <+: s

/-- The opening and the closing quote belong together. -/
def QuotePair (a b : Char) : Prop := (a, b) ∈ [('"', '"'), ('‘', '’'), ('“', '”')]

/-- A text without punctuation. -/
def unpunctuated (env : JatsTextEnv) (s : Str) : Str := s.filter (fun c => decide (env.isPunct c = false))

/-- A text without punctuation and white space. -/
def solid (env : JatsTextEnv) (s : Str) : Str := s.filter (fun c => decide (env.isPunct c = false ∧ env.cc.isSpace c = false))

/-- The target of a link with the given text: the text without white space, with a scheme. -/
def LinkTarget (cc : CharClass) (text target : Str) : Prop :=
  ∃ url, url = text.filter (fun c => decide (cc.isSpace c = false)) ∧
    (c!"://" <:+: url ∧ target = url ∨ ¬ c!"://" <:+: url ∧ target = c!"https://" ++ url)

end Verif.Spec
