/-
Specification for C149 and C114: the form of identifiers in texts.
-/
import Verif.Model.Basic
import Verif.Spec.JatsText

namespace Verif.Spec

/-- Facts about the classes of characters: digits are characters of words, white space and colons are not, and the letters
of `PMID` are no digits. -/
structure WordClasses (cc : CharClass) : Prop where
  digit : ∀ c, cc.isDigit c = true → cc.isWord c = true
  space : ∀ c, cc.isSpace c = true → cc.isWord c = false
  colon : cc.isWord ':' = false
  label : ∀ c ∈ c!"PMID", cc.isDigit c = false

/-- Texts of the same length with the same letters, in the sense of `same`. -/
def SameLetters (same : Char → Char → Bool) : Str → Str → Prop
  | [], [] => True
  | a :: s, b :: t => same a b = true ∧ SameLetters same s t
  | _, _ => False

/-- A number with `lo` to `hi` digits. -/
structure Number (cc : CharClass) (lo hi : Nat) (d : Str) : Prop where
  atLeast : lo ≤ d.length
  atMost : d.length ≤ hi
  digits : ∀ c ∈ d, cc.isDigit c = true

/-- A text that does not continue a word. -/
def NoWordFirst (cc : CharClass) (v : Str) : Prop := ∀ c, v.head? = some c → cc.isWord c = false

/-- A text that does not end within a word. -/
def NoWordLast (cc : CharClass) (u : Str) : Prop := ∀ c, u.getLast? = some c → cc.isWord c = false

/-- White space, or nothing. -/
def Spaces (cc : CharClass) (w : Str) : Prop := ∀ c ∈ w, cc.isSpace c = true

/-- `s` is `u`, then a label, a colon and a number `d`, possibly with white space between them, and then `v`; `p` is
the label with the colon. The number is not continued by `v`. -/
structure Labelled (cc : CharClass) (same : Char → Char → Bool) (label : Str) (lo hi : Nat) (s u p d v : Str) : Prop where
  text : s = u ++ p ++ d ++ v
  label : ∃ l w k w', p = l ++ w ++ k ++ w' ∧ SameLetters same label l ∧ Spaces cc w ∧ SameLetters same c!":" k ∧ Spaces cc w'
  number : Number cc lo hi d
  ends : NoWordFirst cc v

/-- `s` is `u`, a number of 1 to 10 digits, and `v`; the number is a word of its own. -/
structure WholeNumber (cc : CharClass) (s u d v : Str) : Prop where
  text : s = u ++ d ++ v
  number : Number cc 1 10 d
  begins : NoWordLast cc u
  ends : NoWordFirst cc v

/-- `PMC`, in upper or lower case, and digits. -/
structure PmcForm (cc : CharClass) (same : Char → Char → Bool) (x : Str) : Prop where
  form : ∃ l d, x = l ++ d ∧ SameLetters same c!"PMC" l ∧ d ≠ [] ∧ ∀ c ∈ d, cc.isDigit c = true

/-- The characters of a PII after the first one. -/
def piiDigit (c : Char) : Bool := ('0' ≤ c && c ≤ '9') || c = 'x' || c = 'X'

/-- `S`, `B` (or a comma) and at least 16 digits or `x`, the last of which is the end; between them there are only
characters that are not part of words. -/
structure PiiForm (cc : CharClass) (x : Str) : Prop where
  form : ∃ c r e, x = c :: (r ++ [e]) ∧ (c = 'S' ∨ c = 'B' ∨ c = ',') ∧ piiDigit e = true ∧
    (∀ d ∈ r, piiDigit d = true ∨ cc.isWord d = false) ∧ 15 ≤ (r.filter piiDigit).length

/-- Exactly one of two neighbouring texts has a character of a word at the border. -/
def WordEdge (cc : CharClass) (u v : Str) : Prop := NoWordLast cc u ↔ ¬ NoWordFirst cc v

/-- `s` is `u`, perhaps `doi:`, at least five characters `x`, none of them white space, then `[pii]`, perhaps after white
space, and `v`; `y` is `doi:` or nothing. -/
structure OtherPii (cc : CharClass) (s u y x z v : Str) : Prop where
  text : s = u ++ y ++ x ++ z ++ v
  edge : WordEdge cc u (y ++ x)
  doi : y = [] ∨ y = c!"doi:"
  long : 5 ≤ x.length
  solid : ∀ c ∈ x, cc.isSpace c = false
  label : ∃ w, z = w ++ c!"[pii]" ∧ Spaces cc w

/-- What is removed from the end of a title: a PMCID after a semicolon, or a comma, and a final line break. -/
inductive TitleEnd (cc : CharClass) : Str → Prop where
  | nothing : TitleEnd cc []
  | line : TitleEnd cc ['\n']
  | pmcid (w d n : Str) : Spaces cc w → d ≠ [] → (∀ c ∈ d, cc.isDigit c = true) → n = [] ∨ n = ['\n'] →
      TitleEnd cc (c!";" ++ w ++ c!"PMC" ++ d ++ n)
  | comma (w w' n : Str) : Spaces cc w → Spaces cc w' → n = [] ∨ n = ['\n'] → TitleEnd cc (w ++ c!"," ++ w' ++ n)

/-- The words at which DOIs are cut off. -/
def stopWords : List Str := [c!"PubMed", c!"PMID", c!"PMCID", c!"Error", c!"Epub", c!"Accessed"]

/-- `s` is `u`, white space or an opening parenthesis `g`, one of the words in upper or lower case, and `v`, which does not
continue the word. -/
structure StopWord (cc : CharClass) (same : Char → Char → Bool) (s u : Str) (g : Char) (t v : Str) : Prop where
  text : s = u ++ g :: t ++ v
  gap : cc.isSpace g = true ∨ g = '('
  word : ∃ w ∈ stopWords, SameLetters same w t
  ends : WordEdge cc (u ++ g :: t) v

/-- Numbers, each of them after a dot. -/
inductive Dotted (cc : CharClass) : Str → Prop
  | nil : Dotted cc []
  | cons (d m : Str) : d ≠ [] → (∀ c ∈ d, cc.isDigit c = true) → Dotted cc m → Dotted cc ('.' :: d ++ m)

/-- `10.` with at least four digits, perhaps further numbers after dots, a slash, and at least one character; all on one line. -/
structure DoiForm (cc : CharClass) (x : Str) : Prop where
  form : ∃ d m r, x = c!"10." ++ d ++ m ++ c!"/" ++ r ∧ 4 ≤ d.length ∧ (∀ c ∈ d, cc.isDigit c = true) ∧ Dotted cc m ∧ r ≠ [] ∧ '\n' ∉ r

/-- `s` is a text `u` on one line, a DOI in brackets, and `v`. -/
structure BracketedDoi (cc : CharClass) (s u x v : Str) : Prop where
  text : s = u ++ c!"[" ++ x ++ c!"]" ++ v
  line : '\n' ∉ u
  doi : DoiForm cc x

/-- `http://` or `https://`, perhaps with white space. -/
def Scheme (cc : CharClass) (p : Str) : Prop :=
  ∃ o w₁ w₂ w₃ w₄, p = c!"http" ++ o ++ w₁ ++ c!":" ++ w₂ ++ c!"/" ++ w₃ ++ c!"/" ++ w₄ ∧ (o = [] ∨ o = c!"s") ∧
    Spaces cc w₁ ∧ Spaces cc w₂ ∧ Spaces cc w₃ ∧ Spaces cc w₄

/-- A name such as `dx` and a dot, perhaps with white space. -/
def HostPart (cc : CharClass) (h : Str) : Prop :=
  ∃ n w₁ w₂, h = n ++ w₁ ++ c!"." ++ w₂ ∧ n ≠ [] ∧ (∀ c ∈ n, 'a' ≤ c ∧ c ≤ 'z') ∧ Spaces cc w₁ ∧ Spaces cc w₂

/-- `doi.org/`, perhaps with white space, and any character instead of the dot. -/
def DoiOrg (cc : CharClass) (c : Str) : Prop :=
  ∃ w₁ k w₂ w₃ w₄, c = c!"doi" ++ w₁ ++ [k] ++ w₂ ++ c!"org" ++ w₃ ++ c!"/" ++ w₄ ∧ k ≠ '\n' ∧
    Spaces cc w₁ ∧ Spaces cc w₂ ∧ Spaces cc w₃ ∧ Spaces cc w₄

/-- The start of the address of a DOI. -/
def DoiUrl (cc : CharClass) (x : Str) : Prop :=
  ∃ p h c, x = p ++ h ++ c ∧ (p = [] ∨ Scheme cc p) ∧ (h = [] ∨ HostPart cc h) ∧ DoiOrg cc c

/-- The form of the identifiers of each type. -/
def IdForm (cc : CharClass) (same : Char → Char → Bool) (type x : Str) : Prop :=
  type = c!"doi" ∧ IsDoi cc x ∨ type = c!"pmid" ∧ Number cc 1 10 x ∨ type = c!"pmcid" ∧ PmcForm cc same x ∨ type = c!"pii" ∧ PiiForm cc x

end Verif.Spec
