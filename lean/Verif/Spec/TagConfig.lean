/-
Specification of the options of the fields in the XML mapping.
-/
import Verif.Model.TagConfig

namespace Verif.Spec

/-- The value of `key` in the mapping: that given last, whatever the section. -/
def given (mapping : Dict (Dict Str)) (key : Str) : Option Str :=
  ((mapping.flatMap Prod.snd).filter (fun p => p.1 = key)).getLast?.map Prod.snd

/-- `f` is the name of a field: a key without a dot in one of the sections. -/
def IsField (mapping : Dict (Dict Str)) (f : Str) : Prop :=
  '.' ∉ f ∧ ∃ sec ∈ mapping, ∃ v, (f, v) ∈ sec.2

/-- `s` consists of the lines `ls`. -/
inductive IsLines : Str → List Str → Prop
  | empty : IsLines [] []
  | last (l : Str) : l ≠ [] → (∀ c ∈ l, isLineBoundary c = false) → IsLines l [l]
  | crlf (l s : Str) (ls : List Str) : (∀ c ∈ l, isLineBoundary c = false) → IsLines s ls →
      IsLines (l ++ '\r' :: '\n' :: s) (l :: ls)
  | line (l : Str) (c : Char) (s : Str) (ls : List Str) : (∀ c ∈ l, isLineBoundary c = false) → isLineBoundary c = true →
      ¬ (c = '\r' ∧ s.head? = some '\n') → IsLines s ls → IsLines (l ++ c :: s) (l :: ls)

/-- The line gives `key` the spellings `values`: `key = value,value`. White space around the key and
around the list is ignored, that inside the list is not. -/
def SpellingLine (cc : CharClass) (line key : Str) (values : List Str) : Prop :=
  ∃ a b, strip cc line = a ++ '=' :: b ∧ '=' ∉ a ∧ key = strip cc a ∧
    values ≠ [] ∧ (∀ v ∈ values, ',' ∉ v) ∧ joinStr [','] values = strip cc b

/-- The line is neither blank nor of the form `key = values`. -/
def BadLine (cc : CharClass) (line : Str) : Prop := strip cc line ≠ [] ∧ '=' ∉ strip cc line

/-- The texts for yes and no. -/
def yesTexts : List Str := [c!"y", c!"yes", c!"t", c!"true", c!"on", c!"1"]
def noTexts : List Str := [c!"n", c!"no", c!"f", c!"false", c!"off", c!"0"]

/-- An expression in double quotes stands for the expression without them. -/
inductive Unquoted : Str → Str → Prop
  | quoted (r : Str) : Unquoted ('"' :: r ++ ['"']) r
  | plain (r : Str) : (∀ r', r ≠ '"' :: r' ++ ['"']) → Unquoted r r

/-- An option of the field `f` has a value that cannot be used. -/
inductive BadOption (env : TagConfigEnv) (mapping : Dict (Dict Str)) (f : Str) : Prop
  | regex (v r : Str) : given mapping (f ++ c!".match-prefix-regex") = some v → v ≠ [] → Unquoted v r →
      env.validRegex r = false → BadOption env mapping f
  | spellings (v line : Str) (lines : List Str) : given mapping (f ++ c!".alternative-spellings") = some v →
      IsLines v lines → line ∈ lines → BadLine env.cc line → BadOption env mapping f
  | merge (v : Str) : given mapping (f ++ c!".merge") = some v → env.lower v ∉ yesTexts → env.lower v ∉ noTexts →
      BadOption env mapping f
  | extend (v : Str) : given mapping (f ++ c!".extend-to-line") = some v → env.lower v ∉ yesTexts →
      env.lower v ∉ noTexts → BadOption env mapping f
  | maxChunks (v : Str) : given mapping (f ++ c!".max_chunks") = some v → env.parseInt v = none →
      BadOption env mapping f

/-- `b` is the value of an option for yes or no that is on unless given. -/
def Switch (lower : Str → Str) (value : Option Str) (b : Bool) : Prop :=
  (value = none ∧ b = true) ∨ ∃ v, value = some v ∧ (b = true ∧ lower v ∈ yesTexts ∨ b = false ∧ lower v ∈ noTexts)

/-- What the standard library does with the default values. -/
structure Defaults (env : TagConfigEnv) : Prop where
  lower : env.lower c!"True" = c!"true"
  parseInt : env.parseInt c!"1" = some 1

end Verif.Spec
