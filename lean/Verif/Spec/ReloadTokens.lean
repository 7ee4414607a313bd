/-
Specification vocabulary for the tokens of the lines of a document that is saved and loaded again.
-/
import Verif.Spec.Reload
import Verif.Spec.Text

namespace Verif.Spec

/-- The texts of the tokens of each line. -/
def tokenTexts (d : Doc) : List (List Str) := d.lineToks.map (fun l => l.map (·.text))

/-- The text of a token is a token for the tokeniser: there is no boundary inside. -/
def Whole (cc : CharClass) (s : Str) : Prop := cutAt (tokenBoundary cc) s = [s]

/-- Neighbouring tokens of a line meet at a token boundary. -/
def Apart (cc : CharClass) (line : List Str) : Prop :=
  ∀ pre s t post x y, line = pre ++ s :: t :: post → s.getLast? = some x → t.head? = some y →
    tokenBoundary cc x y = true

/-- A text consists of white space. -/
def space (cc : CharClass) (s : Str) : Bool := s.all cc.isSpace

/-- The white space tokens at the end of a line. -/
def trailing (cc : CharClass) (line : List Str) : List Str := (line.reverse.takeWhile (space cc)).reverse

/-- A line without the white space tokens at its end. -/
def withoutTrailing (cc : CharClass) (line : List Str) : List Str :=
  (line.reverse.dropWhile (space cc)).reverse

/-- Moves the white space at the end of each line to the start of the next one; `front` is put in
front of the first line. -/
def moveSpace (cc : CharClass) (front : List Str) : List (List Str) → List (List Str)
  | [] => []
  | [l] => [front ++ l]
  | l :: m :: ls =>
    withoutTrailing cc (front ++ l) :: moveSpace cc (trailing cc (front ++ l)) (m :: ls)

/-- Drops a final line without tokens. -/
def dropFinalNoTokens (ls : List (List Str)) : List (List Str) :=
  if ls.getLast? = some [] then ls.dropLast else ls

/-- The tokens of each line that are not white space, with their main tags. -/
def labelledLines (cc : CharClass) (d : Doc) : List (List (Str × Option Str)) :=
  d.lineToks.map (fun l => (l.filter (fun t => !blank cc t)).map (fun t => (t.text, mainValue t)))

/-- An element with text and line breaks only. -/
def PlainLines (e : Elem) : Prop :=
  e.tail = none ∧ ∀ c ∈ e.children, c.tag = c!"lb" ∧ c.text = none ∧ c.children = []

end Verif.Spec
