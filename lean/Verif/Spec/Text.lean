/-
Specification vocabulary for text and tokens, independent of the model.
-/
import Verif.Model.Basic

namespace Verif.Spec

/-- Cuts a text at every boundary between two neighbouring characters. -/
def cutAt (boundary : Char → Char → Bool) : Str → List Str
  | [] => []
  | [c] => [[c]]
  | c :: d :: s =>
    if boundary c d then [c] :: cutAt boundary (d :: s)
    else match cutAt boundary (d :: s) with
      | [] => [[c]]
      | w :: ws => (c :: w) :: ws

/-- A token boundary lies next to every character that is not a word character, and between a
lower case and an upper case letter. -/
def tokenBoundary (cc : CharClass) (x y : Char) : Bool :=
  !cc.isWord x || !cc.isWord y || (cc.isLower x && cc.isUpper y)

end Verif.Spec
