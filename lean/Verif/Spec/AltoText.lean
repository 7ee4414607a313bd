/-
Specification of the text of ALTO pages.
-/
import Verif.Model.AltoText

namespace Verif.Spec

/-- The parts of a page, from the outside to the inside. -/
def altoKinds : List Str := [c!"{http://www.loc.gov/standards/alto/ns-v3#}Page", c!"{http://www.loc.gov/standards/alto/ns-v3#}TextBlock",
  c!"{http://www.loc.gov/standards/alto/ns-v3#}TextLine", c!"{http://www.loc.gov/standards/alto/ns-v3#}String"]

mutual
/-- Inside of `n` of the kinds: blocks are in pages, lines in blocks and words in lines, and never one of a kind inside of another. -/
def WellNested (n : Nat) : Elem → Prop
  | .mk tag _ _ cs _ => if tag ∈ altoKinds then altoKinds[n]? = some tag ∧ WellNesteds (n + 1) cs else WellNesteds n cs
/-- The same for a list of elements. -/
def WellNesteds (n : Nat) : List Elem → Prop
  | [] => True
  | e :: es => WellNested n e ∧ WellNesteds n es
end

/-- All words of a document, in document order. -/
def altoWords (root : Elem) : List Str :=
  ((elemsBelow [root]).filter (fun x => x.tag = c!"{http://www.loc.gov/standards/alto/ns-v3#}String")).map (fun e => e.attrib.getD c!"CONTENT" [])

/-- The lines with words, as lists of words, of the blocks of the pages of a document. -/
def altoLayout (root : Elem) : List (List (List (List Str))) :=
  ((elemsBelow [root]).filter (fun x => x.tag = altoName c!"Page")).map (fun page =>
    ((altoAll c!"TextBlock" page).filter hasString).map (fun block =>
      ((altoAll c!"TextLine" block).filter hasString).map (fun line =>
        (altoAll c!"String" line).map (fun e => e.attrib.getD c!"CONTENT" []))))

/-- The text of a line ends with a line feed. -/
def lineText (words : List Str) : Str := joinStr c!" " words ++ c!"\n"

/-- The text with this layout: a blank line between blocks, two blank lines between pages, and a line feed at the end. -/
def layoutText (pages : List (List (List (List Str)))) : Str :=
  joinStr c!"\n\n" (pages.map (fun blocks => joinStr c!"\n" (blocks.map (fun lines => lines.flatMap lineText)))) ++ c!"\n"

/-- The parts of a list between the elements equal to `c`. -/
def partsBetween {α : Type} [DecidableEq α] (c : α) : List α → List (List α)
  | [] => [[]]
  | x :: s => if x = c then [] :: partsBetween c s else
      match partsBetween c s with
      | [] => [[x]]
      | f :: fs => (x :: f) :: fs

/-- Reading a text: lines end with line feeds, blocks with a blank line, pages with another one; the words of a line are between spaces.
What is left behind the last page are two empty parts. -/
def readLayout (text : Str) : List (List (List (List Str))) :=
  (partsBetween [] (partsBetween [] (partsBetween '\n' text))).dropLast.dropLast.map
    (fun blocks => blocks.map (fun lines => lines.map (partsBetween ' ')))

/-- A word which can be recognised: not empty, without space or line feed. -/
def PlainWord (w : Str) : Prop := w ≠ [] ∧ ' ' ∉ w ∧ '\n' ∉ w

end Verif.Spec
