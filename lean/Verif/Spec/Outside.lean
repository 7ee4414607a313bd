/-
Specification for C148: elements by their position (the number of the child at each level), and documents that are
the same except below one position.
-/
import Verif.Model.Xml

namespace Verif.Spec

/-- The element at a position below `e`. -/
def elemAt : List Nat → Elem → Option Elem
  | [], e => some e
  | i :: q, e => e.children[i]?.bind (elemAt q)

/-- The tags of the elements on the way to a position below `e`, without `e` itself. -/
def tagsTo : List Nat → Elem → Option (List Str)
  | [], _ => some []
  | i :: q, e => e.children[i]?.bind (fun c => (tagsTo q c).map (c.tag :: ·))

/-- `pos` is the first position, in document order, to which the path of tags leads. -/
structure FirstAt (path : List Str) (pos : List Nat) (root : Elem) : Prop where
  leads : tagsTo pos root = some path
  first : ∀ q, tagsTo q root = some path → ¬ q < pos

/-- Two elements with the same tag, attributes, text, following text and number of children. -/
structure SameHead (e e' : Elem) : Prop where
  tag : e'.tag = e.tag
  attrib : e'.attrib = e.attrib
  text : e'.text = e.text
  tail : e'.tail = e.tail
  children : e'.children.length = e.children.length

/-- Both documents have the same elements at all positions other than `pos` and those below it. -/
def SameOutside (pos : List Nat) (root root' : Elem) : Prop :=
  ∀ q, ¬ pos <+: q →
    (elemAt q root = none ∧ elemAt q root' = none) ∨
      ∃ e e', elemAt q root = some e ∧ elemAt q root' = some e' ∧ SameHead e e'

end Verif.Spec
