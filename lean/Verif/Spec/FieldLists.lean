/-
Specification of edited field lists and of mapping keys.
-/
import Verif.Model.Basic

namespace Verif.Spec

/-- One change to a list of fields. -/
inductive Edit
  | add (v : Str)
  | remove (v : Str)
  deriving DecidableEq

def Edit.value : Edit → Str
  | .add v => v
  | .remove v => v

/-- The changes the items of a command line list ask for: `+v` and `-v`; an item without a sign has
the sign of the item before it (`adding` tells which) and empty items ask for nothing. -/
def edits (adding : Bool) : List Str → List Edit
  | [] => []
  | ('+' :: v) :: items => .add v :: edits true items
  | ('-' :: v) :: items => .remove v :: edits false items
  | [] :: items => edits adding items
  | v :: items => (if adding then .add v else .remove v) :: edits adding items

/-- The values added. -/
def added (es : List Edit) : List Str :=
  es.flatMap (fun e => match e with
    | .add v => [v]
    | .remove _ => [])

/-- The item starts with a sign. -/
def signed (item : Str) : Prop := ∃ v, item = '+' :: v ∨ item = '-' :: v

/-- The mapping key is the field itself or an option or sub field of it. -/
def keyOf (field key : Str) : Prop := key = field ∨ ∃ rest, key = field ++ '.' :: rest

/-- The mapping key is the sub field `sub` of some field. -/
def subKeyOf (sub key : Str) : Prop := ∃ field, '.' ∉ field ∧ key = field ++ c!".sub." ++ sub

/-- The value of a key in a section. -/
def entry (m : Dict (Dict Str)) (section_ key : Str) : Option Str := (m.get? section_).bind (fun d => d.get? key)

end Verif.Spec
