/-
Specification of the labels that can be read back if a tool has further fields.
-/
import Verif.Spec.Reload
import Verif.Spec.ToolPaths

namespace Verif.Spec

/-- A name without line feeds and without the characters which separate the elements of a path. -/
def OneStep (name : Str) : Prop := ∀ c ∈ name, c ≠ '/' ∧ c ≠ '{' ∧ c ≠ '}' ∧ c ≠ '\n'

/-- The fields for which the tool has no element. -/
def newFields (mapping : Dict Str) (fields : List Str) : List Str := fields.filter (fun f => (mapping.get? f).isNone)

/-- A tool with its own paths, the labels of its own which can be read back, and the fields selected: the names of the
fields for which it has no element are simple, and not `other`, which is the name of the element of text without a
label. -/
structure ToolFields (base : Dict Str) (mains : List (Option Str)) (fields : List Str) : Prop where
  tool : (base, mains) ∈ toolTags
  names : ∀ f ∈ newFields base fields, OneStep f ∧ f ≠ c!"other" ∧ some f ∉ mains

/-- The paths of the labels of a tool with these fields, and the labels which can be read back. -/
def ReadableMapping (mapping : Dict Str) (mains : List (Option Str)) : Prop :=
  ∃ base own fields, ToolFields base own fields ∧ mapping = addFieldPaths base fields ∧
    mains = own ++ (newFields base fields).map some

/-- Text with a sub label which has an element of the tool, or at least a simple name. -/
def ReadableSub (mapping : Dict Str) (sub : Option Str) : Prop :=
  ∀ s, sub = some s → s ∈ mapping.map (·.1) ∨ OneStep s

end Verif.Spec
