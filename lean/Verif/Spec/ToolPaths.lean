/-
Specification for C108: paths with name space prefixes.
-/
import Verif.Model.Basic

namespace Verif.Spec

/-- A step of a path: with or without a name space prefix. -/
structure PathStep where
  prefixed : Bool
  expr : Str

/-- The step as configured, e.g. `tei:note[@type="other"]`. -/
def PathStep.short (name : Str) (s : PathStep) : Str := if s.prefixed then name ++ c!":" ++ s.expr else s.expr

/-- The step with the name space, e.g. `{http://www.tei-c.org/ns/1.0}note[@type="other"]`. -/
def PathStep.full (url : Str) (s : PathStep) : Str := if s.prefixed then c!"{" ++ url ++ c!"}" ++ s.expr else s.expr

/-- An expression for an element: no separators of other kinds in it. -/
def PlainExpr (e : Str) : Prop := ∀ c ∈ e, c ≠ ':' ∧ c ≠ '/' ∧ c ≠ '{' ∧ c ≠ '}'

/-- The element for a field without a path of its own. -/
def noteExpr (field : Str) : Str := c!"note[@type=\"" ++ field ++ c!"\"]"

end Verif.Spec
