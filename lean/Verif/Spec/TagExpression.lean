/-
Specification for property C56: the expressions of a name with at most one attribute.
-/
import Verif.Model.TeiLoad

namespace Verif

/-- `TagExpression s tag attrib`: the expression `s` is the name `tag`, or is like `tag[@k="v"]`, where the
`@` may be missing and a line feed may follow. An `@` in front of a name belongs to the expression. -/
inductive Spec.TagExpression : Str → Str → Dict Str → Prop
  | name (tag : Str) (ht : tag ≠ []) (hb : '[' ∉ tag) : TagExpression tag tag []
  | withAttribute (tag at' k v lf : Str) (ht : tag ≠ []) (hb : '[' ∉ tag) (hk : k ≠ []) (he : '=' ∉ k) (hv : v ≠ [])
      (hn : '\n' ∉ v) (hat : at' = c!"@" ∨ at' = [] ∧ (k = c!"@" ∨ k.head? ≠ some '@')) (hlf : lf = [] ∨ lf = c!"\n") :
      TagExpression (tag ++ c!"[" ++ at' ++ k ++ c!"=\"" ++ v ++ c!"\"]" ++ lf) tag [(k, v)]

end Verif
