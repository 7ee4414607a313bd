/-
Specification vocabulary for saving a document a second time.
-/
import Verif.Spec.ReloadTokens
import Verif.Spec.ReloadSub

namespace Verif.Spec

/-- The token has no sub tag. -/
def Unsub (t : Tok) : Prop := fullSubTag t = none ∨ fullSubTag t = some []

instance (t : Tok) : Decidable (Unsub t) := inferInstanceAs (Decidable (_ ∨ _))

/-- The token has no sub tag, or its sub tag has a value and an element of its own below the main element. -/
def SubOwn (mapping : Dict Str) (t : Tok) : Prop :=
  Unsub t ∨ (subValue t ≠ none ∧ (mainPath mapping t).length < (tokenPath mapping t).length ∧
    subName mapping (joinWith c!"/" (tokenPath mapping t)) = subValue t)

instance (mapping : Dict Str) (t : Tok) : Decidable (SubOwn mapping t) := inferInstanceAs (Decidable (_ ∨ _))

/-- An entity starts at the token (as in `entityChars`): `prev` is the tag of the previous text,
`begun` lists the tags with begin prefix on white space since then. -/
def startsAt (prev : Option Str) (begun : List (Option Str)) (t : Tok) : Bool :=
  decide (mainValue t ≠ none ∧ (beginsEntity t = true ∨ mainValue t ∈ begun ∨ prev ≠ mainValue t))

/-- Where an entity starts whose element lies inside another element than the container, the token
has the begin prefix. -/
def NestedMarked (cc : CharClass) (mapping : Dict Str) (prev : Option Str) (begun : List (Option Str)) : List Tok → Prop
  | [] => True
  | t :: ts =>
    if blank cc t then NestedMarked cc mapping prev (if beginsEntity t then mainValue t :: begun else begun) ts
    else (startsAt prev begun t = true → (mainPath mapping t).length ≤ 1 ∨ beginsEntity t = true) ∧
      NestedMarked cc mapping (mainValue t) [] ts

/-- Loads the file and saves the document again, `n` times. -/
def resaved (cfg : DocCfg) : Nat → Elem → Except Err Elem
  | 0, root => .ok root
  | n + 1, root =>
    match loadDoc cfg root with
    | .error e => .error e
    | .ok d =>
      match docRoot cfg root d with
      | .error e => .error e
      | .ok root' => resaved cfg n root'

end Verif.Spec
