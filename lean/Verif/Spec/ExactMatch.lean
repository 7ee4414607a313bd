/-
Specification of literal occurrences of a value in a text.
-/
import Verif.Spec.FuzzySearch

namespace Verif.Spec

/-- A matcher which finds a literal occurrence: if the second list occurs in the first one, it returns a
single block (besides empty ones behind it) pairing all of the second list with one of its occurrences. -/
def FindsLiteral {α : Type} (m : List α → List α → List Block) : Prop :=
  ∀ a b, b ≠ [] → b <:+: a → ∃ q zs, m a b = ⟨q, 0, b.length⟩ :: zs ∧ (∀ z ∈ zs, z.size = 0) ∧
    (a.drop q).take b.length = b

/-- The text occurs as a word (or several words): what is before it ends with a separator, and what is
behind it begins with one. -/
def WordIn (sep : List Char) (w s : Str) : Prop :=
  ∃ l r, s = l ++ w ++ r ∧ (l = [] ∨ ∃ l' c, l = l' ++ [c] ∧ c ∈ sep) ∧ (r = [] ∨ ∃ c r', r = c :: r' ∧ c ∈ sep)

/-- A part of a pattern: text, or a name in braces. -/
inductive PatternPiece
  | text (s : Str)
  | name (n : Str)

/-- Text without opening brace; names are not empty and have no closing brace. -/
def PatternPiece.ok : PatternPiece → Prop
  | .text s => '{' ∉ s
  | .name n => n ≠ [] ∧ '}' ∉ n

/-- The pattern as written. -/
def PatternPiece.written : PatternPiece → Str
  | .text s => s
  | .name n => '{' :: n ++ ['}']

/-- The pattern with names replaced. -/
def PatternPiece.filled (f : Str → Str) : PatternPiece → Str
  | .text s => s
  | .name n => f n

end Verif.Spec
