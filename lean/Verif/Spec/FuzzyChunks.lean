/-
Specification vocabulary for C37, C38, C55 and C62: characters that do not count, words and chunks.
-/
import Verif.Spec.FuzzySearch

namespace Verif.Spec

/-- The search ignores the character `c` behind the text `before`: asterisks and spaces, a comma behind a full
stop, and a full stop behind a letter, where spaces may be in between. -/
def IgnoredBySearch (cc : CharClass) (before : Str) (c : Char) : Prop :=
  c = '*' ∨ c = ' ' ∨ ∃ start x spaces, before = start ++ x :: spaces ∧ (∀ y ∈ spaces, y = ' ') ∧
    (c = ',' ∧ x = '.' ∨ c = '.' ∧ cc.isAlpha x = true)

/-- The comparison of the other tools ignores the character `c` behind the text `before`: asterisks, repeated
characters, a space or comma behind a full stop, and a full stop behind a letter. -/
def IgnoredByComparison (cc : CharClass) (before : Str) (c : Char) : Prop :=
  c = '*' ∨ ∃ start x, before = start ++ [x] ∧
    (c = x ∨ (c = ' ' ∨ c = ',') ∧ x = '.' ∨ c = '.' ∧ cc.isAlpha x = true)

/-- The position is inside a word: there are letters or digits on both sides. -/
def InsideWord (s : Str) (i : Nat) : Prop :=
  ∃ before u v after, s = before ++ u :: v :: after ∧ i = before.length + 1 ∧ u.isAlphanum = true ∧ v.isAlphanum = true

/-- The blocks up to the end of the last one are an acceptable match of the start of the second text. -/
def GoodStart (env : StridedEnv) (haystack needle : Str) (bs : List Block) : Prop :=
  ∃ x, bs.getLast? = some x ∧ 0 < x.size ∧
    env.threshold ≤ FuzzyResult.bGapRatioFixed ⟨haystack, needle.take (x.b + x.size), bs, env.isJunk⟩

/-- The blocks from the first one on are an acceptable match of the end of the second text. -/
def GoodEnd (env : StridedEnv) (haystack needle : Str) (bs : List Block) : Prop :=
  ∃ x rest, bs = x :: rest ∧ 0 < x.size ∧
    env.threshold ≤ FuzzyResult.bGapRatioFixed
      ⟨haystack, needle.drop x.b, bs.map (fun y => ⟨y.a, y.b - x.b, y.size⟩), env.isJunk⟩

end Verif.Spec
