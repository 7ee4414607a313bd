/-
Specification of the fuzzy search: windows, words and text up to white space.
-/
import Verif.Model.FuzzySearch
import Verif.Spec.Fuzzy

namespace Verif.Spec

/-- The text without the characters space, tab and newline. -/
def noSpace (s : Str) : Str := s.filter (fun c => !(c == ' ' || c == '\t' || c == '\n'))

/-- `size` characters from position `i` on. -/
def slice (s : Str) (i size : Nat) : Str := (s.drop i).take size

/-- The window of the text examined at a position. -/
def window (env : StridedEnv) (haystack : Str) (start : Nat) : Str := slice haystack start env.maxLength

/-- The match found in the window is accepted: it is not empty, starts early enough and scores at least
the threshold. -/
def Accepted (env : StridedEnv) (haystack needle : Str) (start : Nat) : Prop :=
  ∃ x bs, env.lsm (window env haystack start) needle = x :: bs ∧ x.a ≤ env.stride ∧ 0 < x.size ∧
    env.threshold ≤ FuzzyResult.bGapRatioFixed ⟨haystack, needle, x :: bs, env.isJunk⟩

/-- The blocks moved by a number of characters of the first text. -/
def moved (n : Nat) (bs : List Block) : List Block := bs.map (fun x => ⟨n + x.a, x.b, x.size⟩)

/-- The matchers return consistent blocks of equal characters or words. -/
structure GoodMatchers (env : SearchEnv) : Prop where
  lsm : ∀ a b, Consistent a b (env.lsm a b) ∧ Aligned a b (env.lsm a b)
  diff : ∀ a b, Consistent a b (env.diff a b) ∧ Aligned a b (env.diff a b)

/-- The blocks of a match are in order within the first text from `start` on, and their texts are, up to
white space, the texts of parts of the second text which begin where the blocks say and are in order,
too. -/
def SameText (start : Nat) (haystack needle : Str) (bs : List Block) : Prop :=
  Ordered (aPart bs) ∧ (∀ x ∈ bs, start ≤ x.a ∧ x.a + x.size ≤ haystack.length) ∧
  ∃ parts : List (Nat × Nat), parts.length = bs.length ∧ Ordered parts ∧ (∀ r ∈ parts, r.2 ≤ needle.length) ∧
    ∀ (i : Nat) x r, bs[i]? = some x → parts[i]? = some r →
      r.1 = x.b ∧ noSpace (slice haystack x.a x.size) = noSpace (slice needle r.1 (r.2 - r.1))

/-- The position from which the search continues after the first `i` matches. -/
def startOf (start : Nat) (ms : List FuzzyResult) (i : Nat) : Nat :=
  match i with
  | 0 => start
  | j + 1 => ((ms[j]?).map (fun m => m.aRange.2)).getD 0

end Verif.Spec
