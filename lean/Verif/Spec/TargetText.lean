/-
Specification of white space normalisation.
-/
import Verif.Model.Basic

namespace Verif.Spec

/-- A line break. -/
def isBreak (c : Char) : Bool := c = '\n' || c = '\r'

/-- The white space that is normalised: line breaks, spaces and tabs. -/
def isBlankChar (c : Char) : Bool := isBreak c || c = ' ' || c = '\t'

/-- What stands for a run of white space: nothing if there is none, otherwise a line feed if the
run contains a line break and a space if it does not. -/
def runText : Option Bool → Str
  | none => []
  | some false => [' ']
  | some true => ['\n']

/-- Replaces every maximal run of white space by a single character; `run` is whether there is a
run to the left and whether it contains a line break. -/
def collapseFrom : Option Bool → Str → Str
  | run, [] => runText run
  | run, c :: s =>
    if isBlankChar c then collapseFrom (some (run.getD false || isBreak c)) s
    else runText run ++ c :: collapseFrom none s

/-- Every maximal run of white space becomes one line feed if it contains a line break and one
space otherwise; all other characters stay. -/
def collapseWhitespace (s : Str) : Str := collapseFrom none s

/-- The characters that are not white space. -/
def nonSpace (cc : CharClass) (s : Str) : Str := s.filter (fun c => !cc.isSpace c)

/-- Positions of matches in a text of length `n`: in order, not overlapping, from `pos` on. -/
def SpansFrom (n : Nat) : Nat → List (Nat × Nat) → Prop
  | _, [] => True
  | pos, (a, b) :: l => pos ≤ a ∧ a ≤ b ∧ b ≤ n ∧ SpansFrom n b l

/-- The character following the match that ends at `b` is white space, or part of the next match, or
there is none. -/
def followedBySpace (cc : CharClass) (s : Str) (b : Nat) (next : List (Nat × Nat)) : Prop :=
  (∀ c, s[b]? = some c → cc.isSpace c = true) ∨ ∃ e l, next = (b, e) :: l

/-- All matches are followed by white space, the next match or the end of the text. -/
def AllFollowedBySpace (cc : CharClass) (s : Str) : List (Nat × Nat) → Prop
  | [] => True
  | (_, b) :: l => followedBySpace cc s b l ∧ AllFollowedBySpace cc s l

/-- The position is directly behind a match, and no match covers it. -/
def behindMatch (spans : List (Nat × Nat)) (i : Nat) : Bool :=
  spans.any (fun m => decide (m.2 = i)) && !spans.any (fun m => decide (m.1 ≤ i) && decide (i < m.2))

/-- The characters at the positions with a property. -/
def charsAt (s : Str) (p : Nat → Bool) : Str := ((List.range s.length).filter p).filterMap (fun i => s[i]?)

end Verif.Spec
