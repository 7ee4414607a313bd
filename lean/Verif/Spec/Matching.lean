/-
Specification of joined texts and of the selection of tokens by positions.
-/
import Verif.Model.MatchingUtils
import Verif.Spec.FuzzySearch
import Verif.Model.PyList

namespace Verif.Spec

/-- The text consists of the items one after the other with `gaps[i]` between item `i` and the next one,
and `ranges` are the places of the items. -/
structure LaidOut (text : Str) (items gaps : List Str) (ranges : List (Nat × Nat)) : Prop where
  length : ranges.length = items.length
  item : ∀ (i : Nat) s r, items[i]? = some s → ranges[i]? = some r →
    r.2 = r.1 + s.length ∧ slice text r.1 s.length = s
  first : ∀ r, ranges[0]? = some r → r.1 = 0
  gap : ∀ (i : Nat) r r', ranges[i]? = some r → ranges[i + 1]? = some r' →
    ∃ g, gaps[i]? = some g ∧ r'.1 = r.2 + g.length ∧ slice text r.2 g.length = g
  last : (ranges.getLast?.map Prod.snd).getD 0 = text.length

/-- The range of an item overlaps the range from `start` to `e`. -/
def overlaps (start e : Int) (r : Nat × Nat) : Bool := decide ((r.1 : Int) < e) && decide (start < (r.2 : Int))

/-- The white space between neighbouring tokens: that of the token, and a line feed at the end of a
sequence. -/
def tokenGaps (d : Doc) (seqs : List (List Nat)) : List Str :=
  seqs.flatMap (fun s => (s.map (fun i => ((d.tok i).whitespace).getD c!" ")).dropLast ++ [c!"\n"])

/-- The tokens without a tag. -/
def untagged (d : Doc) (tokens : List Nat) : List Nat := tokens.filter (fun i => !truthy (d.getTag i))

/-- The maximal runs of neighbouring tokens without a tag. -/
def untaggedRuns (d : Doc) (tokens : List Nat) : List (List Nat) :=
  ((groupBy (fun i => truthy (d.getTag i)) tokens).filter (fun g => !g.1)).map Prod.snd

end Verif.Spec
