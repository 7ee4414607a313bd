/-
Specification of labels for what is in front of a value.
-/
import Verif.Spec.ExactPlace
import Verif.Spec.PrefixPatterns

namespace Verif.Spec

/-- The tokens of an occurrence of a value and of what is in front of it have the label: there is a part of the text of the
sequences of tokens which is the value up to white space, and if the text before it is some text `u` followed by what is to be
included, each token from there (for the shortest such text) to the end of the part has the label afterwards. -/
def LabelledWith (Before : Str → Str → Prop) (env : MatchEnv) (d d' : Doc) (seqs : List (List Nat)) (value label : Str) : Prop :=
  let senv := matchSeqEnv env
  let text := seqsText senv d seqs
  ∃ (ranges : List (Nat × Nat)) (r : Nat × Nat),
    LaidOut text (seqs.flatten.map (fun i => senv.filter (d.getText senv.cc i))) (tokenGaps d seqs) ranges ∧
    r.1 < r.2 ∧ r.2 ≤ text.length ∧ noSpace (slice text r.1 (r.2 - r.1)) = noSpace value ∧
    ∀ u₀, Before (text.take r.1) u₀ →
      ∃ u, Before (text.take r.1) u ∧ (∀ u', Before (text.take r.1) u' → u.length ≤ u'.length) ∧
        ∀ x ∈ seqs.flatten.zip ranges, overlaps u.length r.2 x.2 = true → tagValue (d'.getTag x.1) = some label

end Verif.Spec
