/-
Specification of what justifies the label of a token.
-/
import Verif.Model.SimpleMatching
import Verif.Spec.Matching

namespace Verif.Spec

/-- Token `i` of the sequences of tokens has its place in their text, and the place overlaps the range. -/
def TokenAt (env : SeqEnv) (d : Doc) (seqs : List (List Nat)) (range : Nat × Nat) (i : Nat) : Prop :=
  ∃ places, LaidOut (seqsText env d seqs) (seqs.flatten.map (fun i => env.filter (d.getText env.cc i))) (tokenGaps d seqs) places ∧
    ∃ p, (i, p) ∈ seqs.flatten.zip places ∧ overlaps range.1 range.2 p = true

/-- The value of the target annotation is found at the range of the text of the sequences of tokens, which are tokens
of the document without a label. The range may begin before the value, where the configured expression for a prefix
matches. -/
structure MatchAt (env : MatchEnv) (cfg : MatchCfg) (d : Doc) (t : Target) (seqs : List (List Nat)) (range : Nat × Nat) : Prop where
  tokens : seqs.flatten.Sublist d.nonSpaceTokens
  untagged : ∀ i ∈ seqs.flatten, truthy (d.getTag i) = false
  found : ∃ ranges r, matchingRanges env cfg (seqsText (matchSeqEnv env) d seqs) t = .ok ranges ∧ r ∈ ranges ∧
    applyPrefixRegex env cfg (seqsText (matchSeqEnv env) d seqs) r t = .ok range

/-- Within the tokens of a match at `range`, the text of a sub annotation is found at a place which overlaps token `i`. -/
def SubFound (env : MatchEnv) (cfg : MatchCfg) (d : Doc) (seqs : List (List Nat)) (range : Nat × Nat) (s : Str × TargetValue) (i : Nat) : Prop :=
  ∃ tokens v r, tokens.Sublist seqs.flatten ∧ (∀ j, j ∈ tokens ↔ TokenAt (matchSeqEnv env) d seqs range j) ∧ s.2 = .one v ∧
    r ∈ (searchAllRanges (searchEnv env cfg 1) (env.lower (seqsText ⟨env.cc, id⟩ d [tokens])) (env.lower v)).1 ∧
    TokenAt ⟨env.cc, id⟩ d [tokens] r i

end Verif.Spec
