/-
Specification of where a value which occurs literally is found.
-/
import Verif.Spec.ExactMatch
import Verif.Spec.SimpleMatching
import Verif.Spec.CoreMatching
import Verif.Model.SimpleMatching
import Verif.Model.Tools

namespace Verif.Spec

/-- Nothing but literal occurrences: each window of the text (both without white space) in which the search
accepts a match contains the value itself. A text of at most 1000 characters is a single window. -/
def OnlyLiteral (env : SearchEnv) (text value : Str) : Prop :=
  let h := noSpace text
  let n := noSpace value
  let sizes := defaultMaxLengthAndStride env.rnd h.length n.length env.threshold
  let senv : StridedEnv := ⟨env.lsm, env.isJunk, env.threshold, sizes.1.toNat, sizes.2.toNat⟩
  ∀ k, k * senv.stride < h.length → Accepted senv h n (k * senv.stride) → n <:+: window senv h (k * senv.stride)

/-- The search accepts a match for the value in the first window of the text (both without white space). -/
def AcceptedFirst (env : SearchEnv) (text value : Str) : Prop :=
  let h := noSpace text
  let n := noSpace value
  let sizes := defaultMaxLengthAndStride env.rnd h.length n.length env.threshold
  Accepted ⟨env.lsm, env.isJunk, env.threshold, sizes.1.toNat, sizes.2.toNat⟩ h n 0

/-- The value occurs in the text in the way the search for it looks for literal occurrences: a short value as
words (where lines are joined by spaces), any other value up to white space. -/
def Occurs (threshold : Nat) (text value : Str) : Prop :=
  (value ≠ [] ∧ value.length < threshold ∧
    WordIn wordSeparators value (text.map (fun c => if c = '\n' then ' ' else c))) ∨
  (threshold ≤ value.length ∧ noSpace value ≠ [] ∧ threshold ≤ text.length ∧ noSpace value <:+: noSpace text)

/-- The assumptions about the matchers, `round` and regular expressions: blocks are consistent, literal
occurrences are found, `round` of a number which is not negative is not negative, and a match of a regular
expression begins within the text. The threshold is a ratio. -/
structure ExactEnv (env : MatchEnv) (cfg : MatchCfg) : Prop where
  good : GoodMatchers (searchEnv env cfg 1)
  lsm : FindsLiteral env.lsm
  diff : FindsLiteral env.diff
  rnd : ∀ q, 0 ≤ q → 0 ≤ env.rnd q
  re : ∀ p s k, env.reSearch p s = .ok (some k) → k ≤ s.length
  thresholdPos : 0 < cfg.threshold
  thresholdLe : cfg.threshold ≤ 1

/-- A value which is long enough occurs in the text literally, such that nothing else is accepted as a match for
it. -/
def OccursText (env : MatchEnv) (cfg : MatchCfg) (v text : Str) : Prop :=
  cfg.minTokenLength ≤ v.length ∧
  Occurs cfg.exactWordMatchThreshold text (normaliseStr env.lower v) ∧
  (cfg.exactWordMatchThreshold ≤ (normaliseStr env.lower v).length →
    OnlyLiteral (searchEnv env cfg 1) text (normaliseStr env.lower v))

/-- A value for which no parts are found instead: it is searched for as one chunk, is short enough to be searched for
as words, or is accepted in the first window of the text. -/
def AsOneChunk (env : MatchEnv) (cfg : MatchCfg) (maxChunks : Int) (v text : Str) : Prop :=
  maxChunks ≤ 1 ∨ (normaliseStr env.lower v).length < cfg.exactWordMatchThreshold ∨
    AcceptedFirst (searchEnv env cfg 1) text (normaliseStr env.lower v)

/-- A target annotation with a single value which is long enough, is searched for as one chunk (or has no need of
more than one), and occurs in the text literally, such that nothing else is accepted as a match for it. -/
def OccursFor (env : MatchEnv) (cfg : MatchCfg) (t : Target) (v text : Str) : Prop :=
  t.value = .one v ∧ cfg.minTokenLength ≤ v.length ∧ AsOneChunk env cfg (cfg.tagConfig t.name).maxChunks v text ∧
  Occurs cfg.exactWordMatchThreshold text (normaliseStr env.lower v) ∧
  (cfg.exactWordMatchThreshold ≤ (normaliseStr env.lower v).length →
    OnlyLiteral (searchEnv env cfg 1) text (normaliseStr env.lower v))

/-- Each token which overlaps a part of the text of the sequences of tokens has the label afterwards. -/
def LabelledRange (env : MatchEnv) (d d' : Doc) (seqs : List (List Nat)) (r : Nat × Nat) (label : Str) : Prop :=
  let senv := matchSeqEnv env
  let text := seqsText senv d seqs
  ∃ ranges : List (Nat × Nat),
    LaidOut text (seqs.flatten.map (fun i => senv.filter (d.getText senv.cc i))) (tokenGaps d seqs) ranges ∧
    ∀ x ∈ seqs.flatten.zip ranges, overlaps r.1 r.2 x.2 = true → tagValue (d'.getTag x.1) = some label

/-- The tokens of an occurrence have the label: there is a part of the text of the sequences of tokens which is
the value up to white space, and each token which overlaps it has the label afterwards. -/
def LabelledAt (env : MatchEnv) (d d' : Doc) (seqs : List (List Nat)) (value label : Str) : Prop :=
  let senv := matchSeqEnv env
  let text := seqsText senv d seqs
  ∃ (ranges : List (Nat × Nat)) (r : Nat × Nat),
    LaidOut text (seqs.flatten.map (fun i => senv.filter (d.getText senv.cc i))) (tokenGaps d seqs) ranges ∧
    r.1 < r.2 ∧ r.2 ≤ text.length ∧ noSpace (slice text r.1 (r.2 - r.1)) = noSpace value ∧
    ∀ x ∈ seqs.flatten.zip ranges, overlaps r.1 r.2 x.2 = true → tagValue (d'.getTag x.1) = some label

/-- Neighbouring tokens with the label spell the value: their texts one after the other contain it, up to white
space. -/
def SpelledBy (env : MatchEnv) (d d' : Doc) (seqs : List (List Nat)) (value label : Str) : Prop :=
  ∃ ts : List Nat, ts <:+: seqs.flatten ∧ (∀ i ∈ ts, tagValue (d'.getTag i) = some label) ∧
    noSpace value <:+: noSpace (ts.flatMap (fun i => normaliseStr env.lower (d.getText env.cc i)))

/-- The first lines with untagged tokens; no limit is given by 0. -/
def firstLines (d : Doc) (limit : Nat) : List (List Nat) :=
  if limit = 0 then untaggedLines d else (untaggedLines d).take limit

/-- The tools which label tokens by the simple matcher, and do nothing to labels afterwards but replace and expand
some of them. -/
def labelsByMatching (a : ToolArgs) : Tool → Prop
  | .header => a.hasXml = true ∧ a.simpleMatcher = true ∧ a.useLineNumbers = false
  | .referenceSegmenter => a.hasXml = true ∧ a.simpleMatcher = true ∧ a.useLineNumbers = false
  | .segmentation _ _ => False
  | .fulltext _ _ _ => True
  | .figure segment => segment = true
  | .table segment => segment = true
  | .reference segment _ _ => segment = true
  | .affiliation segment _ => segment = true

end Verif.Spec
