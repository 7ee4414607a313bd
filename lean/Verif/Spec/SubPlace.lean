/-
Specification of where the value of a sub annotation is found within a match.
-/
import Verif.Spec.ExactPlace

namespace Verif.Spec

/-- The range is that of an occurrence of the value in the text, up to white space. -/
def OccurrenceAt (text value : Str) (r : Nat × Nat) : Prop :=
  r.1 < r.2 ∧ r.2 ≤ text.length ∧ noSpace (slice text r.1 (r.2 - r.1)) = noSpace value

/-- The value of a sub annotation occurs in the text of a match literally: as words if one of them is short,
and otherwise up to white space, where nothing else is accepted as a match for it. -/
def OccursWithin (env : SearchEnv) (text value : Str) : Prop :=
  (value ≠ [] ∧ min text.length value.length < env.exactWordMatchThreshold ∧ WordIn wordSeparators value text) ∨
  (env.exactWordMatchThreshold ≤ min text.length value.length ∧ noSpace value ≠ [] ∧ noSpace value <:+: noSpace text ∧
    OnlyLiteral env text value)

/-- The text of tokens of a match, as it is. -/
def matchText (cc : CharClass) (d : Doc) (tokens : List Nat) : Str := seqsText ⟨cc, id⟩ d [tokens]

/-- The places of the tokens in the text of the match. -/
def MatchPlaces (cc : CharClass) (d : Doc) (tokens : List Nat) (ranges : List (Nat × Nat)) : Prop :=
  LaidOut (matchText cc d tokens) (tokens.map (fun i => d.getText cc i)) (tokenGaps d [tokens]) ranges

/-- The tokens of an occurrence have the sub label: there is a part of the text of the tokens which is the value up
to case and white space, and each token which overlaps it has the sub label afterwards, the first of them with the
begin prefix if prefixes are used (`prefixes`). -/
def SubLabelledAt (env : MatchEnv) (d d' : Doc) (tokens : List Nat) (value label : Str) (prefixes : Bool) : Prop :=
  ∃ (ranges : List (Nat × Nat)) (r : Nat × Nat), MatchPlaces env.cc d tokens ranges ∧
    r.1 < r.2 ∧ r.2 ≤ (matchText env.cc d tokens).length ∧
    noSpace (env.lower (slice (matchText env.cc d tokens) r.1 (r.2 - r.1))) = noSpace (env.lower value) ∧
    (∀ x ∈ tokens.zip ranges, overlaps r.1 r.2 x.2 = true → tagValue (d'.getSubTag x.1) = some label) ∧
    ∀ x rest, (tokens.zip ranges).filter (fun x => overlaps r.1 r.2 x.2) = x :: rest → prefixes = true →
      d'.getSubTag x.1 = some (c!"b-" ++ label)

/-- The same, where each token which overlaps the part has one of the sub labels. -/
def SubLabelledAmong (env : MatchEnv) (d d' : Doc) (tokens : List Nat) (value : Str) (labels : List Str) : Prop :=
  ∃ (ranges : List (Nat × Nat)) (r : Nat × Nat), MatchPlaces env.cc d tokens ranges ∧
    r.1 < r.2 ∧ r.2 ≤ (matchText env.cc d tokens).length ∧
    noSpace (env.lower (slice (matchText env.cc d tokens) r.1 (r.2 - r.1))) = noSpace (env.lower value) ∧
    ∀ x ∈ tokens.zip ranges, overlaps r.1 r.2 x.2 = true → ∃ label ∈ labels, tagValue (d'.getSubTag x.1) = some label

/-- No token of an occurrence of the value has a sub label. -/
def OccurrencesFree (env : MatchEnv) (d : Doc) (tokens : List Nat) (value : Str) : Prop :=
  ∀ ranges r, MatchPlaces env.cc d tokens ranges →
    OccurrenceAt (env.lower (matchText env.cc d tokens)) (env.lower value) r →
    ∀ x ∈ tokens.zip ranges, overlaps r.1 r.2 x.2 = true → truthy (d.getSubTag x.1) = false

/-- Nothing which is found for the other value shares a token with an occurrence of the value. -/
def NotTakenBy (env : MatchEnv) (cfg : MatchCfg) (d : Doc) (tokens : List Nat) (other value : Str) : Prop :=
  ∀ ranges r q, MatchPlaces env.cc d tokens ranges →
    OccurrenceAt (env.lower (matchText env.cc d tokens)) (env.lower value) r →
    q ∈ (searchAllRanges (searchEnv env cfg 1) (env.lower (matchText env.cc d tokens)) (env.lower other)).1 →
    ∀ x ∈ tokens.zip ranges, overlaps r.1 r.2 x.2 = true → overlaps q.1 q.2 x.2 = false

/-- The tokens of an occurrence of the value in the text of the sequences of tokens. -/
def OccurrenceTokens (env : MatchEnv) (d : Doc) (seqs : List (List Nat)) (value : Str) (tokens : List Nat) : Prop :=
  let senv := matchSeqEnv env
  ∃ (ranges : List (Nat × Nat)) (r : Nat × Nat),
    LaidOut (seqsText senv d seqs) (seqs.flatten.map (fun i => senv.filter (d.getText senv.cc i))) (tokenGaps d seqs) ranges ∧
    OccurrenceAt (seqsText senv d seqs) value r ∧
    tokens = ((seqs.flatten.zip ranges).filter (fun x => overlaps r.1 r.2 x.2)).map Prod.fst

/-- The value of a sub annotation occurs in the text of the match, and neither sub labels nor the sub annotations
before get in the way. -/
def SubOccurs (env : MatchEnv) (cfg : MatchCfg) (d : Doc) (tokens : List Nat) (before : List (Str × TargetValue)) (value : Str) : Prop :=
  OccursWithin (searchEnv env cfg 1) (env.lower (matchText env.cc d tokens)) (env.lower value) ∧
  OccurrencesFree env d tokens value ∧ ∀ n w, (n, .one w) ∈ before → NotTakenBy env cfg d tokens w value

/-- The document in which matches are searched by the tools for figures and tables: if they do not segment they
ignore the labels of the file, see `--segment-figures` and `--segment-tables`. -/
def searchedDoc (segment : Bool) (d : Doc) : Doc :=
  if segment then d else d.allTokens.foldl (fun d i => d.setTagOnly i none) d

/-- The same for the tool for references, which forgets the sub labels of the source file unless it segments. -/
def searchedReferences (segment : Bool) (d : Doc) : Doc :=
  if segment then d else d.allTokens.foldl (fun d i => (d.setTagOnly i none).clearPreservedSubTag i) d

/-- The sub label the tool for references gives: that of a page for the first and the last page. -/
def referenceLabel (name : Str) : Str :=
  if name = c!"reference-fpage" ∨ name = c!"reference-lpage" then c!"reference-page" else name

/-- Whether a sub label the tool for references gives begins where its value does: names, issues and pages are merged, and
identifiers are extended to the text before them with the option for it. -/
def referenceBegins (includePrefix : Bool) (name : Str) : Bool :=
  !decide (name ∈ [c!"reference-author", c!"reference-editor", c!"reference-issue", c!"reference-page", c!"reference-fpage", c!"reference-lpage"]) &&
  !(includePrefix && decide (name ∈ [c!"reference-issn", c!"reference-isbn", c!"reference-doi", c!"reference-pii", c!"reference-pmid",
    c!"reference-pmcid", c!"reference-arxiv"]))

end Verif.Spec
