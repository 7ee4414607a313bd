/-
Specification of where the values of a list which occur literally are found.
-/
import Verif.Spec.ExactPlace

namespace Verif.Spec

/-- A part of the text which is the value, up to white space. -/
def PlaceOf (text value : Str) (r : Nat × Nat) : Prop :=
  r.1 < r.2 ∧ r.2 ≤ text.length ∧ noSpace (slice text r.1 (r.2 - r.1)) = noSpace value

/-- Nothing is found in the text for a value of a list, nor for its alternative spellings. -/
def Missing (env : MatchEnv) (cfg : MatchCfg) (name text v : Str) : Prop :=
  findWithAlternatives env cfg 1 (cfg.tagConfig name).alternativeSpellings text v = .ok []

/-- One place for each of the values, in the order of the values, but for those which are not found. -/
inductive PlacesOf (lower : Str → Str) (text : Str) (missing : Str → Prop) : List Str → List (Nat × Nat) → Prop
  | nil : PlacesOf lower text missing [] []
  | found (v : Str) (r : Nat × Nat) (vs : List Str) (rs : List (Nat × Nat)) :
      PlaceOf text (normaliseStr lower v) r → PlacesOf lower text missing vs rs →
      PlacesOf lower text missing (v :: vs) (r :: rs)
  | missing (v : Str) (vs : List Str) (rs : List (Nat × Nat)) :
      missing v → PlacesOf lower text missing vs rs → PlacesOf lower text missing (v :: vs) rs

/-- A target annotation with a list of values: each of them occurs literally in the text, or nothing is found for
it; at least one occurs. -/
def ManyOccur (env : MatchEnv) (cfg : MatchCfg) (t : Target) (vs : List Str) (text : Str) : Prop :=
  t.value = .many vs ∧ (∀ v ∈ vs, OccursText env cfg v text ∨ Missing env cfg t.name text v) ∧
  ∃ v ∈ vs, OccursText env cfg v text

/-- The range from the first start to the last end of a group of places. -/
def SpanOf (places : List (Nat × Nat)) (r : Nat × Nat) : Prop :=
  (∀ p ∈ places, r.1 ≤ p.1 ∧ p.2 ≤ r.2) ∧ (∃ p ∈ places, p.1 = r.1) ∧ ∃ p ∈ places, p.2 = r.2

/-- Some of the places, which are close to each other: the places in order are divided into groups, such that
neighbouring groups are not close, and these are the first longest one of the groups. -/
def SelectedOf (places selected : List (Nat × Nat)) : Prop :=
  ∃ before after : List (List (Nat × Nat)),
    (before ++ selected :: after).flatten.Perm places ∧ InOrder (before ++ selected :: after).flatten ∧
    (∀ c ∈ before ++ selected :: after, c ≠ [] ∧ Linked c) ∧ FarApart (before ++ selected :: after) ∧
    (∀ c ∈ before, groupLength c < groupLength selected) ∧ ∀ c ∈ after, groupLength c ≤ groupLength selected

/-- In order, each place begins at most ten characters behind the end of the one before it. -/
def CloseTogether (places : List (Nat × Nat)) : Prop :=
  ∀ (l r : List (Nat × Nat)) (p q : Nat × Nat), (l ++ p :: q :: r).Perm places → InOrder (l ++ p :: q :: r) →
    q.1 ≤ p.2 + 10

/-- Each token from the first to the last one of a selected group of places of the values has the label. -/
def ManyLabelled (env : MatchEnv) (cfg : MatchCfg) (d d' : Doc) (seqs : List (List Nat)) (vs : List Str)
    (label : Str) : Prop :=
  let text := seqsText (matchSeqEnv env) d seqs
  ∃ (places selected : List (Nat × Nat)) (r : Nat × Nat),
    PlacesOf env.lower text (Missing env cfg label text) vs places ∧ SelectedOf places selected ∧ SpanOf selected r ∧
    LabelledRange env d d' seqs r label

end Verif.Spec
