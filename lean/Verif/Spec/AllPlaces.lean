/-
Specification of where several values are found one after the other.
-/
import Verif.Spec.ExactPlace

namespace Verif.Spec

/-- The maximal runs of neighbouring tokens which are not taken. -/
def runsWithout (taken tokens : List Nat) : List (List Nat) :=
  ((groupBy (fun i => decide (i ∈ taken)) tokens).filter (fun g => !g.1)).map Prod.snd

/-- The text left on the lines of a document when some of the tokens without label are taken: the first of the runs of
tokens; no limit is given by 0. -/
def freeRuns (d : Doc) (taken : List Nat) (limit : Nat) : List (List Nat) :=
  let runs := (untaggedLines d).flatMap (runsWithout taken)
  if limit = 0 then runs else runs.take limit

/-- The tokens which overlap a part of a text, given the places of all tokens. -/
def tokensOverlapping (tokens : List Nat) (ranges : List (Nat × Nat)) (r : Nat × Nat) : List Nat :=
  ((tokens.zip ranges).filter (fun x => overlaps r.1 r.2 x.2)).map Prod.fst

/-- The value of a target annotation occurs literally in the text left (as in C126), and all parts of it which are the
value up to white space are the text of the same tokens. No regular expression for a prefix is given. -/
def ValueAt (env : MatchEnv) (cfg : MatchCfg) (d : Doc) (taken : List Nat) (t : Target) (place : List Nat) : Prop :=
  let senv := matchSeqEnv env
  let seqs := freeRuns d taken cfg.lookahead
  let text := seqsText senv d seqs
  truthy (cfg.tagConfig t.name).matchPrefixRegex = false ∧
  ∃ v, OccursFor env cfg t v text ∧
    ∀ (ranges : List (Nat × Nat)) (r : Nat × Nat),
      LaidOut text (seqs.flatten.map (fun i => senv.filter (d.getText senv.cc i))) (tokenGaps d seqs) ranges →
      r.1 < r.2 → r.2 ≤ text.length → noSpace (slice text r.1 (r.2 - r.1)) = noSpace (normaliseStr env.lower v) →
      tokensOverlapping seqs.flatten ranges r = place

/-- Each value occurs at its place in the text which is left when the places of the values before it are taken. -/
def PlacedInTurn (env : MatchEnv) (cfg : MatchCfg) (d : Doc) : List Nat → List (Target × List Nat) → Prop
  | _, [] => True
  | taken, (t, place) :: ps => ValueAt env cfg d taken t place ∧ PlacedInTurn env cfg d (taken ++ place) ps

end Verif.Spec
