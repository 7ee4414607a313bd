/-
Specification of the annotator comparing values with lines: the tokens overlapping a match and the tags.
-/
import Verif.Model.CoreMatching
import Verif.Spec.Matching

namespace Verif.Spec

/-- The tag given for a name: with prefixes, the first token gets `b-` and the others `i-`. -/
def newTag (usePrefix first : Bool) (name : Str) : Option Str :=
  if usePrefix then some ((if first then c!"b-" else c!"i-") ++ name) else some name

/-- Where texts are found after joining them by single spaces, the first one beginning at `o`. -/
def spans : Nat → List Str → List (Nat × Nat)
  | _, [] => []
  | o, s :: ss => (o, o + s.length) :: spans (o + s.length + 1) ss

/-- The tokens whose texts, joined by single spaces, overlap a range. -/
def tokensIn (text : Nat → Str) (tokens : List Nat) (r : Nat × Nat) : List Nat :=
  ((tokens.zip (spans 0 (tokens.map text))).filter (fun x => overlaps r.1 r.2 x.2)).map Prod.fst

/-- The matchers of the alignment library return blocks which lie within the texts. -/
structure MatchersOk (env : CoreEnv) : Prop where
  words : ∀ a b, ∀ x ∈ env.words a b, x.a + x.size ≤ a.length ∧ x.b + x.size ≤ b.length
  align : ∀ a b, ∀ x ∈ env.align a b, x.a + x.size ≤ a.length ∧ x.b + x.size ≤ b.length

/-- The tokens belonging to matches, in the order of the matches. -/
def matchTokens (env : CoreEnv) (d : Doc) (ms : List SeqMatch) : List Nat :=
  ms.flatMap (fun m => tokensIn (fun i => coreNormalise env (d.getText env.cc i)) m.seq.tokens m.range2)

/-- The number is at most one more than the gap away from one of the others. -/
def Near (gap : Nat) (others : List Nat) (p : Nat) : Prop := ∃ q ∈ others, p ≤ q + gap + 1 ∧ q ≤ p + gap + 1

/-- The line of the match was compared together with the line of the last match before it. -/
def ComparedTogether (pairs : List (CoreSeq × Option CoreSeq)) (before : List SeqMatch) (m : SeqMatch) : Prop :=
  ∃ pre x, before = pre ++ [x] ∧ (x.seq, some m.seq) ∈ pairs

/-- The lines as far as they are not tagged, without those which are tagged completely. -/
def untaggedLines (d : Doc) : List (List Nat) :=
  (d.lines.map (fun l => untagged d l.nonSpace)).filter (fun s => !s.isEmpty)

/-- The text of tokens as it is compared: normalised, joined by spaces. -/
def compared (env : CoreEnv) (d : Doc) (tokens : List Nat) : Str :=
  joinStr [' '] (tokens.map (fun i => coreNormalise env (d.getText env.cc i)))

/-- The blocks returned by the matcher for the length of the texts. -/
def blocksOf (env : CoreEnv) (a b : Str) : List Block := if min a.length b.length < 5 then env.words a b else env.align a b

/-- The matcher finds no part of the value on the line `cur`, when it is given the line with the next one. -/
def NoPartOn (env : CoreEnv) (value cur next : Str) : Prop :=
  if value.length < cur.length then
    ∀ x ∈ blocksOf env (cur ++ [' '] ++ next) value, x.size = 0 ∨ cur.length ≤ x.a
  else ∀ x ∈ blocksOf env value (cur ++ [' '] ++ next), x.size = 0 ∨ cur.length ≤ x.b

/-- The first line with one of the matches and the last one. -/
def LinesFromTo (ms : List SeqMatch) (p q : Nat) : Prop :=
  (∃ m ∈ ms, m.seq.position = p) ∧ (∃ m ∈ ms, m.seq.position = q) ∧ ∀ m ∈ ms, p ≤ m.seq.position ∧ m.seq.position ≤ q

/-- Each item with the one after it. -/
def withNext {α : Type} : List α → List (α × Option α)
  | [] => []
  | x :: xs => (x, xs.head?) :: withNext xs

/-- The choices reachable for a single value: the search begins with all lines, and goes on after a match. -/
inductive Searching (pending : List CoreSeq) : Choices → Prop
  | start : Searching pending ⟨[], pending, 0, 1⟩
  | next {c : Choices} (d : Doc) (used : Option Nat) : Searching pending c → Searching pending (c.after d [used])

/-- Where the matcher finds the text of a sub annotation in a text: the whole of it in one place, or nothing
of it. -/
def SubPlaced (env : CoreEnv) (cfg : CoreCfg) (whole : Str) (s : CoreSub) (place : Option (Nat × Nat)) : Prop :=
  s.name ≠ [] ∧ ∃ v, s.value = .one v ∧
    match place with
    | none => (blocksOf env whole (normaliseStr env.lower v)).filter (fun x => x.size ≠ 0) = []
    | some r => normaliseStr env.lower v ≠ [] ∧ cfg.choiceFilter.minCount ≤ (normaliseStr env.lower v).length ∧
        r.2 = r.1 + (normaliseStr env.lower v).length ∧ r.2 ≤ whole.length ∧
        (blocksOf env whole (normaliseStr env.lower v)).filter (fun x => x.size ≠ 0) =
          [⟨r.1, 0, (normaliseStr env.lower v).length⟩]

/-- The tokens overlapping a place, if there is one. -/
def tokensAt (text : Nat → Str) (tokens : List Nat) (place : Option (Nat × Nat)) : List Nat :=
  match place with
  | none => []
  | some r => tokensIn text tokens r

end Verif.Spec
