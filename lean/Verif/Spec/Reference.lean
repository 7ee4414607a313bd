/-
Specification of the post processing of references.
-/
import Verif.Model.Reference
import Verif.Spec.SimpleMatching

namespace Verif.Spec

/-- A begin tag made an inside tag; other tags as they are. -/
def insideTag : Option Str → Option Str
  | some ('b' :: '-' :: v) => some ('i' :: '-' :: v)
  | t => t

/-- `run` is a maximal run of neighbouring tags of the value `v`, between `before` and `after`. -/
structure MaximalRun (v : Option Str) (before run after : List (Option Str)) : Prop where
  nonempty : run ≠ []
  value : ∀ t ∈ run, tagValue t = v
  left : ∀ t, before.getLast? = some t → tagValue t ≠ v
  right : ∀ t, after.head? = some t → tagValue t ≠ v

/-- The text of neighbouring tokens: with the white space between them, a blank where it is unknown. -/
def gapText : List RefTok → Str
  | [] => []
  | [x] => x.2.1
  | x :: y :: l => x.2.1 ++ x.2.2.getD c!" " ++ gapText (y :: l)

/-- The part of a list from `n` on with `m` elements. -/
def part {α : Type} (l : List α) (n m : Nat) : List α := (l.drop n).take m

/-- `x` is in the untagged tokens and the run behind them is to be extended to the left: its value is enabled,
and the pattern for it is found in the text of the untagged tokens, not at its very end, from `start` on. -/
def ExtendsLeft (env : RefEnv) (regex : Dict Str) (enabled : List Str) (gap : List RefTok) (v : Option Str) (start : Nat) : Prop :=
  ∃ s pattern, v = some s ∧ s ∈ enabled ∧ regex.get? s = some pattern ∧
    env.search pattern (gapText gap) = some start ∧ start < (gapText gap).length

/-- The name a sub tag is mapped to. -/
def mappedName (m : Dict Str) (v : Str) : Str := (m.get? v).getD v

/-- A sub tag with its value mapped, and its prefix kept. -/
def mappedTag (m : Dict Str) : Option Str → Option Str
  | some ('b' :: '-' :: v) => some ('b' :: '-' :: mappedName m v)
  | some ('i' :: '-' :: v) => some ('i' :: '-' :: mappedName m v)
  | some v => some (mappedName m v)
  | none => none

/-- The names sub tags are mapped to are not empty and do not look like tags with a prefix. -/
def ProperMap (m : Dict Str) : Prop := ∀ k v, m.get? k = some v → v ≠ [] ∧ tagValue (some v) = some v

/-- Tokens with (mapped) sub tags, their text and white space. -/
def withText (cc : CharClass) (d : Doc) (m : Dict Str) (tokens : List Nat) (tags : List (Option Str)) : List RefTok :=
  (tokens.zip tags).map (fun x => (mappedTag m x.2, d.getText cc x.1, d.getWhitespace x.1))

/-- Token `i` continues the entity of the token before it: it has the same main tag value, and not a begin
tag. -/
def sameReference (d : Doc) (v : Option Str) (i : Nat) : Bool :=
  decide (tagValue (d.getTag i) = v) && !startsWith c!"b-" ((d.getTag i).getD [])

/-- The tokens divided into maximal runs of tokens of the same main entity (or without any). -/
def references (d : Doc) : List Nat → List (List Nat)
  | [] => []
  | i :: is =>
    let same := sameReference d (tagValue (d.getTag i))
    (i :: is.takeWhile same) :: references d (is.dropWhile same)
termination_by l => l.length
decreasing_by simp_wf; exact Nat.lt_succ_of_le (List.dropWhile_sublist _).length_le

/-- The sub tags of the tokens of one reference, step by step: mapped by name and "et al" replaced (C68), extended
behind names (C69), extended to the text before identifiers (C70), and merged (C22). -/
structure RefSteps (env : RefEnv) (cfg : RefConfig) (d : Doc) (tokens : List Nat) (t0 t1 t2 t3 t4 : List (Option Str)) : Prop where
  before : t0 = tokens.map d.getSubTag
  etal : t1 = etalMapped cfg.etal cfg.etalMerge (t0.map (mappedTag cfg.subTagMap))
  suffixes : t2 = suffixExtended cfg.suffixTags (withText env.cc d cfg.subTagMap tokens t1)
  prefixes : prefixExtended env cfg.prefixRegex cfg.prefixTags (withText env.cc d cfg.subTagMap tokens t2) = .ok t3
  merged : t4 = extendedLineTags (refExtendCfg cfg) (t3.map (mappedTag cfg.subTagMap))

end Verif.Spec
