/-
Specification of what is read back from a file of the segmentation.
-/
import Verif.Spec.Segmentation
import Verif.Spec.Reload

namespace Verif.Spec

/-- The labels lines may get if the tokens have labels with the given names: the fixed ones, and those configured for
the names. -/
def SegmentLabel (cfg : SegConfig) (names : List Str) (s : Str) : Prop :=
  s ∈ [c!"front", c!"page", c!"headnote", c!"body", c!"reference", c!"annex"] ∨ ∃ n ∈ names, labelOf cfg n = some s

/-- All names have a label of a segment. Either it differs from the name, or references are merged. -/
def AllMapped (cfg : SegConfig) (names : List Str) : Prop :=
  ∀ n ∈ names, ∃ s, labelOf cfg n = some s ∧ s ≠ [] ∧ (s ≠ n ∨ cfg.noMergeReferences = false)

/-- More than half of the tokens of a line are in the place. -/
def MostlyIn (l : SegLine) (place : List Nat) : Prop :=
  l.line.nonSpace.length < 2 * (l.line.nonSpace.filter (fun i => decide (i ∈ place))).length

/-- At most one other line has the text of the line. -/
def SeldomText (ls : List SegLine) (l : SegLine) : Prop := (ls.map SegLine.text).count l.text ≤ 2

/-- The characters of a line that are not white space, all with the same label. -/
def lineAs (cc : CharClass) (d : Doc) (l : SegLine) (s : Str) : List (Char × Option Str) :=
  (l.line.tokens.flatMap (fun i => (d.tok i).text.filter (fun c => !cc.isSpace c))).map (fun c => (c, some s))

end Verif.Spec
