/-
Specification for C143: the checks asked for on the command line.
-/
import Verif.Model.CommandLine
import Verif.Spec.Checks
import Verif.Spec.Segmentation

namespace Verif.Spec

/-- The names in an option with a list: the parts between the commas, without the white space around them; none if the
option is blank or not given. -/
def namedIn (cc : CharClass) (opt : Option Str) (f : Str) : Prop :=
  ∃ (s : Str) (parts : List Str), opt = some s ∧ (∃ c ∈ s, cc.isSpace c = false) ∧ parts ≠ [] ∧ (∀ p ∈ parts, ',' ∉ p) ∧
    s = joinStr c!"," parts ∧ ∃ p ∈ parts, f = strip cc p

/-- The tools with options for checks. -/
def hasCheckOptions : CliTool → Prop
  | .header => True
  | .segmentation _ _ _ => True
  | .fulltext _ _ _ => True
  | _ => False

/-- The values of a field in the target file. -/
def valuesOf (items : List TargetItem) (f : Str) : List TargetValue :=
  (items.filter (fun i => decide (i.target.name = f))).map (·.target.value)

/-- The text of all entities with a label, separated by spaces. -/
def textLabelled (d : Doc) (label : Str) : Str :=
  joinStr c!" " (((entityRuns d d.nonSpaceTokens).filter (fun p => decide (p.1 = label))).map (fun p => tokenText d p.2))

/-- Some text has the label. -/
def someLabelled (d : Doc) (label : Str) : Prop := ∃ p ∈ entityRuns d d.nonSpaceTokens, p.1 = label

/-- The value of a field is found in the document: the text labelled is similar to it; for the segmentation it can be
found in the text of the segment for the field. -/
def valueFound (env : RunEnv) (t : Tool) (d : Doc) (f v : Str) : Prop :=
  match t with
  | .segmentation cfg _ => ∃ label, labelOf cfg f = some label ∧ someLabelled d label ∧ env.search (textLabelled d label) v = .ok true
  | _ => someLabelled d f ∧ (4/5 : Rat) ≤ env.ratio v (textLabelled d f)

/-- All fields to be checked are as required: each of them has a single text as value, which is found, or no value if it
only is to match where present. -/
def FieldsFine (matching required : Str → Prop) (items : List TargetItem) (found : Str → Str → Prop) : Prop :=
  (∀ f, ¬ matching f ∧ ¬ required f) ∨
    (items ≠ [] ∧ ∀ f, matching f ∨ required f →
      (valuesOf items f = [] ∧ ¬ required f) ∨ ∃ v, valuesOf items f = [.one v] ∧ found f v)

end Verif.Spec
