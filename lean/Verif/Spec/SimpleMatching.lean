/-
Specification of the selection of index ranges and of the extension of tags to lines.
-/
import Verif.Model.SimpleMatching
import Verif.Spec.Matching

namespace Verif.Spec

/-- Where a group of ranges in order begins: at the start of the first one. -/
def groupStart (c : List (Nat × Nat)) : Int := ((c.head?.map Prod.fst).getD 0 : Nat)
/-- Where a group of ranges in order ends: at the end of the last one. -/
def groupEnd (c : List (Nat × Nat)) : Int := ((c.getLast?.map Prod.snd).getD 0 : Nat)
/-- The length of a group of ranges. -/
def groupLength (c : List (Nat × Nat)) : Int := groupEnd c - groupStart c

/-- A group and the following one are close: the gap between them exceeds the length of the longer one by
at most ten. -/
def Close (c c' : List (Nat × Nat)) : Prop :=
  groupStart c' - groupEnd c ≤ max (groupLength c) (groupLength c') + 10

/-- Groups made by joining close neighbouring groups. -/
inductive Linked : List (Nat × Nat) → Prop
  | single (r : Nat × Nat) : Linked [r]
  | join (c c' : List (Nat × Nat)) : Linked c → Linked c' → Close c c' → Linked (c ++ c')

/-- Neighbouring groups are not close. -/
def FarApart : List (List (Nat × Nat)) → Prop
  | c :: c' :: cs => ¬ Close c c' ∧ FarApart (c' :: cs)
  | _ => True

/-- In order of their starts, then of their ends. -/
def InOrder (rs : List (Nat × Nat)) : Prop := rs.Pairwise (fun r r' => r.1 < r'.1 ∨ (r.1 = r'.1 ∧ r.2 ≤ r'.2))

/-- The value of a tag without its prefix. -/
def tagValue : Option Str → Option Str
  | some ('b' :: '-' :: v) => some v
  | some ('i' :: '-' :: v) => some v
  | t => t

/-- Whether something is enabled for a value. -/
def enabled (m : Dict Bool) (dflt : Bool) (v : Str) : Prop := (m.get? v).getD dflt = true

/-- Tags as produced by the annotators: there is none, or its value is not empty. -/
def ProperTag (t : Option Str) : Prop := ∀ s, t = some s → s ≠ [] ∧ tagValue t ≠ some []

/-- No tag, or a value which is not empty with one of the prefixes. -/
def Prefixed (t : Option Str) : Prop :=
  t = none ∨ ∃ v, v ≠ [] ∧ (t = some (c!"b-" ++ v) ∨ t = some (c!"i-" ++ v))

/-- How the new tag of a token follows on that of the token before it, given the tags before and after:
where the value changes, the tag is the one before. Where the value continues, the tag is an inside tag if
the values are to be merged or one of the tokens was untagged, and otherwise the tag before. -/
def FollowsOn (mergeEnabled : Str → Prop) (x y : Option Str × Option Str) : Prop :=
  (tagValue x.2 ≠ tagValue y.2 → y.2 = y.1) ∧
  ∀ v, tagValue x.2 = some v → tagValue y.2 = some v →
    ((mergeEnabled v ∨ x.1 = none ∨ y.1 = none) → y.2 = some (c!"i-" ++ v)) ∧
    (¬ mergeEnabled v → x.1 ≠ none → y.1 ≠ none → y.2 = y.1)

end Verif.Spec
