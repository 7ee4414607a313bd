/-
Specification of the entities of a document.
-/
import Verif.Model.TeiDoc

namespace Verif.Spec

/-- The current tag value of a token, if it is not empty. -/
def currentValue (d : Doc) (i : Nat) : Option Str :=
  let v := stripTagPrefix (d.getTag i)
  if truthy v then v else none

/-- The token continues an entity with value `v`. -/
def continues (d : Doc) (v : Str) (i : Nat) : Bool :=
  decide (currentValue d i = some v) && !startsWith c!"b-" ((d.getTag i).getD [])

/-- The entities among the given tokens: each tagged token starts an entity, which takes all
directly following tokens continuing it. -/
def entityRuns (d : Doc) : List Nat → List (Str × List Nat)
  | [] => []
  | i :: is =>
    match currentValue d i with
    | none => entityRuns d is
    | some v => (v, i :: is.takeWhile (continues d v)) :: entityRuns d (is.dropWhile (continues d v))
termination_by is => is.length
decreasing_by
  · simp
  · have := (List.dropWhile_sublist (continues d v) (l := is)).length_le
    simp; omega

/-- The first token, other than white space, of each line which has one. -/
def lineStarts (d : Doc) : List Nat :=
  d.lines.flatMap (fun l => match l.nonSpace with
    | [] => []
    | i :: _ => [i])

/-- The token together with the positive integer it consists of, if it does. -/
def positiveNumber (parseInt : Str → Option Int) (text : Nat → Str) (t : Nat) : Option (Nat × Int) :=
  ((parseInt (text t)).filter (fun n => decide (0 < n))).map (fun n => (t, n))

end Verif.Spec
