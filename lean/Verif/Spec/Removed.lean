/-
Which tokens are left by the removal of untagged text.
-/
import Verif.Model.TeiDoc

namespace Verif.Spec

/-- Whether a token stays: text stays if it is tagged, white space if the last text before it stays or there is none. -/
def stays (d : Doc) (before : List Nat) (i : Nat) : Bool :=
  if (d.tok i).isSpace then
    match (before.filter (fun j => !(d.tok j).isSpace)).getLast? with
    | none => true
    | some j => truthy (d.getTag j)
  else truthy (d.getTag i)

/-- The tokens which stay. -/
def staying (d : Doc) (ts : List Nat) : List Nat := (ts.zipIdx.filter (fun x => stays d (ts.take x.2) x.1)).map (·.1)

end Verif.Spec
