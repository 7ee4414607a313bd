/-
Specification of the lines which are compared together when the search for a list of texts goes on.
-/
import Verif.Spec.CoreMatching

namespace Verif.Spec

/-- A call of the search for a list of texts: how many lines have been looked at for the first text, and for each other
one. -/
structure ListCall where
  doc : Doc
  first : Nat
  others : List Nat

/-- The most lines looked at for one of the texts. -/
def ListCall.most (x : ListCall) : Nat := x.others.foldl max x.first

/-- The choices after calls which have found all texts. -/
def afterCalls (c : Choices) (calls : List ListCall) : Choices :=
  calls.foldl (fun c x => c.after x.doc (some x.first :: x.others.map some)) c

/-- The lines looked at for the first text, in all calls together. -/
def linesTaken (calls : List ListCall) : Nat := (calls.map (·.first)).sum

/-- By how many lines the line compared together with a line is too far down. -/
def linesSkipped (calls : List ListCall) : Nat := (calls.map (fun x => x.most - x.first)).sum

end Verif.Spec
