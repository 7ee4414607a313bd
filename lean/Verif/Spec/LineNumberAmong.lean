/-
Specification for C145: line numbers among other numbers.
-/
import Verif.Model.LineNumber
import Verif.Spec.Checks

namespace Verif.Spec

/-- The line at a position, counted from one among the lines which are not blank, begins with a token which is a positive
integer. -/
def NumberedLine (cfg : LineNumberCfg) (d : Doc) (it : LnItem) : Prop :=
  1 ≤ it.pos ∧ (lineStarts d)[it.pos - 1]? = some it.token ∧
    cfg.parseInt (d.getText cfg.cc it.token) = some it.num ∧ 0 < it.num

/-- Line numbers: they go down the page and increase, by at most the gap plus one. -/
structure LineNumbers (gap : Int) (s : List LnItem) : Prop where
  pos : s.Pairwise (fun a b => a.pos < b.pos)
  num : s.Pairwise (fun a b => a.num < b.num)
  gap : ∀ pre a b post, s = pre ++ a :: b :: post → b.num ≤ a.num + 1 + gap

/-- A number which does not get in the way of the line numbers: it is greater than all of them; or it is smaller and
above all of them; or it repeats one of them further down; or it is above the line number which is the next
smaller one. -/
def OutOfTheWay (s : List LnItem) (it : LnItem) : Prop :=
  (∀ x ∈ s, x.num < it.num) ∨ (∀ x ∈ s, it.num < x.num ∧ it.pos < x.pos) ∨
  (∃ x ∈ s, x.num = it.num ∧ x.pos < it.pos) ∨
  ∃ x ∈ s, x.num < it.num ∧ it.pos < x.pos ∧ ∀ y ∈ s, y.num < it.num → y.num ≤ x.num

end Verif.Spec
