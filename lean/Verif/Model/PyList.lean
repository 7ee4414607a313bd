/-
Models of Python list functions used by the code: `sorted`, `itertools.groupby`, `enumerate`.
-/
import Verif.Model.Basic

namespace Verif

/-- Inserts `a` before the first element that is not smaller. -/
def insertSorted {α : Type} (le : α → α → Bool) (a : α) : List α → List α
  | [] => [a]
  | b :: l => if le a b then a :: b :: l else b :: insertSorted le a l

/-- Python `sorted` (stable), as insertion sort. Elements are compared by a total order `le` of
their keys, so that every stable sorting algorithm has the same result. -/
def sortBy {α : Type} (le : α → α → Bool) : List α → List α
  | [] => []
  | a :: l => insertSorted le a (sortBy le l)

/-- Python `itertools.groupby(l, key)`: runs of consecutive elements with the same key. -/
def groupBy {α κ : Type} [DecidableEq κ] (key : α → κ) : List α → List (κ × List α)
  | [] => []
  | a :: l =>
    match groupBy key l with
    | [] => [(key a, [a])]
    | (k, g) :: gs => if key a = k then (k, a :: g) :: gs else (key a, [a]) :: (k, g) :: gs

/-- Order of Python strings: lexicographic by code point. -/
def strLe : Str → Str → Bool
  | [], _ => true
  | _ :: _, [] => false
  | a :: s, b :: t => if a = b then strLe s t else a.toNat < b.toNat

end Verif
