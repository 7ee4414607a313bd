/-
Python string functions.
-/
import Verif.Model.Basic

namespace Verif

/-- Python `sep.join(items)`. -/
def joinStr (sep : Str) : List Str → Str
  | [] => []
  | [s] => s
  | s :: t :: ss => s ++ sep ++ joinStr sep (t :: ss)

/-- Python `s.split(c)` for a string `c` of one character. -/
def splitOn (c : Char) : Str → List Str
  | [] => [[]]
  | x :: s =>
    if x = c then [] :: splitOn c s
    else match splitOn c s with
      | [] => [[x]]
      | f :: fs => (x :: f) :: fs

/-- Python `s.split(c, maxsplit=1)` for a string `c` of one character. -/
def splitOnce (c : Char) (s : Str) : List Str :=
  if c ∈ s then [s.takeWhile (fun x => !decide (x = c)), (s.dropWhile (fun x => !decide (x = c))).drop 1]
  else [s]

end Verif
