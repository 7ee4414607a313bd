/-
Model of functions of `posixpath` (Python standard library) used for file names.
-/
import Verif.Model.Basic

namespace Verif

/-- `s.rpartition(c)` without the separator, if `c` occurs in `s`. -/
def rsplitOnce (c : Char) (s : Str) : Option (Str × Str) :=
  if c ∈ s then
    let last := (s.reverse.takeWhile (fun x => x ≠ c)).reverse
    some (s.take (s.length - last.length - 1), last)
  else none

/-- `os.path.basename`. -/
def baseName (p : Str) : Str := (p.reverse.takeWhile (fun x => x ≠ '/')).reverse

/-- `os.path.dirname`: the part before the last component without its slashes at the end, unless
it consists of slashes only. -/
def dirName (p : Str) : Str :=
  let head := p.take (p.length - (baseName p).length)
  if head.all (fun x => x = '/') then head else (head.reverse.dropWhile (fun x => x = '/')).reverse

/-- `os.path.splitext`: dots at the start of the last component do not count. -/
def splitExt (p : Str) : Str × Str :=
  match rsplitOnce '.' (baseName p) with
  | none => (p, [])
  | some (stem, ext) =>
    if stem.all (fun x => x = '.') then (p, [])
    else (p.take (p.length - (ext.length + 1)), '.' :: ext)

/-- `os.path.join(a, b)`. -/
def joinPath (a b : Str) : Str :=
  if startsWith ['/'] b then b
  else if a.isEmpty || endsWith ['/'] a then a ++ b
  else a ++ '/' :: b

end Verif
