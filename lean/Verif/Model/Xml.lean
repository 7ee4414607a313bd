/-
lxml's element tree (external data model): an element has a tag, attributes, the text before
its first child, its children and the text following it (`tail`).
Simplification: comments and processing instructions are not represented.
-/
import Verif.Model.Basic

namespace Verif

/-- An `lxml.etree` element. -/
inductive Elem where
  | mk (tag : Str) (attrib : Dict Str) (text : Option Str) (children : List Elem)
      (tail : Option Str)

namespace Elem

def tag : Elem → Str | mk t _ _ _ _ => t
def attrib : Elem → Dict Str | mk _ a _ _ _ => a
def text : Elem → Option Str | mk _ _ x _ _ => x
def children : Elem → List Elem | mk _ _ _ c _ => c
def tail : Elem → Option Str | mk _ _ _ _ x => x
def withTail : Elem → Option Str → Elem | mk t a x c _, tl => mk t a x c tl

end Elem

/-- `s or ''`. -/
def orEmpty : Option Str → Str
  | none => []
  | some s => s

mutual
/-- `''.join(element.itertext())`: the text inside an element, without its tail. -/
def itertext : Elem → Str
  | .mk _ _ x cs _ => orEmpty x ++ itertextList cs
/-- Text of a list of siblings including their tails. -/
def itertextList : List Elem → Str
  | [] => []
  | .mk t a x cs tl :: es => itertext (.mk t a x cs tl) ++ orEmpty tl ++ itertextList es
end

/-- `'/'.join(xs)`. -/
def joinWith (sep : Str) : List Str → Str
  | [] => []
  | [x] => x
  | x :: y :: xs => x ++ sep ++ joinWith sep (y :: xs)

/-- `is_blank` (utils/string.py:13-14). -/
def isBlank (cc : CharClass) : Option Str → Bool
  | none => true
  | some s => s.isEmpty || (strip cc s).isEmpty

/-- ElementPath `root.findall('./a/b')` for a path of plain tag names: all elements reached by
following the tags, in document order. -/
def findAll : List Str → Elem → List Elem
  | [], e => [e]
  | t :: ts, e => (e.children.filter (fun c => c.tag = t)).flatMap (findAll ts)

/-- Replaces the first child with tag `t` for which `rec` succeeds. -/
def replaceChild (t : Str) (rec : Elem → Option Elem) : List Elem → Option (List Elem)
  | [] => none
  | c :: cs =>
    match (if c.tag = t then rec c else none) with
    | some c' => some (c' :: cs)
    | none => (replaceChild t rec cs).map (c :: ·)

/-- `root.find(path)` followed by replacing the element found in place by `f`: `none` if no
element is found. -/
def replaceFirst (f : Elem → Elem) : List Str → Elem → Option Elem
  | [], e => some (f e)
  | t :: ts, .mk tg a x cs tl =>
    (replaceChild t (replaceFirst f ts) cs).map (fun cs' => .mk tg a x cs' tl)

end Verif
