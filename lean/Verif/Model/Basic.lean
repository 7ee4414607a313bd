/-
Basic vocabulary of the model: strings, optional strings, dictionaries, errors.
-/
import Lean.Elab.Term

namespace Verif

/-- Python `str`, as the list of its code points. -/
abbrev Str := List Char

open Lean in
/-- `c!"abc"` is the list literal `['a', 'b', 'c']` (so that the kernel can
evaluate closed terms without unfolding `String`). -/
syntax:max "c!" str : term

open Lean in
macro_rules
  | `(c!$s:str) => do
    let cs := s.getString.toList.map (fun c => Syntax.mkCharLit c)
    let arr := cs.toArray
    `(([$arr,*] : Verif.Str))

/-- Python truthiness of an optional string: `None` and `''` are false. -/
def truthy : Option Str → Bool
  | none => false
  | some [] => false
  | some (_ :: _) => true

/-- Python `a or b` on optional strings. -/
def pyOr (a b : Option Str) : Option Str := if truthy a then a else b

/-- Python `s.startswith(p)`. -/
def startsWith (p s : Str) : Bool := p.isPrefixOf s

/-- Python `s.endswith(p)`. -/
def endsWith (p s : Str) : Bool := p.isSuffixOf s

/-- Exceptions raised by the modelled code. -/
inductive Err
  | valueError
  | keyError
  | typeError
  | indexError
  | assertionError
  | runtimeError
  | zeroDivision
  | exception
  | attributeError
  deriving DecidableEq, Repr

deriving instance DecidableEq for Except

/-- Character classes of the Python runtime (`str.isspace`, `str.isupper`,
`str.islower`, `str.isalpha`, `str.isdigit` and the regular expression class `\w`).
The model is parametric in them. -/
structure CharClass where
  isSpace : Char → Bool
  isUpper : Char → Bool
  isLower : Char → Bool
  isAlpha : Char → Bool
  isDigit : Char → Bool
  isWord  : Char → Bool

/-- The ASCII restriction of the Python classes, used in concrete examples. -/
def asciiClass : CharClass where
  isSpace c := c = ' ' || c = '\t' || c = '\n' || c = '\r'
  isUpper c := 'A' ≤ c && c ≤ 'Z'
  isLower c := 'a' ≤ c && c ≤ 'z'
  isAlpha c := ('A' ≤ c && c ≤ 'Z') || ('a' ≤ c && c ≤ 'z')
  isDigit c := '0' ≤ c && c ≤ '9'
  isWord c := ('A' ≤ c && c ≤ 'Z') || ('a' ≤ c && c ≤ 'z') || ('0' ≤ c && c ≤ '9') || c = '_'

/-- Python `s.lstrip()`. -/
def lstrip (cc : CharClass) (s : Str) : Str := s.dropWhile cc.isSpace

/-- Python `s.rstrip()`. -/
def rstrip (cc : CharClass) (s : Str) : Str := (s.reverse.dropWhile cc.isSpace).reverse

/-- Python `s.strip()`. -/
def strip (cc : CharClass) (s : Str) : Str := rstrip cc (lstrip cc s)

/-- Python `dict` with string keys: an association list in insertion order. -/
abbrev Dict (β : Type) := List (Str × β)

namespace Dict
variable {β : Type}

/-- `d.get(k)`. -/
def get? : Dict β → Str → Option β
  | [], _ => none
  | (k, v) :: d, k' => if k = k' then some v else get? d k'

/-- `d[k] = v` (an existing key keeps its position). -/
def set : Dict β → Str → β → Dict β
  | [], k', v' => [(k', v')]
  | (k, v) :: d, k', v' => if k = k' then (k, v') :: d else (k, v) :: set d k' v'

/-- `d.pop(k, None)`. -/
def erase (d : Dict β) (k : Str) : Dict β := d.filter (fun p => !decide (p.1 = k))

/-- `sciencebeam_utils.utils.xml.set_or_remove_attrib(attrib, name, value)` (external):
removes the key for `None`, sets it otherwise. -/
def setOrRemove (d : Dict β) (k : Str) : Option β → Dict β
  | none => erase d k
  | some v => set d k v

/-- `d.get(k, default)`. -/
def getD (d : Dict β) (k : Str) (dflt : β) : β := (get? d k).getD dflt

/-- `dict(pairs)`: later pairs win. -/
def ofPairs (ps : List (Str × β)) : Dict β := ps.foldl (fun d p => set d p.1 p.2) []

end Dict

end Verif
