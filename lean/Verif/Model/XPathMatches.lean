/-
Required XPath matches (`utils/xml.py`). Evaluating an XPath expression is a parameter.
-/
import Verif.Model.PyStr

namespace Verif

/-- How `get_xpath_matches` fails: with a `ValueError` whose message names the part of the path for which elements
were found, if any (utils/xml.py:131-145), or with an exception of the evaluation of an expression. -/
inductive XPathError
  | missing (found : Option Str)
  | evaluation (e : Err)
  deriving DecidableEq, Repr

/-- The loop over `reversed(range(1, len(xpath_fragments)))` with `n` counts left (utils/xml.py:130-145). -/
def missingError {α : Type} (eval : Str → Except Err (List α)) (fragments : List Str) : Nat → XPathError
  | 0 => .missing none
  | n + 1 =>
    let parentXPath := joinStr ['/'] (fragments.take (n + 1))
    if parentXPath.length ≤ 1 then .missing none
    else match eval parentXPath with
      | .error e => .evaluation e
      | .ok parentResult => if parentResult.isEmpty then missingError eval fragments n else .missing (some parentXPath)

/-- `get_xpath_matches` (utils/xml.py:122-146). -/
def getXPathMatches {α : Type} (eval : Str → Except Err (List α)) (xpath : Str) (required : Bool) : Except XPathError (List α) :=
  match eval xpath with
  | .error e => .error (.evaluation e)
  | .ok result =>
    if required && result.isEmpty then
      let fragments := splitOn '/' xpath
      .error (missingError eval fragments (fragments.length - 1))
    else .ok result

/-- `get_first_xpath_match` (utils/xml.py:149-153). -/
def getFirstXPathMatch {α : Type} (eval : Str → Except Err (List α)) (xpath : Str) : Except XPathError α :=
  match getXPathMatches eval xpath true with
  | .error e => .error e
  | .ok [] => .error (.evaluation .indexError)
  | .ok (e :: _) => .ok e

end Verif
