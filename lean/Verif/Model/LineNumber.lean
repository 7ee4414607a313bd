/-
Model of `annotation/line_number_annotator.py`.
-/
import Verif.Model.PyList
import Verif.Model.TeiDoc

namespace Verif

/-- `iter_first_tokens_of_lines` (annotation/line_number_annotator.py:28-34). -/
def firstTokens (d : Doc) : List Nat := d.lines.filterMap (fun l => l.nonSpace.head?)

/-- A candidate: `(token, num, token_pos)`. -/
structure LnItem where
  token : Nat
  num : Int
  pos : Nat
  deriving DecidableEq

/-- The list comprehension of `get_line_number_candidates` (annotation/line_number_annotator.py:
54-58); `parseInt` is Python `int(text)`, `none` standing for `ValueError`. -/
def lnItems (parseInt : Str → Option Int) (text : Nat → Str) : Nat → List Nat → List LnItem
  | _, [] => []
  | k, t :: ts =>
    match parseInt (text t) with
    | some n => if 0 < n then ⟨t, n, k⟩ :: lnItems parseInt text (k + 1) ts else lnItems parseInt text (k + 1) ts
    | none => lnItems parseInt text (k + 1) ts

/-- Comparison by `(item[1], item[2])` (annotation/line_number_annotator.py:61-64). -/
def lnLe (a b : LnItem) : Bool := a.num < b.num || (a.num = b.num && a.pos ≤ b.pos)

/-- The loop over the sorted candidates (annotation/line_number_annotator.py:66-77): `done` are the
sequences before the last, `cur` is the last sequence without its last item, `last` is its last
item. -/
def lnSequences (gap : Int) (done : List (List LnItem)) (cur : List LnItem) (last : LnItem) :
    List LnItem → List (List LnItem)
  | [] => done ++ [cur ++ [last]]
  | item :: items =>
    let expected := last.num + 1
    if item.pos < last.pos || item.num = last.num then lnSequences gap done cur last items
    else if expected ≤ item.num && item.num ≤ expected + gap then
      lnSequences gap done (cur ++ [last]) item items
    else lnSequences gap (done ++ [cur ++ [last]]) [] item items

/-- `get_line_number_candidates` (annotation/line_number_annotator.py:49-87). -/
def lineNumberCandidates (parseInt : Str → Option Int) (text : Nat → Str) (minCount gap : Int)
    (tokens : List Nat) : List Nat :=
  match sortBy lnLe (lnItems parseInt text 1 tokens) with
  | [] => []
  | item :: items =>
    ((lnSequences gap [] [] item items).filter (fun s => decide (minCount ≤ (s.length : Int)))).flatMap
      (fun s => s.map LnItem.token)

/-- `TextLineNumberAnnotatorConfig` (annotation/line_number_annotator.py:133-143) and the runtime's
`int`. The threshold is a rational number instead of a float. -/
structure LineNumberCfg where
  cc : CharClass
  parseInt : Str → Option Int
  tag : Str
  minCount : Int
  gap : Int
  threshold : Rat

/-- `iter_find_line_number_tokens_in_lines` (annotation/line_number_annotator.py:90-117). There is one
page (120-130). -/
def findLineNumbers (cfg : LineNumberCfg) (d : Doc) : Except Err (List Nat) :=
  let first := firstTokens d
  let cands := lineNumberCandidates cfg.parseInt (d.getText cfg.cc) cfg.minCount cfg.gap first
  if (cands.length : Int) < cfg.minCount then .ok []
  else if first.length = 0 then .error .zeroDivision
  else if (cands.length : Rat) / (first.length : Rat) < cfg.threshold then .ok []
  else .ok cands

/-- `TextLineNumberAnnotator.annotate` (annotation/line_number_annotator.py:156-168). -/
def annotateLineNumbers (cfg : LineNumberCfg) (d : Doc) : Except Err Doc :=
  match findLineNumbers cfg d with
  | .error e => .error e
  | .ok toks => .ok (toks.foldl (fun d t => d.setTag t (some cfg.tag)) d)

end Verif
