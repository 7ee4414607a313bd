/-
Regular expressions as used by the patterns in fix_jats_xml.py: the backtracking matcher of Python's package `re`
(external), for the constructs that occur there. A match is a list of possible ends in the order in which `re` tries
them, so that the first one is the match that `re` reports.
-/
import Verif.Model.Basic

namespace Verif

/-- A regular expression. `rep a lo hi greedy` is `a{lo,hi}`, with `hi = none` for no bound; `*`, `+` and `?` are
special cases. Simplification: the expression repeated must not match the empty text (it does not in any of the patterns). -/
inductive Re where
  | empty
  | chr (p : Char → Bool)
  /-- `\b` -/
  | wordB
  /-- `^` -/
  | bol
  /-- `$` -/
  | eol
  | seq (a b : Re)
  | alt (a b : Re)
  | rep (a : Re) (lo : Nat) (hi : Option Nat) (greedy : Bool)

/-- Whether the character at position `i` is `\w`. -/
def wordAt (cc : CharClass) (s : Str) (i : Nat) : Bool := (s[i]?.map cc.isWord).getD false

/-- `\b` at position `i`. -/
def boundaryAt (cc : CharClass) (s : Str) (i : Nat) : Bool := (i != 0 && wordAt cc s (i - 1)) != wordAt cc s i

/-- Repeating: the ends in order. The first argument bounds the number of repetitions. -/
def repRun (step : Nat → List Nat) (greedy : Bool) : Nat → Nat → Option Nat → Nat → List Nat
  | 0, lo, _, i => if lo = 0 then [i] else []
  | fuel + 1, lo, hi, i =>
    let more := if hi = some 0 then []
      else ((step i).filter (fun k => decide (i < k))).flatMap (repRun step greedy fuel (lo - 1) (hi.map (· - 1)))
    if 0 < lo then more else if greedy then more ++ [i] else i :: more

/-- The ends of the matches starting at position `i`, in the order in which they are tried. -/
def Re.run (cc : CharClass) (s : Str) : Re → Nat → List Nat
  | .empty, i => [i]
  | .chr p, i =>
    match s[i]? with
    | some c => if p c then [i + 1] else []
    | none => []
  | .wordB, i => if boundaryAt cc s i then [i] else []
  | .bol, i => if i = 0 then [i] else []
  | .eol, i => if i = s.length ∨ (i + 1 = s.length ∧ s[i]? = some '\n') then [i] else []
  | .seq a b, i => (a.run cc s i).flatMap (b.run cc s)
  | .alt a b, i => a.run cc s i ++ b.run cc s i
  | .rep a lo hi greedy, i => repRun (a.run cc s) greedy (s.length + 1 - i) lo hi i

/-- A regular expression with one group: what is before it, the group and what follows. -/
structure Pattern where
  pre : Re
  grp : Re
  post : Re

/-- All matches at position `i`, in order: start and end of the group. -/
def Pattern.all (cc : CharClass) (p : Pattern) (s : Str) (i : Nat) : List (Nat × Nat) :=
  (p.pre.run cc s i).flatMap (fun k => (p.grp.run cc s k).flatMap (fun l => (p.post.run cc s l).map (fun _ => (k, l))))

/-- `re.search`: start and end of the group in the first match. -/
def Pattern.search (cc : CharClass) (p : Pattern) (s : Str) : Option (Nat × Nat) :=
  (List.range (s.length + 1)).findSome? (fun i => (p.all cc s i).head?)

/-- `re.match`: start and end of the group. -/
def Pattern.matchStart (cc : CharClass) (p : Pattern) (s : Str) : Option (Nat × Nat) := (p.all cc s 0).head?

/-! ### Notation -/

/-- A character matches a literal exactly. -/
def exactly (c d : Char) : Bool := c = d

/-- The characters of a text. -/
def Re.lit (same : Char → Char → Bool) : Str → Re
  | [] => .empty
  | c :: s => .seq (.chr (same c)) (.lit same s)

def Re.opt (a : Re) : Re := .rep a 0 (some 1) true
def Re.star (p : Char → Bool) : Re := .rep (.chr p) 0 none true
def Re.plus (p : Char → Bool) : Re := .rep (.chr p) 1 none true

/-- A sequence. -/
def Re.cat : List Re → Re
  | [] => .empty
  | [a] => a
  | a :: b :: r => .seq a (Re.cat (b :: r))

end Verif
