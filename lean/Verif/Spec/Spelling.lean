/-
Specification of spellings which make no difference.
-/
import Verif.Spec.JatsDoc
import Verif.Model.CoreMatching

namespace Verif.Spec

/-- Long dashes are hyphens, thin spaces are spaces, and single quotes are double ones. -/
def spelled (c : Char) : Char :=
  if c = '\u2013' ∨ c = '\u2014' then '-' else if c = '\u2009' then ' ' else if c = '\'' then '"' else c

/-- Two texts of the same length are the same up to case, the kinds of dashes, of spaces and of quotes. -/
def SameSpelling (lower : Str → Str) (s s' : Str) : Prop :=
  s.length = s'.length ∧ (lower s).map spelled = (lower s').map spelled

/-- The texts of two values are pairwise the same up to spelling. -/
def SameSpellings (lower : Str → Str) : List Str → List Str → Prop
  | [], [] => True
  | s :: ss, s' :: ss' => SameSpelling lower s s' ∧ SameSpellings lower ss ss'
  | _, _ => False

/-- The same for values. -/
def SameValue (lower : Str → Str) : TargetValue → TargetValue → Prop
  | .one s, .one s' => SameSpelling lower s s'
  | .many ss, .many ss' => SameSpellings lower ss ss'
  | _, _ => False

/-- The elements of two lists are pairwise related. -/
def Pairwise2 {α : Type} (r : α → α → Prop) : List α → List α → Prop
  | [], [] => True
  | x :: xs, y :: ys => r x y ∧ Pairwise2 r xs ys
  | _, _ => False

/-- Target annotations for the same field, the values of which are the same up to spelling; the configuration has no
alternative spellings for the field. -/
def SpelledAlike (lower : Str → Str) (cfg : MatchCfg) (t t' : Target) : Prop :=
  t'.name = t.name ∧ t'.subs = t.subs ∧ SameValue lower t.value t'.value ∧ (cfg.tagConfig t.name).alternativeSpellings = []

/-- The same for sub annotations of the complex matcher. -/
def CoreSubAlike (lower : Str → Str) (s s' : CoreSub) : Prop :=
  s'.name = s.name ∧ s'.bonding = s.bonding ∧ SameValue lower s.value s'.value

/-- The same for target annotations of the complex matcher. -/
def CoreAlike (lower : Str → Str) (t t' : CoreTarget) : Prop :=
  t'.name = t.name ∧ t'.matchMultiple = t.matchMultiple ∧ t'.bonding = t.bonding ∧ t'.requireNext = t.requireNext ∧
    SameValue lower t.value t'.value ∧ Pairwise2 (CoreSubAlike lower) t.subs t'.subs

/-- A character which the complex matcher ignores behind another: a space or comma behind a full stop, a full stop
behind a letter, and a character which is repeated. -/
def ignoredAfter (cc : CharClass) (previous c : Char) : Bool :=
  (previous == '.' && (c == ' ' || c == ',')) || (cc.isAlpha previous && c == '.') || previous == c

/-- The characters which the complex matcher does not ignore; it always ignores asterisks. -/
def notIgnored (cc : CharClass) : Option Char → Str → Str
  | _, [] => []
  | previous, c :: s =>
    if c == '*' || (previous.map (fun p => ignoredAfter cc p c)).getD false then notIgnored cc (some c) s
    else c :: notIgnored cc (some c) s

end Verif.Spec
