/-
Specification of what justifies a label given by the annotator comparing values with lines.
-/
import Verif.Spec.CoreMatching

namespace Verif.Spec

/-- The result of the matcher for two texts. -/
def comparison (env : CoreEnv) (a b : Str) : FuzzyResult := ⟨a, b, blocksOf env a b, coreIsJunk env.cc⟩

/-- A result is accepted, if many characters match and almost all of both texts; or if almost all of the second text
matches and an earlier part has been found, or some characters match and the part behind is good enough, or almost all
of the first text matches. -/
def GoodEnough (f : CoreFilter) (r : FuzzyResult) (behind : Option FuzzyResult) (earlier : Bool) : Prop :=
  (f.ratioMinCount ≤ r.matchCount ∧ f.ratioThreshold ≤ r.ratio) ∨
  (f.bScore ≤ r.bGapRatio ∧
    (earlier = true ∨ (f.minCount ≤ r.matchCount ∧ ∀ n, behind = some n → f.ratioThreshold ≤ n.ratio) ∨
      f.totalThreshold ≤ r.aRatio))

/-- A line with the next one, if there is one. -/
def withFollowing (cur : Str) (next : Option Str) : Str :=
  match next with
  | none => cur
  | some n => cur ++ c!" " ++ n

/-- A line not longer than the rest of the value is found within the value: `on` is the match on the line and
`after` the one on the next line. -/
structure LineInValue (env : CoreEnv) (f : CoreFilter) (value : Str) (start : Nat) (earlier : Bool) (cur : Str)
    (next : Option Str) (on after : FuzzyResult) : Prop where
  fits : cur.length ≤ value.length - start
  parts : (comparison env value (withFollowing cur next)).bSplitAt env.cc cur.length = (on, after)
  matched : on.hasMatch = true
  good : GoodEnough f on (some after) earlier ∨
    (GoodEnough f (comparison env value (withFollowing cur next)) none false ∧ on.bRange.1 < cur.length)

/-- The rest of the value is found within the line. -/
structure ValueInLine (env : CoreEnv) (f : CoreFilter) (value : Str) (start : Nat) (earlier : Bool) (cur : Str)
    (next : Option Str) (on after : FuzzyResult) : Prop where
  parts : (comparison env (withFollowing cur next) (value.drop start)).aSplitAt env.cc cur.length = (on, after)
  matched : on.hasMatch = true
  good : GoodEnough f on none earlier ∨
    (GoodEnough f (comparison env (withFollowing cur next) (value.drop start)) none false ∧
      (comparison env (withFollowing cur next) (value.drop start)).aRange.1 < cur.length)

/-- The text of tokens, joined by spaces. -/
def joined (text : Nat → Str) (tokens : List Nat) : Str := joinStr c!" " (tokens.map text)

/-- Where the search goes on in the value: behind a match and the white space following. -/
def goOn (cc : CharClass) (value : Str) (e : Nat) : Nat := e + ((value.drop e).takeWhile cc.isSpace).length

/-- What has been found before: nothing, so that the search is at the beginning of the value, or a range of the value,
so that it is behind. -/
inductive Before (cc : CharClass) (value : Str) (found : Nat × Nat → Prop) : Nat → Bool → Prop
  | nothing : Before cc value found 0 false
  | range (r : Nat × Nat) : found r → Before cc value found (goOn cc value r.2) true

/-- Parts of a value found on lines which are not longer than the rest of the value: the tokens of the line, the
range of their text, and the range of the value. -/
inductive PartFound (env : CoreEnv) (f : CoreFilter) (text : Nat → Str) (Line : List Nat → Prop) (value : Str) :
    List Nat → Nat × Nat → Nat × Nat → Prop
  | first {line : List Nat} {next : Option (List Nat)} {on after : FuzzyResult} (hl : Line line) (hn : ∀ n, next = some n → Line n)
      (h : LineInValue env f value 0 false (joined text line) (next.map (joined text)) on after) :
      PartFound env f text Line value line on.bRange on.aRange
  | firstNext {line next : List Nat} {on after : FuzzyResult} (hl : Line line) (hn : Line next)
      (h : LineInValue env f value 0 false (joined text line) (some (joined text next)) on after) (ha : after.hasMatch = true) :
      PartFound env f text Line value next after.bRange after.aRange
  | more {line' : List Nat} {r v : Nat × Nat} {line : List Nat} {next : Option (List Nat)} {on after : FuzzyResult}
      (hb : PartFound env f text Line value line' r v) (hl : Line line) (hn : ∀ n, next = some n → Line n)
      (h : LineInValue env f value (goOn env.cc value v.2) true (joined text line) (next.map (joined text)) on after) :
      PartFound env f text Line value line on.bRange on.aRange
  | moreNext {line' : List Nat} {r v : Nat × Nat} {line next : List Nat} {on after : FuzzyResult}
      (hb : PartFound env f text Line value line' r v) (hl : Line line) (hn : Line next)
      (h : LineInValue env f value (goOn env.cc value v.2) true (joined text line) (some (joined text next)) on after)
      (ha : after.hasMatch = true) : PartFound env f text Line value next after.bRange after.aRange

/-- A value, or a part of it, is found on a line, at a range of its text: on a line not longer than the value, or the
rest of the value on a line longer than that. -/
inductive LineFound (env : CoreEnv) (cfg : CoreCfg) (text : Nat → Str) (Line : List Nat → Prop) (value : Str) :
    List Nat → Nat × Nat → Prop
  | part {line : List Nat} {r v : Nat × Nat} (h : PartFound env cfg.seqFilter text Line value line r v) :
      LineFound env cfg text Line value line r
  | rest {line : List Nat} {next : Option (List Nat)} {start : Nat} {earlier : Bool} {on after : FuzzyResult}
      (hb : Before env.cc value (fun v => ∃ line r, PartFound env cfg.seqFilter text Line value line r v) start earlier)
      (hl : Line line) (hn : ∀ n, next = some n → Line n) (hlong : value.length - start < (joined text line).length)
      (h : ValueInLine env cfg.choiceFilter value start earlier (joined text line) (next.map (joined text)) on after) :
      LineFound env cfg text Line value line on.aRange
  | restNext {line next : List Nat} {start : Nat} {earlier : Bool} {on after : FuzzyResult}
      (hb : Before env.cc value (fun v => ∃ line r, PartFound env cfg.seqFilter text Line value line r v) start earlier)
      (hl : Line line) (hn : Line next) (hlong : value.length - start < (joined text line).length)
      (h : ValueInLine env cfg.choiceFilter value start earlier (joined text line) (some (joined text next)) on after)
      (ha : after.hasMatch = true) : LineFound env cfg text Line value next after.aRange

/-- Neighbouring tokens among the tokens of a line which are not tagged. -/
def PartOfLine (d : Doc) (tokens : List Nat) : Prop := ∃ l ∈ untaggedLines d, ∃ a b, l = a ++ tokens ++ b

/-- The texts of a value. -/
def textsOf : TargetValue → List Str
  | .one s => [s]
  | .many ss => ss

/-- Token `i` is where a text of the target annotation is found. -/
def CoreFoundAt (env : CoreEnv) (cfg : CoreCfg) (d : Doc) (t : CoreTarget) (i : Nat) : Prop :=
  ∃ v ∈ textsOf t.value, ∃ line r,
    LineFound env cfg (fun j => coreNormalise env (d.getText env.cc j)) (PartOfLine d) (coreNormalise env v) line r ∧
    i ∈ tokensIn (fun j => coreNormalise env (d.getText env.cc j)) line r

/-- Token `i` is where a text of the sub annotation is found, among tokens where the target annotation is found. -/
def CoreSubFoundAt (env : CoreEnv) (cfg : CoreCfg) (d : Doc) (t : CoreTarget) (s : CoreSub) (i : Nat) : Prop :=
  ∃ tokens, (∀ j ∈ tokens, CoreFoundAt env cfg d t j) ∧ ∃ v ∈ textsOf s.value, ∃ on after,
    ValueInLine env cfg.choiceFilter (normaliseStr env.lower v) 0 false
      (joined (fun j => normaliseStr env.lower (d.getText env.cc j)) tokens) none on after ∧
    i ∈ tokensIn (fun j => normaliseStr env.lower (d.getText env.cc j)) tokens on.aRange

end Verif.Spec
