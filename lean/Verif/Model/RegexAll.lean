/-
All matches of a regular expression: `finditer`, `sub` and `split` of Python's packages `re` and `regex` (external), for
expressions that do not match the empty text.
-/
import Verif.Model.Regex
import Verif.Model.TargetFile

namespace Verif

/-- The first match from a position on: start and end. -/
def Re.searchFrom (cc : CharClass) (r : Re) (s : Str) (pos : Nat) : Option (Nat × Nat) :=
  (List.range' pos (s.length + 1 - pos)).findSome? (fun i => (r.run cc s i).head?.map (fun e => (i, e)))

/-- The matches from a position on, each from the end of the one before on. The first argument bounds their number. -/
def Re.matchesFrom (cc : CharClass) (r : Re) (s : Str) : Nat → Nat → List (Nat × Nat)
  | 0, _ => []
  | fuel + 1, pos =>
    match r.searchFrom cc s pos with
    | none => []
    | some (i, e) => (i, e) :: r.matchesFrom cc s fuel e

/-- `re.finditer`: start and end of each match. -/
def Re.finditer (cc : CharClass) (r : Re) (s : Str) : List (Nat × Nat) := r.matchesFrom cc s (s.length + 1) 0

/-- The part of a text from a position on, of a length. -/
def reSlice (s : Str) (i size : Nat) : Str := (s.drop i).take size

/-- The text from a position on, with the matches replaced. -/
def subMatches (f : Str → Str) (s : Str) : Nat → List (Nat × Nat) → Str
  | pos, [] => s.drop pos
  | pos, (i, e) :: ms => reSlice s pos (i - pos) ++ f (reSlice s i (e - i)) ++ subMatches f s e ms

/-- `re.sub` with a function of the text matched. -/
def Re.sub (cc : CharClass) (r : Re) (f : Str → Str) (s : Str) : Str := subMatches f s 0 (r.finditer cc s)

/-- The parts of the text from a position on: what is between the matches, and the matches. -/
def splitMatches (s : Str) : Nat → List (Nat × Nat) → List Str
  | pos, [] => [s.drop pos]
  | pos, (i, e) :: ms => reSlice s pos (i - pos) :: reSlice s i (e - i) :: splitMatches s e ms

/-- `re.split` with an expression of one group, which is all of it. -/
def Re.splitGroup (cc : CharClass) (r : Re) (s : Str) : List Str := splitMatches s 0 (r.finditer cc s)

/-- `\W` (structured_document/grobid_training_tei.py:237, annotation/simple_matching_annotator.py:54). -/
def nonWordRe (cc : CharClass) : Re := .chr (fun c => !cc.isWord c)

/-- `\b` and an escaped name with a colon (auto_annotate_utils.py:539). -/
def namespaceRe (name : Str) : Re := .seq .wordB (.lit exactly (name ++ c!":"))

/-- `{([^}]+)}` (annotation/simple_matching_annotator.py:457-458). -/
def placeholderRe : Re := .seq (.lit exactly c!"{") (.seq (.plus (fun c => c ≠ '}')) (.lit exactly c!"}"))

/-- `https?://` (fix_jats_xml.py:529). -/
def urlRe : Re := .seq (.lit exactly c!"http") (.seq (.opt (.lit exactly c!"s")) (.lit exactly c!"://"))

/-- `\{[^}]*` in `(?<!\{[^}]*)/` (structured_document/grobid_training_tei.py:401). -/
def openBraceRe : Re := .seq (.lit exactly c!"{") (.star (fun c => c ≠ '}'))

/-- Whether a match of an expression ends at a position (`(?<=…)` of the package `regex`). -/
def Re.endsAt (cc : CharClass) (r : Re) (s : Str) (i : Nat) : Bool :=
  (List.range (i + 1)).any (fun k => (r.run cc s k).contains i)

/-- Where `(?<!\{[^}]*)/` matches: at slashes at which no match of the expression behind ends. -/
def pathSlashes (cc : CharClass) (s : Str) : List Nat :=
  (List.range s.length).filter (fun i => decide (s[i]? = some '/') && !openBraceRe.endsAt cc s i)

/-- `split` at matches of one character each. -/
def splitAtEach (s : Str) : Nat → List Nat → List Str
  | pos, [] => [s.drop pos]
  | pos, i :: is => reSlice s pos (i - pos) :: splitAtEach s (i + 1) is

/-- A suffix of plain characters and dots. -/
def itemsRe : List (Option Char) → Re
  | [] => .empty
  | i :: is => .seq (.chr (itemMatches i)) (itemsRe is)

/-- `(.*)SUFFIX`, as in the expressions for names of target files (see `Model/TargetFile`). -/
def suffixRe (is : List (Option Char)) : Re := .seq (.star (fun c => c ≠ '\n')) (itemsRe is)

end Verif
