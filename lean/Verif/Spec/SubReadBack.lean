/-
Specification of sub labels which are read back from the file a tool has written.
-/
import Verif.Spec.ReadBack
import Verif.Spec.ReloadSub
import Verif.Spec.SubPlace

namespace Verif.Spec

/-- A document has neighbouring texts with the sub label (up to white space, nothing without the sub label is between
them) which spell the value, up to case and white space. -/
def SubReadBack (cc : CharClass) (lower : Str → Str) (d : Doc) (value label : Str) : Prop :=
  ∃ texts : List Str,
    texts.flatMap (fun s => (s.filter (fun c => !cc.isSpace c)).map (fun c => (c, some label))) <:+: subText cc d ∧
    noSpace (lower value) <:+: noSpace (lower texts.flatten)

/-- The element for the sub label lies below the one for the main label, and no other sub label has the element. -/
def SubElement (mapping : Dict Str) (main sub : Str) : Prop :=
  let below := tagRequiredPath mapping (some sub)
  tagRequiredPath mapping (some main) <+: below ∧ (tagRequiredPath mapping (some main)).length < below.length ∧
    subName mapping (joinWith c!"/" below) = some sub

/-- Each occurrence of the value in the text of the tokens lies on one line of the document. -/
def ValueOnOneLine (env : MatchEnv) (d : Doc) (tokens : List Nat) (value : Str) : Prop :=
  ∀ ranges r, MatchPlaces env.cc d tokens ranges →
    OccurrenceAt (env.lower (matchText env.cc d tokens)) (env.lower value) r →
    ∃ l ∈ d.lines, ∀ x ∈ tokens.zip ranges, overlaps r.1 r.2 x.2 = true → x.1 ∈ l.tokens

/-- The value of a sub annotation occurs in the text of the tokens, and what is on the first line of the occurrence is read
back: the tokens of the occurrence are some on one line, followed by others (none, if the value is on one line) which are not
on this line. Together they spell the value, up to case and white space. The document loaded has the text of the former, with the
sub label. -/
def FirstLineReadBack (env : MatchEnv) (d loaded : Doc) (tokens : List Nat) (value label : Str) : Prop :=
  ∃ ranges r, MatchPlaces env.cc d tokens ranges ∧
    OccurrenceAt (env.lower (matchText env.cc d tokens)) (env.lower value) r ∧
    ∃ first rest, ((tokens.zip ranges).filter (fun x => overlaps r.1 r.2 x.2)).map Prod.fst = first ++ rest ∧ first ≠ [] ∧
      (∃ l ∈ d.lines, (∀ i ∈ first, i ∈ l.tokens) ∧ ∀ i ∈ rest, i ∉ l.tokens) ∧
      noSpace (env.lower value) <:+: noSpace (env.lower ((first ++ rest).map (fun i => d.getText env.cc i)).flatten) ∧
      (first.map (fun i => d.getText env.cc i)).flatMap
        (fun s => (s.filter (fun c => !env.cc.isSpace c)).map (fun c => (c, some label))) <:+: subText env.cc loaded

end Verif.Spec
