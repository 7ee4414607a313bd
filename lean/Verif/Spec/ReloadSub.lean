/-
Specification vocabulary for the sub tags of a document that is saved and loaded again.
-/
import Verif.Spec.Reload

namespace Verif.Spec

/-- The characters of a document that are not white space, in order, each with its sub tag. -/
def subText (cc : CharClass) (d : Doc) : List (Char × Option Str) :=
  d.lineToks.flatten.flatMap (fun t => (t.text.filter (fun c => !cc.isSpace c)).map (fun c => (c, subValue t)))

/-- The sub tag (explicit or preserved) of a token has the begin prefix. -/
def beginsSub (t : Tok) : Bool :=
  match fullSubTag t with
  | some v => startsWith c!"b-" v
  | none => false

/-- The name given to a sub element with this path. -/
def subName (mapping : Dict Str) (path : Str) : Option Str :=
  if tagOfPath mapping path = [] then none else some (tagOfPath mapping path)

/-- A text token is written into an element of its own: one of its tags has the begin prefix, or white space in front
of it has its main tag with the begin prefix (`begun`), or its path does not lie on that of the text before (`prev`). -/
def startsElement (mapping : Dict Str) (prev : List Str) (begun : List (Option Str)) (t : Tok) : Prop :=
  beginsEntity t = true ∨ beginsSub t = true ∨ tagValue (fullTag t) ∈ begun ∨ ¬ tokenPath mapping t <+: prev

instance (mapping : Dict Str) (prev : List Str) (begun : List (Option Str)) (t : Tok) :
    Decidable (startsElement mapping prev begun t) := inferInstanceAs (Decidable (_ ∨ _ ∨ _ ∨ _))

/-- The characters that are not white space, each with the path of the sub element it is read back from: text that is
written into a new element has the path of the element, text that is added to an element has the path of the text in
front of it, unless there is a line break between them or an element ended there.
`prev` is the path of the text before, `sub` the path of the sub element it is read back from. -/
def subsReadBack (cc : CharClass) (mapping : Dict Str) (prev : List Str) (sub : Option Str) (begun : List (Option Str)) :
    List (Option Tok) → List (Char × Option Str)
  | [] => []
  | none :: r => subsReadBack cc mapping prev none begun r
  | some t :: r =>
    if blank cc t then
      subsReadBack cc mapping prev sub (if beginsEntity t then tagValue (fullTag t) :: begun else begun) r
    else
      let sub' :=
        if (tokenPath mapping t).length ≤ (mainPath mapping t).length then none
        else if startsElement mapping prev begun t then some (joinWith c!"/" (tokenPath mapping t))
        else if tokenPath mapping t = prev then sub
        else none
      (t.text.filter (fun c => !cc.isSpace c)).map (fun c => (c, sub')) ++
        subsReadBack cc mapping (tokenPath mapping t) sub' [] r

/-- The characters of a document that are not white space, in order, each with its sub tag and whether it is the first
character of a token whose sub tag has the begin prefix. -/
def subMarkText (cc : CharClass) (d : Doc) : List (Char × Option Str × Bool) :=
  d.lineToks.flatten.flatMap (fun t =>
    (entityLabels (subValue t) (beginsSub t) t.text).filter (fun x => !cc.isSpace x.1))

/-- Like `subsReadBack`, with the first characters of text that is written into a new element marked. -/
def subMarksReadBack (cc : CharClass) (mapping : Dict Str) (prev : List Str) (sub : Option Str) (begun : List (Option Str)) :
    List (Option Tok) → List (Char × Option Str × Bool)
  | [] => []
  | none :: r => subMarksReadBack cc mapping prev none begun r
  | some t :: r =>
    if blank cc t then
      subMarksReadBack cc mapping prev sub (if beginsEntity t then tagValue (fullTag t) :: begun else begun) r
    else
      let sub' :=
        if (tokenPath mapping t).length ≤ (mainPath mapping t).length then none
        else if startsElement mapping prev begun t then some (joinWith c!"/" (tokenPath mapping t))
        else if tokenPath mapping t = prev then sub
        else none
      (entityLabels sub'
        (decide ((mainPath mapping t).length < (tokenPath mapping t).length ∧ startsElement mapping prev begun t))
        t.text).filter (fun x => !cc.isSpace x.1) ++
        subMarksReadBack cc mapping (tokenPath mapping t) sub' [] r

/-- The sub tag of a token can be read back from the path the token is written to: it has none and is written into the
main element, or it is written into an element below the main element that belongs to its sub tag. -/
def SubNamed (mapping : Dict Str) (t : Tok) : Prop :=
  (subValue t = none ∧ tokenPath mapping t = mainPath mapping t) ∨
  ((mainPath mapping t).length < (tokenPath mapping t).length ∧
    subName mapping (joinWith c!"/" (tokenPath mapping t)) = subValue t)

/-- Text below the main element is written into a new element, or it continues the text before in the same line
(`broken`: there was a line break since the text before). -/
def SubsMarked (cc : CharClass) (mapping : Dict Str) (prev : List Str) (broken : Bool) (begun : List (Option Str)) :
    List (Option Tok) → Prop
  | [] => True
  | none :: r => SubsMarked cc mapping prev true begun r
  | some t :: r =>
    if blank cc t then
      SubsMarked cc mapping prev broken (if beginsEntity t then tagValue (fullTag t) :: begun else begun) r
    else
      ((mainPath mapping t).length < (tokenPath mapping t).length →
        startsElement mapping prev begun t ∨ (tokenPath mapping t = prev ∧ broken = false)) ∧
      SubsMarked cc mapping (tokenPath mapping t) false [] r

instance decSubsMarked (cc : CharClass) (mapping : Dict Str) : (prev : List Str) → (broken : Bool) → (begun : List (Option Str)) →
    (seq : List (Option Tok)) → Decidable (SubsMarked cc mapping prev broken begun seq)
  | _, _, _, [] => .isTrue trivial
  | prev, _, begun, none :: r => decSubsMarked cc mapping prev true begun r
  | prev, broken, begun, some t :: r => by
    unfold SubsMarked
    split
    · exact decSubsMarked cc mapping prev broken _ r
    · have := decSubsMarked cc mapping (tokenPath mapping t) false [] r
      infer_instance

/-- The sub tag of a text token has the begin prefix exactly if the token is written into a new element below the main
element. -/
def SubsBegun (cc : CharClass) (mapping : Dict Str) (prev : List Str) (begun : List (Option Str)) : List (Option Tok) → Prop
  | [] => True
  | none :: r => SubsBegun cc mapping prev begun r
  | some t :: r =>
    if blank cc t then SubsBegun cc mapping prev (if beginsEntity t then tagValue (fullTag t) :: begun else begun) r
    else
      beginsSub t = decide (((mainPath mapping t).length < (tokenPath mapping t).length ∧ startsElement mapping prev begun t) ∧
        subValue t ≠ none) ∧
      SubsBegun cc mapping (tokenPath mapping t) [] r

instance decSubsBegun (cc : CharClass) (mapping : Dict Str) : (prev : List Str) → (begun : List (Option Str)) →
    (seq : List (Option Tok)) → Decidable (SubsBegun cc mapping prev begun seq)
  | _, _, [] => .isTrue trivial
  | prev, begun, none :: r => decSubsBegun cc mapping prev begun r
  | prev, begun, some t :: r => by
    unfold SubsBegun
    split
    · exact decSubsBegun cc mapping prev _ r
    · have := decSubsBegun cc mapping (tokenPath mapping t) [] r
      infer_instance

end Verif.Spec
