/-
Specification vocabulary for the sub tags of a loaded document.
-/
import Verif.Spec.Tei

namespace Verif.Spec

/-- What happens, in document order, to the sub tag. -/
inductive SubEvent where
  /-- a tagged element, with this path, starts inside of a tagged element -/
  | opens (path : Str)
  /-- an element (tagged or not) ends inside of a tagged element -/
  | closes
  /-- a text node -/
  | text (s : Str)

mutual
/-- The events of an element inside of a tagged element (without its tail). -/
def subEvents (cc : CharClass) (rootPaths : List Str) (path : List Str) : Elem → List SubEvent
  | .mk _ _ x cs _ =>
    (if isTagged cc rootPaths path x cs then [.opens (joinWith c!"/" path)] else []) ++
      .text (orEmpty x) :: subEventsList cc rootPaths path cs ++ [.closes]
def subEventsList (cc : CharClass) (rootPaths : List Str) (path : List Str) : List Elem → List SubEvent
  | [] => []
  | .mk t a x cs tl :: es =>
    subEvents cc rootPaths (path ++ [component t a]) (.mk t a x cs tl) ++ .text (orEmpty tl) ::
      subEventsList cc rootPaths path es
end

mutual
/-- The events of an element which is not inside of a tagged element (without its tail). -/
def docEvents (cc : CharClass) (rootPaths : List Str) (path : List Str) : Elem → List SubEvent
  | .mk _ _ x cs _ =>
    .text (orEmpty x) ::
      if path ≠ [] ∧ isTagged cc rootPaths path x cs = true then subEventsList cc rootPaths path cs
      else docEventsList cc rootPaths path cs
def docEventsList (cc : CharClass) (rootPaths : List Str) (path : List Str) : List Elem → List SubEvent
  | [] => []
  | .mk t a x cs tl :: es =>
    docEvents cc rootPaths (path ++ [component t a]) (.mk t a x cs tl) ++ .text (orEmpty tl) ::
      docEventsList cc rootPaths path es
end

/-- The text nodes grouped by sub tag: a new group starts where a tagged element starts (with its
path), and where an element ends (without sub tag).  `sub` is the sub tag of the group which is not
finished yet, `texts` are its text nodes so far. -/
def subGroups (sub : Option Str) (texts : List Str) : List SubEvent → List (Option Str × List Str)
  | [] => [(sub, texts)]
  | .opens p :: r => (sub, texts) :: subGroups (some p) [] r
  | .closes :: r => (sub, texts) :: subGroups none [] r
  | .text s :: r => subGroups sub (texts ++ [s]) r

mutual
/-- The text nodes of an element inside of a tagged element, each with the path of the innermost
tagged element around it below the outermost one (`sub` for the parent element). -/
def ownSubs (cc : CharClass) (rootPaths : List Str) (path : List Str) (sub : Option Str) :
    Elem → List (Option Str × Str)
  | .mk _ _ x cs _ =>
    let own := if isTagged cc rootPaths path x cs then some (joinWith c!"/" path) else sub
    (own, orEmpty x) :: ownSubsList cc rootPaths path own cs
def ownSubsList (cc : CharClass) (rootPaths : List Str) (path : List Str) (sub : Option Str) :
    List Elem → List (Option Str × Str)
  | [] => []
  | .mk t a x cs tl :: es =>
    ownSubs cc rootPaths (path ++ [component t a]) sub (.mk t a x cs tl) ++ (sub, orEmpty tl) ::
      ownSubsList cc rootPaths path sub es
end

mutual
/-- The text nodes of an element which is not inside of a tagged element, each with its sub tag. -/
def docSubs (cc : CharClass) (rootPaths : List Str) (path : List Str) : Elem → List (Option Str × Str)
  | .mk _ _ x cs _ =>
    (none, orEmpty x) ::
      if path ≠ [] ∧ isTagged cc rootPaths path x cs = true then ownSubsList cc rootPaths path none cs
      else docSubsList cc rootPaths path cs
def docSubsList (cc : CharClass) (rootPaths : List Str) (path : List Str) : List Elem → List (Option Str × Str)
  | [] => []
  | .mk t a x cs tl :: es =>
    docSubs cc rootPaths (path ++ [component t a]) (.mk t a x cs tl) ++ (none, orEmpty tl) ::
      docSubsList cc rootPaths path es
end

mutual
/-- No tagged element inside of a tagged element has elements in it. -/
def plainSubs (cc : CharClass) (rootPaths : List Str) (path : List Str) : Elem → Prop
  | .mk _ _ x cs _ =>
    (isTagged cc rootPaths path x cs = true → cs = []) ∧ plainSubsList cc rootPaths path cs
def plainSubsList (cc : CharClass) (rootPaths : List Str) (path : List Str) : List Elem → Prop
  | [] => True
  | .mk t a x cs tl :: es =>
    plainSubs cc rootPaths (path ++ [component t a]) (.mk t a x cs tl) ∧ plainSubsList cc rootPaths path es
end

mutual
/-- The same, for an element which is not inside of a tagged element. -/
def docPlain (cc : CharClass) (rootPaths : List Str) (path : List Str) : Elem → Prop
  | .mk _ _ x cs _ =>
    if path ≠ [] ∧ isTagged cc rootPaths path x cs = true then plainSubsList cc rootPaths path cs
    else docPlainList cc rootPaths path cs
def docPlainList (cc : CharClass) (rootPaths : List Str) (path : List Str) : List Elem → Prop
  | [] => True
  | .mk t a x cs tl :: es =>
    docPlain cc rootPaths (path ++ [component t a]) (.mk t a x cs tl) ∧ docPlainList cc rootPaths path es
end

end Verif.Spec
