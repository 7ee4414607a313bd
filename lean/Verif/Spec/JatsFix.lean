/-
Specification for the changes to reference elements.
-/
import Verif.Model.JatsFix

namespace Verif.Spec

/-- The positions of the children of one element. -/
def positions (t : Option Str) : List JNode → List JNode → List JCtx
  | _, [] => []
  | l, n :: ns => ⟨t, l, n, ns⟩ :: positions t (l ++ [n]) ns

mutual
/-- All elements inside of an element, where they are. -/
def contexts : JNode → List JCtx
  | .mk _ _ _ t cs _ => positions t [] cs ++ contextsList cs
/-- The same for a list of elements. -/
def contextsList : List JNode → List JCtx
  | [] => []
  | n :: ns => contexts n ++ contextsList ns
end

/-- Patterns find ranges that do not end before they start. -/
structure SpansOrdered (env : JatsEnv) : Prop where
  title : ∀ s a b, env.titleSpan s = some (a, b) → a ≤ b
  piiValid : ∀ s a b, env.piiValid s = some (a, b) → a ≤ b
  piiOther : ∀ s a b, env.piiOther s = some (a, b) → a ≤ b
  pmid : ∀ s a b, env.pmid s = some (a, b) → a ≤ b
  pmidFix : ∀ s a b, env.pmidFix s = some (a, b) → a ≤ b
  pmcid : ∀ s a b, env.pmcid s = some (a, b) → a ≤ b
  wos : ∀ s a b, env.wos s = some (a, b) → a ≤ b

/-- Nothing but the text directly inside: no text in or behind elements inside. -/
def leafText (n : JNode) : Bool := (jTexts n.children).isEmpty

/-- No text behind the element. -/
def noTail (n : JNode) : Bool := (n.tail.getD []).isEmpty

/-- Conditions under which a step keeps all text in order.
Changing an annotation to the matching text: the text behind the match must not be moved over
elements inside, and an annotation that is removed must have no tail and no elements inside.
Replacing a DOI by a link: there must be no elements inside.
Splitting links: there must be no elements inside and no tail.
Adding annotations next to a comment: the comment must have no elements inside and no tail. -/
def safeAt (env : JatsEnv) (k : JatsFix) (c : JCtx) : Bool :=
  match k with
  | .title | .doi | .linkText | .pii | .pmid | .pmcid =>
    match c.el.text with
    | none => true
    | some text =>
      match fixFind env k text with
      | .error _ => true
      | .ok none => leafText c.el && noTail c.el
      | .ok (some (_, stop)) => leafText c.el || (text.drop stop).isEmpty
  | .doiLink => leafText c.el
  | .splitLink => decide ((splitUrl (c.el.text.getD [])).length ≤ 1) || (leafText c.el && noTail c.el)
  | .addPmid | .addPmcid | .addWos =>
    c.el.children.all (fun n => n.tag ≠ c!"comment" || (leafText n && noTail n))
  | _ => true

/-- The same for the elements with identity `i`. -/
def safeId (env : JatsEnv) (k : JatsFix) (i : Nat) (n : JNode) : Bool :=
  (contexts n).all (fun c => c.el.id ≠ i || safeAt env k c)

/-- All elements of a step are safe when it is their turn. -/
def safeIds (env : JatsEnv) (k : JatsFix) : List Nat → JNode → Bool
  | [], _ => true
  | i :: is, n => safeId env k i n &&
    match editAt i (fixOp env k (freshId n)) n with
    | .ok (n', false) => safeIds env k is n'
    | _ => true

/-- All steps are safe. -/
def safeRun (env : JatsEnv) : List JatsFix → JNode → Bool
  | [], _ => true
  | k :: ks, n => safeIds env k (fixSelect k n) n &&
    match runFix env k n with
    | .ok n' => safeRun env ks n'
    | .error _ => true

/-- The type of the identifiers a step adds, and the type of the identifiers that keep it from
adding any. -/
def addedType : JatsFix → Option (Str × Option Str)
  | .addPmid => some (c!"pmid", some c!"pmid")
  | .addPmcid => some (c!"pmcid", some c!"pmcid")
  | .addPii => some (c!"pii", some c!"pii")
  | .addPiiOther => some (c!"other", some c!"pii")
  | .addWos => some (c!"other", none)
  | .addDoi => some (c!"doi", some c!"doi")
  | _ => none

end Verif.Spec
