/-
References in which there is nothing to fix.
-/
import Verif.Model.JatsFix

namespace Verif.Spec

mutual
/-- An element in which missing texts are empty texts: what the XML written shows of it. -/
def shown : JNode → JNode
  | .mk i g a t cs tl => .mk i g a (some (orEmpty t)) (showns cs) (some (orEmpty tl))
/-- The same for a list of elements. -/
def showns : List JNode → List JNode
  | [] => []
  | n :: ns => shown n :: showns ns
end

/-- The text `p` is before the child `e`, whose siblings before it are `l`, in a parent with the text `t`. -/
def TextBefore (t : Option Str) (l : List JNode) (p : Str) : Prop :=
  l = [] ∧ p = orEmpty t ∨ ∃ l' s, l = l' ++ [s] ∧ p = orEmpty s.tail

/-- The pattern finds the whole text. -/
def WholeText (find : Str → Except Err (Option (Nat × Nat))) (s : Str) : Prop := find s = .ok (some (0, s.length))

/-- The pattern is found in none of the texts of a citation: at its start, behind one of its children, or, with `comments`, in a comment. -/
def NotIn (find : Str → Except Err (Option (Nat × Nat))) (comments : Bool) (e : JNode) : Prop :=
  (orEmpty e.text ≠ [] → find (orEmpty e.text) = .ok none) ∧
  (∀ c ∈ e.children, orEmpty c.tail ≠ [] → find (orEmpty c.tail) = .ok none) ∧
  (comments = true → ∀ c ∈ e.children, c.tag = c!"comment" → orEmpty c.text ≠ [] → find (orEmpty c.text) = .ok none)

/-- Nothing is to be fixed in an element with the text `p` before it. -/
structure CleanElement (env : JatsEnv) (p : Str) (e : JNode) : Prop where
  /-- known types of identifiers are in lower case -/
  type : e.tag = c!"pub-id" → ∀ type, e.attrs.get? c!"pub-id-type" = some type → env.lower type ∈ knownPubIdTypes → env.lower type = type
  /-- a title has no label before it … -/
  label : e.tag = c!"article-title" → env.titleSpan (orEmpty e.text) = none ∨ env.titleSpan (orEmpty e.text) = some (0, (orEmpty e.text).length)
  /-- … does not begin with a quotation mark … -/
  quotes : e.tag = c!"article-title" → ∀ c s, jText e = c :: s → c ∉ ['"', '‘', '“']
  /-- … and does not end with a comma or space -/
  comma : e.tag = c!"article-title" → ∀ c s, jText e = s ++ [c] → c ≠ ',' ∧ c ≠ ' '
  /-- identifiers are what the patterns find, and nothing else -/
  doi : isPubId c!"doi" e = true → WholeText (findDoi env.toJatsTextEnv) (orEmpty e.text)
  pii : isPubId c!"pii" e = true → env.piiValid (orEmpty e.text) = some (0, (orEmpty e.text).length)
  pmid : isPubId c!"pmid" e = true → env.pmidFix (orEmpty e.text) = some (0, (orEmpty e.text).length)
  pmcid : isPubId c!"pmcid" e = true → env.pmcid (orEmpty e.text) = some (0, (orEmpty e.text).length)
  /-- there is no start of a URL before a DOI -/
  url : isPubId c!"doi" e = true → env.doiUrlPrefix p = none
  /-- the text of a link is not several URLs -/
  oneUrl : e.tag = c!"ext-link" → (splitUrl (orEmpty e.text)).length ≤ 1
  /-- links to a DOI end with it -/
  link : e.tag = c!"ext-link" → strIn c!"doi.org" (orEmpty e.text) = true →
    env.doiExtLink (orEmpty e.text) = none ∨ env.doiExtLink (orEmpty e.text) = some (orEmpty e.text).length
  href : e.tag = c!"ext-link" → ∀ h, e.attrs.get? xlinkHref = some h → strIn c!"doi.org" h = true →
    env.doiExtLink h = none ∨ env.doiExtLink h = some h.length

/-- No identifier is in the text of a citation without being annotated, unless there is an annotation for one of the same type. -/
structure NothingToAdd (env : JatsEnv) (n : JNode) : Prop where
  pmid : (∀ e ∈ jAlls n.children, isPubId c!"pmid" e = false) →
    ∀ e ∈ jAlls n.children, e.tag = c!"mixed-citation" → NotIn (fun s => .ok (env.pmid s)) true e
  pmcid : (∀ e ∈ jAlls n.children, isPubId c!"pmcid" e = false) →
    ∀ e ∈ jAlls n.children, e.tag = c!"mixed-citation" → NotIn (fun s => .ok (env.pmcid s)) true e
  pii : (∀ e ∈ jAlls n.children, isPubId c!"pii" e = false) →
    ∀ e ∈ jAlls n.children, e.tag = c!"mixed-citation" → NotIn (fun s => .ok (env.piiValid s)) false e
  piiOther : (∀ e ∈ jAlls n.children, isPubId c!"pii" e = false) →
    ∀ e ∈ jAlls n.children, e.tag = c!"mixed-citation" → NotIn (fun s => .ok (env.piiOther s)) false e
  wos : ∀ e ∈ jAlls n.children, e.tag = c!"mixed-citation" → NotIn (fun s => .ok (env.wos s)) true e
  doi : (∀ e ∈ jAlls n.children, isPubId c!"doi" e = false) →
    ∀ e ∈ jAlls n.children, e.tag = c!"mixed-citation" → NotIn (findDoi env.toJatsTextEnv) false e

/-- There is nothing to fix in a reference. -/
structure CleanReference (env : JatsEnv) (n : JNode) : Prop where
  ids : ((jAll n).map (·.id)).Nodup
  elements : ∀ m ∈ jAll n, ∀ l e r p, m.children = l ++ e :: r → TextBefore m.text l p → CleanElement env p e
  add : NothingToAdd env n

end Verif.Spec
