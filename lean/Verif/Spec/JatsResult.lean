/-
Specification vocabulary for what a fixed reference contains.
-/
import Verif.Spec.JatsFix
import Verif.Spec.JatsText

namespace Verif.Spec

/-- The types of identifiers JATS knows. -/
def jatsIdTypes : List Str :=
  [c!"accession", c!"archive", c!"ark", c!"art-access-id", c!"arxiv", c!"coden", c!"doaj", c!"doi", c!"handle", c!"index", c!"isbn",
    c!"manuscript", c!"medline", c!"mr", c!"other", c!"pii", c!"pmcid", c!"pmid", c!"publisher-id", c!"sici", c!"std-designation", c!"zbl"]

/-- Facts about converting to lower case. -/
structure Lowercase (lower : Str → Str) : Prop where
  twice : ∀ s, lower (lower s) = lower s
  empty : lower [] = []
  added : ∀ s ∈ [c!"doi", c!"pmid", c!"pmcid", c!"pii", c!"other"], lower s = s

/-- Elements differ, the reference itself is no identifier and identifiers contain text only. -/
structure PlainReference (n : JNode) : Prop where
  ids : ((jAll n).map (·.id)).Nodup
  root : n.tag ≠ c!"pub-id"
  leaf : ∀ e ∈ jAll n, e.tag = c!"pub-id" → e.children = []

/-- The pattern for identifiers of a type finds the range in the text. -/
def IdFound (env : JatsEnv) (type x : Str) (a b : Nat) : Prop :=
  type = c!"doi" ∧ findDoi env.toJatsTextEnv x = .ok (some (a, b)) ∨
  type = c!"pmid" ∧ (env.pmidFix x = some (a, b) ∨ env.pmid x = some (a, b)) ∨
  type = c!"pmcid" ∧ env.pmcid x = some (a, b) ∨
  type = c!"pii" ∧ env.piiValid x = some (a, b)

end Verif.Spec
