/-
C146: the elements of the sub fields of the tools.
-/
import Verif.Props.SubReadBack
import Verif.Props.ShippedConfig

namespace Verif
open Spec

/-- **C146.** The elements of the sub fields which the tools for figures, tables and affiliations annotate by default lie below those of
their fields, and no other sub field has them: the values of all of them can be read back. -/
theorem C146_sub_elements (t : Tool) (h : (∃ s, t = .figure s) ∨ (∃ s, t = .table s) ∨ ∃ s r, t = .affiliation s r) :
    ∀ p ∈ t.defaultSubs, SubElement t.paths p.1 p.2 := by
  unfold SubElement
  rcases h with ⟨s, rfl⟩ | ⟨s, rfl⟩ | ⟨s, r, rfl⟩
  · cases s <;> decide +kernel
  · cases s <;> decide +kernel
  · cases s <;> cases r <;> decide +kernel

/-- **C146.** The same for references, but for "et al", which has no element, and for the first and the last page, which are renamed. -/
theorem C146_sub_elements_references (s i r : Bool) :
    ∀ p ∈ (Tool.reference s i r).defaultSubs, SubElement (Tool.reference s i r).paths p.1 p.2 ∨
      p.2 = c!"reference-etal" ∨ p.2 = c!"reference-fpage" ∨ p.2 = c!"reference-lpage" := by
  unfold SubElement
  cases s <;> cases i <;> cases r <;> decide +kernel

/-- There are such sub fields. -/
example : (c!"figure", c!"figure-caption") ∈ (Tool.figure true).defaultSubs := by decide +kernel

end Verif
