/-
Property C119: names of elements of the shipped configuration.
-/
import Verif.Props.ShippedConfig
import Verif.Spec.ShippedNames

namespace Verif

open Spec

/-- The local name of a step. -/
def localName (inTei : Bool) (step : Str) : Str := (step.drop (teiPrefix inTei).length).takeWhile (· ≠ '[')

theorem localName_step (inTei : Bool) (step : Str) (h : startsWith (teiPrefix inTei) step = true) :
    ∃ rest, (rest.head? = none ∨ rest.head? = some '[') ∧ step = teiPrefix inTei ++ localName inTei step ++ rest := by
  obtain ⟨u, rfl⟩ := (startsWith_prefix _ _).1 h
  have hd : (teiPrefix inTei ++ u).drop (teiPrefix inTei).length = u := by simp
  refine ⟨u.dropWhile (· ≠ '['), ?_, ?_⟩
  · have := List.head?_dropWhile_not (p := fun c => decide (c ≠ '[')) u
    cases hd : (u.dropWhile (fun c => decide (c ≠ '['))).head? with
    | none => exact .inl rfl
    | some c => rw [hd] at this; right; simpa using this
  · unfold localName
    rw [hd, List.append_assoc, List.takeWhile_append_dropWhile]

/-- C119: the elements written are elements of TEI, in its name space for references and affiliations, but for `other`,
`page` and `marker`. -/
theorem C119_tei_elements (t : Tool) : ∀ p ∈ t.paths, ∀ step ∈ tagRequiredPath t.paths (some p.1), ∃ name rest,
    (name ∈ teiElements ∨ name ∈ otherElements) ∧ (rest.head? = none ∨ rest.head? = some '[') ∧
    step = teiPrefix (match t with | .reference _ _ _ => true | .affiliation _ _ => true | _ => false) ++ name ++ rest := by
  have key : ∀ x ∈ [(true, (Tool.reference true true true).paths), (true, (Tool.affiliation true true).paths),
      (false, Tool.header.paths), (false, segmentationMapping), (false, Tool.referenceSegmenter.paths),
      (false, (Tool.fulltext true true true).paths), (false, (Tool.figure true).paths), (false, (Tool.table true).paths)],
      ∀ p ∈ x.2, ∀ step ∈ tagRequiredPath x.2 (some p.1), startsWith (teiPrefix x.1) step = true ∧
        (localName x.1 step ∈ teiElements ∨ localName x.1 step ∈ otherElements) := by
    decide +kernel
  have use : ∀ (b : Bool) (m : Dict Str), (b, m) ∈ [(true, (Tool.reference true true true).paths), (true, (Tool.affiliation true true).paths),
      (false, Tool.header.paths), (false, segmentationMapping), (false, Tool.referenceSegmenter.paths),
      (false, (Tool.fulltext true true true).paths), (false, (Tool.figure true).paths), (false, (Tool.table true).paths)] →
      ∀ p ∈ m, ∀ step ∈ tagRequiredPath m (some p.1), ∃ name rest,
        (name ∈ teiElements ∨ name ∈ otherElements) ∧ (rest.head? = none ∨ rest.head? = some '[') ∧ step = teiPrefix b ++ name ++ rest := by
    intro b m hm p hp step hs
    obtain ⟨h1, h2⟩ := key _ hm p hp step hs
    obtain ⟨rest, h3, h4⟩ := localName_step b step h1
    exact ⟨_, rest, h2, h3, h4⟩
  cases t with
  | reference s i r => exact use true _ (.head _)
  | affiliation s r => exact use true _ (.tail _ (.head _))
  | header => exact use false _ (.tail _ (.tail _ (.head _)))
  | segmentation cfg fields => exact use false _ (.tail _ (.tail _ (.tail _ (.head _))))
  | referenceSegmenter => exact use false _ (.tail _ (.tail _ (.tail _ (.tail _ (.head _)))))
  | fulltext a b c => exact use false _ (.tail _ (.tail _ (.tail _ (.tail _ (.tail _ (.head _))))))
  | figure a => exact use false _ (.tail _ (.tail _ (.tail _ (.tail _ (.tail _ (.tail _ (.head _)))))))
  | table a => exact use false _ (.tail _ (.tail _ (.tail _ (.tail _ (.tail _ (.tail _ (.tail _ (.head _))))))))

/-- C119: each kind of cross references in paragraphs, boxes and items of lists is read from the JATS elements of this
kind, and written to a `ref` of this kind in the element of the paragraph, box or item. -/
theorem C119_cross_references (a b c : Bool) :
    ∀ f ∈ [c!"section_paragraph", c!"boxed_text_paragraph", c!"list_item"], ∀ k ∈ crossReferences,
      shippedOptions.get? (f ++ c!".sub." ++ f ++ c!"-xref-" ++ k.1) = some (c!".//xref[@ref-type=\"" ++ k.2.1 ++ c!"\"]") ∧
      tagRequiredPath (Tool.fulltext a b c).paths (some (f ++ c!"-xref-" ++ k.1)) =
        tagRequiredPath (Tool.fulltext a b c).paths (some f) ++ [c!"ref[@type=\"" ++ k.2.2 ++ c!"\"]"] := by
  cases a <;> cases b <;> cases c <;> decide +kernel

/-- C119: there are no other cross references in the shipped configuration. -/
theorem C119_all_cross_references : ∀ o ∈ shippedOptions, hasSubstring c!"xref" o.1 = true →
    ∃ f ∈ [c!"section_paragraph", c!"boxed_text_paragraph", c!"list_item"], ∃ k ∈ crossReferences,
      o.1 = f ++ c!".sub." ++ f ++ c!"-xref-" ++ k.1 := by
  decide +kernel

example : tagRequiredPath (Tool.reference true true true).paths (some c!"reference-editor") =
    [c!"{http://www.tei-c.org/ns/1.0}bibl", c!"{http://www.tei-c.org/ns/1.0}editor"] := by decide +kernel

end Verif
