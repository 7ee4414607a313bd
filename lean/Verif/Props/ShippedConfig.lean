/-
C119: The shipped configuration fits the tools.
-/
import Verif.Lemmas.Ok
import Verif.Lemmas.JatsDoc
import Verif.Model.ShippedConfig
import Verif.Model.FieldLists
import Verif.Props.ConfigFile
import Verif.Spec.ShippedConfig

namespace Verif
open Spec

/-- C119: the shipped mapping is a valid file with the single section `article`. -/
theorem C119_mapping : parseXmlMapping asciiClass asciiLower xmlMappingConfLines = .ok [(c!"article", shippedOptions)] := by
  have h : (parseXmlMapping asciiClass asciiLower xmlMappingConfLines).toOption = some [(c!"article", shippedOptions)] := by decide +kernel
  cases hp : parseXmlMapping asciiClass asciiLower xmlMappingConfLines with
  | error e => rw [hp] at h; cases h
  | ok m =>
    rw [hp] at h
    exact congrArg _ (Option.some.inj h)

deriving instance DecidableEq for SegConfig

/-- The shipped configuration of the segmentation. -/
def shippedSegmentation : SegConfig := { mapping := shippedSegments }

/-- C119: the shipped configuration of the segmentation is valid. -/
theorem C119_segmentation_valid :
    parseSegConfig asciiClass asciiLower (fun _ => none) (fun s => (splitOn ',' s).map (strip asciiClass)) segmentationConfLines =
      .ok shippedSegmentation := by
  have h : (parseSegConfig asciiClass asciiLower (fun _ => none) (fun s => (splitOn ',' s).map (strip asciiClass)) segmentationConfLines).toOption =
      some shippedSegmentation := by decide +kernel
  cases hp : parseSegConfig asciiClass asciiLower (fun _ => none) (fun s => (splitOn ',' s).map (strip asciiClass)) segmentationConfLines with
  | error e => rw [hp] at h; cases h
  | ok m =>
    rw [hp] at h
    exact congrArg _ (Option.some.inj h)

instance (options : Dict Str) (field : Str) : Decidable (Configured options field) :=
  match h : options.get? field with
  | none => isFalse (fun ⟨_, _, hc⟩ => by rw [h] at hc; cases hc)
  | some [] => isFalse (fun ⟨_, _, hc⟩ => by rw [h] at hc; cases hc)
  | some (c :: s) => isTrue ⟨c, s, h⟩

theorem inside_iff (outer inner : List Str) : Inside outer inner ↔ outer <+: inner ∧ outer.length < inner.length := by
  constructor
  · rintro ⟨s, r, rfl⟩
    exact ⟨⟨_, rfl⟩, by simp⟩
  · rintro ⟨⟨r, rfl⟩, h⟩
    cases r with
    | nil => simp at h
    | cons s r => exact ⟨s, r, rfl⟩

instance (outer inner : List Str) : Decidable (Inside outer inner) := decidable_of_iff _ (inside_iff outer inner).symm

/-- C119: every field a tool annotates by default is configured. -/
theorem C119_fields (t : Tool) : ∀ f ∈ t.defaultFields, Configured shippedOptions f := by
  cases t with
  | header => exact (by decide +kernel : ∀ f ∈ Tool.header.defaultFields, Configured shippedOptions f)
  | segmentation cfg fields => exact (by decide +kernel : ∀ f ∈ segmentationDefaultFields, Configured shippedOptions f)
  | referenceSegmenter => exact (by decide +kernel : ∀ f ∈ Tool.referenceSegmenter.defaultFields, Configured shippedOptions f)
  | reference a b c => exact (by decide +kernel : ∀ f ∈ (Tool.reference true true true).defaultFields, Configured shippedOptions f)
  | affiliation a b => exact (by decide +kernel : ∀ f ∈ (Tool.affiliation true true).defaultFields, Configured shippedOptions f)
  | fulltext a b c => exact (by decide +kernel : ∀ f ∈ fulltextDefaultFields, Configured shippedOptions f)
  | figure a => exact (by decide +kernel : ∀ f ∈ (Tool.figure true).defaultFields, Configured shippedOptions f)
  | table a => exact (by decide +kernel : ∀ f ∈ (Tool.table true).defaultFields, Configured shippedOptions f)

/-- C119: except for the segmentation, every field a tool annotates by default has its own element. -/
theorem C119_elements (t : Tool) (h : ∀ cfg fields, t ≠ .segmentation cfg fields) : ∀ f ∈ t.defaultFields, (t.paths.get? f).isSome = true := by
  cases t with
  | segmentation cfg fields => exact absurd rfl (h cfg fields)
  | header => decide +kernel
  | referenceSegmenter => decide +kernel
  | reference a b c => cases a <;> cases b <;> cases c <;> decide +kernel
  | affiliation a b => cases a <;> cases b <;> decide +kernel
  | fulltext a b c => cases a <;> cases b <;> cases c <;> decide +kernel
  | figure a => cases a <;> decide +kernel
  | table a => cases a <;> decide +kernel

/-- The sub fields a tool annotates by default, with their field. -/
def Tool.defaultSubs (t : Tool) : List (Str × Str) :=
  ((mappingAndFields [(c!"article", shippedOptions)] t.defaultFields t.defaultSubFields []).1.getD c!"article" []).filterMap
    (fun o => (subFieldForKey o.1).map (fun s => (mappingKeyFieldName o.1, s)))

/-- C119: the elements of the sub fields of the tools for the full text, figures, tables and affiliations are inside the
element of the field. -/
theorem C119_sub_elements (t : Tool) (h : (∃ a b c, t = .fulltext a b c) ∨ (∃ s, t = .figure s) ∨ (∃ s, t = .table s) ∨ ∃ s r, t = .affiliation s r) :
    ∀ p ∈ t.defaultSubs, (t.paths.get? p.2).isSome = true ∧ Inside (tagRequiredPath t.paths (some p.1)) (tagRequiredPath t.paths (some p.2)) := by
  rcases h with ⟨a, b, c, rfl⟩ | ⟨s, rfl⟩ | ⟨s, rfl⟩ | ⟨s, r, rfl⟩
  · cases a <;> cases b <;> cases c <;> decide +kernel
  · cases s <;> decide +kernel
  · cases s <;> decide +kernel
  · cases s <;> cases r <;> decide +kernel

/-- C119: the same for references, once the pages are merged; `et al.` is no element of its own but becomes part of the
authors or editors. -/
theorem C119_sub_elements_reference (s i r : Bool) :
    ∀ p ∈ (Tool.reference s i r).defaultSubs, p.2 = (referenceCfg i).etal ∨
      ((Tool.reference s i r).paths.get? ((referenceCfg i).subTagMap.getD p.2 p.2)).isSome = true ∧
      Inside (tagRequiredPath (Tool.reference s i r).paths (some p.1))
        (tagRequiredPath (Tool.reference s i r).paths (some ((referenceCfg i).subTagMap.getD p.2 p.2))) := by
  cases i <;> cases s <;> cases r <;> decide +kernel

/-- C119: of the sub fields of references the segmenter writes the label only; the others are outside the element of the
reference, which is why the writer ignores them. -/
theorem C119_sub_elements_segmenter :
    ∀ p ∈ Tool.referenceSegmenter.defaultSubs,
      Inside (tagRequiredPath Tool.referenceSegmenter.paths (some p.1)) (tagRequiredPath Tool.referenceSegmenter.paths (some p.2)) ↔
        p.2 = c!"reference-label" := by
  decide +kernel

/-- The sub fields of the shipped mapping, with their field. -/
def shippedSubs : List (Str × Str) :=
  shippedOptions.filterMap (fun o => (subFieldForKey o.1).map (fun s => (mappingKeyFieldName o.1, s)))

/-- C119: the tool for the full text annotates those sub fields of its fields that have an element; the other tools
annotate all sub fields of their fields. -/
theorem C119_sub_fields (t : Tool) :
    ∀ p ∈ shippedSubs, p ∈ t.defaultSubs ↔
      (t.defaultFields = [] ∨ p.1 ∈ t.defaultFields) ∧ ((∃ a b c, t = .fulltext a b c) → (t.paths.get? p.2).isSome = true) := by
  cases t with
  | segmentation cfg fields =>
    simp only [reduceCtorEq, exists_false, false_implies, and_true]
    exact (by decide +kernel : ∀ p ∈ shippedSubs, p ∈ (Tool.segmentation shippedSegmentation []).defaultSubs ↔
      (segmentationDefaultFields = [] ∨ p.1 ∈ segmentationDefaultFields))
  | header => simp only [reduceCtorEq, exists_false, false_implies, and_true]; decide +kernel
  | referenceSegmenter => simp only [reduceCtorEq, exists_false, false_implies, and_true]; decide +kernel
  | reference a b c => simp only [reduceCtorEq, exists_false, false_implies, and_true]; cases a <;> cases b <;> cases c <;> decide +kernel
  | affiliation a b => simp only [reduceCtorEq, exists_false, false_implies, and_true]; cases a <;> cases b <;> decide +kernel
  | fulltext a b c =>
    have : (∃ a' b' c', Tool.fulltext a b c = .fulltext a' b' c') := ⟨_, _, _, rfl⟩
    simp only [this, true_implies]
    cases a <;> cases b <;> cases c <;> decide +kernel
  | figure a => simp only [reduceCtorEq, exists_false, false_implies, and_true]; cases a <;> decide +kernel
  | table a => simp only [reduceCtorEq, exists_false, false_implies, and_true]; cases a <;> decide +kernel

theorem distinctPaths :
    (headerMapping.map (fun p => tagRequiredPath headerMapping (some p.1))).Nodup ∧
    ((segmentationMapping.drop 1).map (fun p => tagRequiredPath segmentationMapping (some p.1))).Nodup ∧
    (referenceSegmenterMapping.map (fun p => tagRequiredPath referenceSegmenterMapping (some p.1))).Nodup ∧
    ((resolveMapping asciiClass teiNsMap referenceMapping).map (fun p => tagRequiredPath (resolveMapping asciiClass teiNsMap referenceMapping) (some p.1))).Nodup ∧
    ((resolveMapping asciiClass teiNsMap affiliationMapping).map (fun p => tagRequiredPath (resolveMapping asciiClass teiNsMap affiliationMapping) (some p.1))).Nodup ∧
    (fulltextMapping.map (fun p => tagRequiredPath fulltextMapping (some p.1))).Nodup ∧
    ((resolveMapping asciiClass teiNsMap figureMapping).map (fun p => tagRequiredPath (resolveMapping asciiClass teiNsMap figureMapping) (some p.1))).Nodup ∧
    ((resolveMapping asciiClass teiNsMap tableMapping).map (fun p => tagRequiredPath (resolveMapping asciiClass teiNsMap tableMapping) (some p.1))).Nodup := by
  decide +kernel

/-- C119: different tags are written to different elements; the segmentation writes untagged text to the body. -/
theorem C119_distinct (t : Tool) : ((t.paths.drop 1).map (fun p => tagRequiredPath t.paths (some p.1))).Nodup ∧
    ((∀ cfg fields, t ≠ .segmentation cfg fields) → (t.paths.map (fun p => tagRequiredPath t.paths (some p.1))).Nodup) := by
  obtain ⟨h1, h2, h3, h4, h5, h6, h7, h8⟩ := distinctPaths
  have hd : ∀ m : Dict Str, (m.map (fun p => tagRequiredPath m (some p.1))).Nodup → ((m.drop 1).map (fun p => tagRequiredPath m (some p.1))).Nodup :=
    fun m h => h.sublist ((List.drop_sublist 1 m).map _)
  cases t with
  | segmentation cfg fields => exact ⟨h2, fun h => absurd rfl (h cfg fields)⟩
  | header => exact ⟨hd _ h1, fun _ => h1⟩
  | referenceSegmenter => exact ⟨hd _ h3, fun _ => h3⟩
  | reference a b c => exact ⟨hd _ h4, fun _ => h4⟩
  | affiliation a b => exact ⟨hd _ h5, fun _ => h5⟩
  | fulltext a b c => exact ⟨hd _ h6, fun _ => h6⟩
  | figure a => exact ⟨hd _ h7, fun _ => h7⟩
  | table a => exact ⟨hd _ h8, fun _ => h8⟩

/-- C119: the header tool annotates all fields by default; each has its own element. -/
theorem C119_header_distinct :
    ((addFieldPaths headerMapping (mappingAndFields [(c!"article", shippedOptions)] [] [] []).2).map (·.2)).Nodup := by
  decide +kernel

/-- C119: the element a default field of the segmentation is written to. -/
theorem C119_segmentation :
    let path (f : Str) := tagRequiredPath segmentationMapping ((segTagByName shippedSegmentation).get? f)
    (∀ f ∈ [c!"title", c!"abstract", c!"keywords_title", c!"keywords", c!"manuscript_type", c!"author", c!"author_aff", c!"author_notes"],
      path f = [c!"front"]) ∧
    (∀ f ∈ [c!"body_section_title", c!"body_section_paragraph", c!"body_figure", c!"body_table"], path f = [c!"body"]) ∧
    (∀ f ∈ [c!"back_section_title", c!"back_section_paragraph", c!"back_figure", c!"back_table", c!"appendix_group_title", c!"appendix"],
      path f = [c!"div[@type=\"annex\"]"]) ∧
    (∀ f ∈ [c!"acknowledgment_section_title", c!"acknowledgment_section_paragraph"], path f = [c!"div[@type=\"acknowledgment\"]"]) ∧
    (∀ f ∈ [c!"reference_list_title", c!"reference"], path f = [c!"listBibl"]) ∧
    path c!"page_no" = [c!"page"] ∧ path c!"line_no" = [c!"note[@type=\"line_no\"]"] := by
  decide +kernel

/-- C119: each default field of the segmentation belongs to one segment. -/
theorem C119_segments : ∀ f ∈ segmentationDefaultFields,
    (shippedSegmentation.mapping.filter (fun p => p.2.contains f)).length = 1 := by
  decide +kernel

/-- C119 fails for the tag `listBibl`: as names of options are in lower case, the shipped line `listBibl = listBibl` makes
the segment `listbibl`, which is written to an element of that name. -/
theorem C119_list_bibl : c!"listBibl = listBibl" ∈ segmentationConfLines ∧
    (segTagByName shippedSegmentation).get? c!"listBibl" = some c!"listbibl" ∧
    tagRequiredPath segmentationMapping (some c!"listbibl") = [c!"listbibl"] := by
  decide +kernel

/-- C119: prefixes are looked for in front of all identifiers and nothing else. -/
theorem C119_identifiers : ∀ p ∈ (resolveMapping asciiClass teiNsMap referenceMapping),
    p.1 ∈ idnoSubTags ↔ ∃ a ∈ [c!"ISSN", c!"ISBN", c!"DOI", c!"PII", c!"PMID", c!"PMC", c!"arxiv"],
      p.2 = c!"{http://www.tei-c.org/ns/1.0}bibl/{http://www.tei-c.org/ns/1.0}idno[@type=\"" ++ a ++ c!"\"]" := by
  decide +kernel

theorem hasSubstring_iff (needle s : Str) : hasSubstring needle s = true ↔ needle <:+: s := by
  induction s with
  | nil => simp [hasSubstring, List.infix_nil]
  | cons c s ih =>
    rw [hasSubstring, Bool.or_eq_true, ih, startsWith_prefix, List.infix_cons_iff]

/-- C119: the parts of an address are the sub tags with `address` in their name. -/
theorem C119_address (subTag : Str) : (addressGroup subTag = some c!"author_aff-address" ↔ c!"address" <:+: subTag) ∧
    (addressGroup subTag = none ↔ ¬ c!"address" <:+: subTag) := by
  unfold addressGroup
  rw [← hasSubstring_iff]
  split <;> simp_all

/-- C119: these are just the sub tags whose element is inside the address. -/
theorem C119_address_elements :
    let paths := resolveMapping asciiClass teiNsMap affiliationMapping
    ∀ p ∈ paths, (c!"address" <:+: p.1) ↔ p.1 = c!"author_aff-address" ∨
      Inside (tagRequiredPath paths (some c!"author_aff-address")) (tagRequiredPath paths (some p.1)) := by
  simp only [← hasSubstring_iff]
  decide +kernel

/-! ### Examples -/

/-- Not all sub fields of its fields are annotated by the tool for the full text. -/
example : (shippedSubs.filter (fun p => p.1 ∈ fulltextDefaultFields)).length = 22 ∧
    (Tool.fulltext false false false).defaultSubs.length = 18 := by decide +kernel

example : shippedOptions.length = 146 ∧ shippedOptions.get? c!"title" = some c!"front/article-meta/title-group/article-title" := by decide +kernel

example : (Tool.figure false).defaultSubs = [(c!"figure", c!"figure-label"), (c!"figure", c!"figure-caption")] ∧
    (Tool.reference false false false).defaultSubs.length = 21 ∧ (Tool.fulltext false false false).defaultSubs.length = 18 := by decide +kernel

example : addressGroup c!"author_aff-address-city" = some c!"author_aff-address" ∧ addressGroup c!"author_aff-label" = none := by decide +kernel

end Verif
