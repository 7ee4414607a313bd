/-
C132 for the defaults of the options, with the shipped configuration.
-/
import Verif.Props.CommandLine
import Verif.Props.ShippedConfig

namespace Verif
open Spec

/-- The default of the options for fields and sub fields, and the paths of the labels, are those of the tool. -/
theorem cliTool_defaults {env : CliEnv} {c : CliTool} {t : Tool} (h : c.tool env = .ok t) :
    c.defaultFields = t.defaultFields ∧ (c.defaultSubFields).getD [] = t.defaultSubFields ∧ c.basePaths asciiClass = t.paths := by
  cases c with
  | segmentation config noMerge noPreserve =>
    unfold CliTool.tool at h
    simp only at h
    split at h
    · cases h
    · cases h
      exact ⟨rfl, rfl, rfl⟩
  | header => cases h; exact ⟨rfl, rfl, rfl⟩
  | referenceSegmenter => cases h; exact ⟨rfl, rfl, rfl⟩
  | fulltext a b c => cases h; exact ⟨rfl, rfl, rfl⟩
  | figure a => cases h; exact ⟨rfl, rfl, rfl⟩
  | table a => cases h; exact ⟨rfl, rfl, rfl⟩
  | reference a b c => cases h; exact ⟨rfl, rfl, rfl⟩
  | affiliation a b => cases h; exact ⟨rfl, rfl, rfl⟩

/-- The tools with the option `--sub-fields`. -/
def Spec.hasSubFieldsOption : CliTool → Bool
  | .fulltext _ _ _ => true
  | .figure _ => true
  | .table _ => true
  | .affiliation _ _ => true
  | _ => false

/-- **C132.** Which tools use the option for sub fields: for these, the sub fields listed are selected, also for tools
whose default is to select all of them; the other tools select all whatever is given. -/
theorem C132_sub_fields (cc : CharClass) (hcc : PlainNames cc) (c : CliTool) (s : Option Str) (sel : List Str)
    (h : c.subFields cc s = .ok sel) :
    (Spec.hasSubFieldsOption c = false → sel = []) ∧
    (Spec.hasSubFieldsOption c = true → ∃ dflt, Selected cc dflt s sel ∧
      (dflt = [] ∨ ∃ a b n, c = .fulltext a b n ∧ dflt = fulltextMapping.map (·.1))) := by
  rcases subFields_selected hcc h with ⟨hn, rfl⟩ | ⟨dflt, hd, hsel⟩
  · refine ⟨fun _ => rfl, fun ho => ?_⟩
    cases c <;> first | (cases ho; done) | (cases hn; done)
  · refine ⟨fun ho => ?_, fun _ => ⟨dflt, hsel, ?_⟩⟩
    · cases c <;> first | (cases ho; done) | (cases hd; done)
    · cases c <;> first | exact .inr ⟨_, _, _, rfl, (Option.some.inj hd).symm⟩ | exact .inl (Option.some.inj hd).symm | cases hd

/-- With the tool for figures a list of sub fields is what is selected; the tool for headers has no such option. -/
example : (CliTool.figure true).subFields asciiClass (some c!"figure-label,figure-title") = .ok [c!"figure-label", c!"figure-title"] ∧
    CliTool.header.subFields asciiClass (some c!"figure-label,figure-title") = .ok [] := by
  constructor <;> rfl

/-- **C132.** Without the option for fields, each of the fields selected is configured in the shipped mapping and is
written to an element of the tool, or, for segmentation, belongs to exactly one segment of the shipped configuration. -/
theorem C132_defaults (env : CliEnv) (c : CliTool) (t : Tool) (h : c.tool env = .ok t) (f : Str) (hf : f ∈ c.defaultFields) :
    Configured shippedOptions f ∧
    ((∀ cfg fields, t ≠ .segmentation cfg fields) → ((c.basePaths asciiClass).get? f).isSome = true) ∧
    (∀ cfg fields, t = .segmentation cfg fields →
      (shippedSegmentation.mapping.filter (fun p => p.2.contains f)).length = 1) := by
  obtain ⟨h1, _, h3⟩ := cliTool_defaults h
  rw [h1] at hf
  refine ⟨C119_fields t f hf, fun hs => by rw [h3]; exact C119_elements t hs f hf, fun cfg fields e => ?_⟩
  subst e
  exact C119_segments f hf

/-- **C132.** Conversely, without the option for fields: the tools for a part of the document select the field of this
part only, and the tool for segmentation all fields of the segments which are for text of the article. -/
theorem C132_defaults_all (c : CliTool) :
    (c = .referenceSegmenter → c.defaultFields = [c!"reference"]) ∧
    (∀ s i r, c = .reference s i r → c.defaultFields = [c!"reference"]) ∧
    (∀ s r, c = .affiliation s r → c.defaultFields = [c!"author_aff"]) ∧
    (∀ s, c = .figure s → c.defaultFields = [c!"figure"]) ∧
    (∀ s, c = .table s → c.defaultFields = [c!"table"]) ∧
    (∀ p q r, c = .segmentation p q r → ∀ seg ∈ shippedSegmentation.mapping,
      seg.1 ∈ [c!"front", c!"body", c!"acknowledgment", c!"annex", c!"reference"] →
      ∀ f ∈ seg.2, f ∈ c.defaultFields ∨ f = c!"figure" ∨ f = c!"table") := by
  refine ⟨?_, ?_, ?_, ?_, ?_, ?_⟩
  · rintro rfl; rfl
  · rintro s i r rfl; rfl
  · rintro s r rfl; rfl
  · rintro s rfl; rfl
  · rintro s rfl; rfl
  · rintro p q r rfl
    exact (by decide +kernel : ∀ seg ∈ shippedSegmentation.mapping,
      seg.1 ∈ [c!"front", c!"body", c!"acknowledgment", c!"annex", c!"reference"] →
      ∀ f ∈ seg.2, f ∈ segmentationFields ∨ f = c!"figure" ∨ f = c!"table")

/-- **C132.** The tool for segmentation uses the segments of its configuration file, merges references unless
`--no-merge-references` is given, and keeps all labels of the source file but those of `--no-preserve-fields`. -/
theorem C132_segmentation (env : CliEnv) (c : CliArgs) (o : RunOpts) (ho : c.options env = .ok o) (config : List Str) (noMerge : Bool)
    (noPreserve : Option Str) (ht : c.tool = .segmentation config noMerge noPreserve) :
    ∃ seg cfg, parseSegConfig env.tag.cc env.tag.lower env.tag.parseInt env.parseList config = .ok seg ∧
      o.tool = .segmentation cfg (listOption env.tag.cc noPreserve) ∧ cfg.mapping = seg.mapping ∧
      cfg.frontMaxStartLineIndex = seg.frontMaxStartLineIndex ∧ cfg.pageHeaderMaxFirstLineIndex = seg.pageHeaderMaxFirstLineIndex ∧
      (cfg.noMergeReferences = true ↔ noMerge = true ∨ seg.noMergeReferences = true) := by
  obtain ⟨h, _⟩ := options_args ho
  rw [ht] at h
  unfold CliTool.tool at h
  simp only at h
  split at h
  · cases h
  · next seg hseg =>
    refine ⟨seg, _, hseg, (Except.ok.inj h).symm, ?_⟩
    cases noMerge <;> simp

/-- **C132.** With `--no-merge-references`, text has the label `reference` only if this is one of the segments of the
configuration, or a field selected, or was in the source file and is to be kept. -/
theorem C132_no_merge (env : CliEnv) (hcc : PlainNames env.tag.cc) (c : CliArgs) (o : RunOpts) (ho : c.options env = .ok o)
    (config : List Str) (noPreserve : Option Str) (ht : c.tool = .segmentation config true noPreserve)
    (renv : RunEnv) (cfg : PipelineConfig) (fs : FileStore) (u p : Str) (x : Elem) (hxml : o.xmlPath ≠ [])
    (h : annotateFile renv o cfg fs u = .ok (some (p, x))) :
    ∃ (seg : SegConfig) (sel : List Str) (root : Elem) (d0 d' : Doc),
      parseSegConfig env.tag.cc env.tag.lower env.tag.parseInt env.parseList config = .ok seg ∧
      Selected env.tag.cc c.tool.defaultFields c.fields sel ∧ SourceRoot renv o fs u root ∧
      loadDoc { o.doc with preserveTags := true } root = .ok d0 ∧ docRoot o.doc root d' = .ok x ∧
      ∀ i, tagValue (d'.getTagOrPreserved i) = some c!"reference" →
        oneOf (seg.mapping.map (·.1)) c!"reference" ∨ (∃ f, (sel = [] ∨ f ∈ sel) ∧ oneOf [f] c!"reference") ∨
        ∃ j ∈ d0.allTokens, tagValue (d0.getPreservedTag j) = some c!"reference" ∧ keptLabel o.args o.tool c!"reference" := by
  obtain ⟨seg, scfg, g1, g2, g3, _, _, g4⟩ := C132_segmentation env c o ho config true noPreserve ht
  obtain ⟨sel, _, _, _, _, root, d0, d', h1, _, _, _, hsrc, _, h2, h3, hall⟩ := C132_labels env hcc c o ho renv cfg fs u p x hxml h
  refine ⟨seg, sel, root, d0, d', g1, h1, hsrc, h2, h3, fun i hi => ?_⟩
  rcases (hall i _ (by decide)).1 hi with ⟨n, hn, e⟩ | ⟨_, f, hf, e⟩ | h
  · rw [g2] at hn
    unfold fixedLabels at hn
    simp only [List.mem_append] at hn
    have hne : ∀ m ∈ [c!"line_no", c!"front", c!"page", c!"headnote", c!"annex", c!"body"],
        ¬ (c!"reference" = m ∨ tagValue (some m) = some c!"reference") := by decide +kernel
    rcases hn with (((hn | hn) | hn) | hn) | hn
    · split at hn
      · rw [List.mem_singleton] at hn
        exact absurd (hn ▸ e) (hne _ (by decide))
      · cases hn
    · exact .inl ⟨n, by rw [← g3]; exact hn, e⟩
    · exact absurd e (hne n (by simp only [List.mem_cons, List.not_mem_nil, or_false] at hn ⊢; rcases hn with h | h | h | h <;> simp [h]))
    · rw [if_pos (g4.2 (.inl rfl))] at hn
      cases hn
    · split at hn
      · rw [List.mem_singleton] at hn
        exact absurd (hn ▸ e) (hne _ (by decide))
      · cases hn
  · exact .inr (.inl ⟨f, hf.2.2, e⟩)
  · exact .inr (.inr h)

example : (CliTool.figure true).tool exCliEnv = .ok (.figure true) ∧ c!"figure" ∈ (CliTool.figure true).defaultFields ∧
    c!"reference" ∈ (CliTool.segmentation [] true none).defaultFields := ⟨rfl, by decide, by decide⟩

end Verif
