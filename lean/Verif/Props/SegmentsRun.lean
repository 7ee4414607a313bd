/-
C142: from the command line of the segmentation and the files to the segments read back.
-/
import Verif.Props.SegmentsBack
import Verif.Props.EndToEnd

namespace Verif
open Spec

namespace Spec

/-- What is read back after the segmentation of a source file, with the document `before`, from the file written, with the
document `after_`: the same text, all of it with labels of segments; and each line, most of which is at the place of a
value, has the label of its segment, unless its text is there more than twice, or it belongs to the front and is behind
the threshold. -/
def SegmentsReadBack (env : RunEnv) (o : RunOpts) (scfg : SegConfig) (items : List TargetItem) (before after_ : Doc) : Prop :=
  (∀ x ∈ labelledText o.doc.cc after_, ∃ s, x.2 = some s ∧ SegmentLabel scfg (items.map (·.target.name)) s) ∧
  (labelledText o.doc.cc after_).map Prod.fst = (labelledText o.doc.cc before).map Prod.fst ∧
  let d := beforeAnnotator (o.tool.annotateCfg o.args) before
  ∀ ps, items.map (·.target) = ps.map Prod.fst → PlacedInTurn env.tool.simple (simpleCfg o.args false false true) d [] ps →
    ∀ p ∈ ps, ∀ s, labelOf scfg p.1.name = some s → ∀ l ∈ segLines d, MostlyIn l p.2 → SeldomText (segLines d) l →
      (s = c!"front" → scfg.frontMaxStartLineIndex = 0 ∨ (l.index : Int) ≤ scfg.frontMaxStartLineIndex) →
      lineAs o.doc.cc d l s <:+: labelledText o.doc.cc after_

/-- What is written for the source file `u` can be loaded, and the segments for the values of its target file can be read
back from it. -/
def RunSegmentsBack (env : RunEnv) (o : RunOpts) (scfg : SegConfig) (fs : FileStore) (u : Str) (written : Elem) : Prop :=
  ∃ (data final path tdata tag : Str) (troot : XNode) (items : List TargetItem) (root : Elem) (d0 : Doc),
    fs u = some data ∧ finalSource env o.tool data = .ok final ∧ env.parseSource final = .ok root ∧
    targetXml env.reSub o.xmlPath o.xmlRegex u = .ok path ∧ fs path = some tdata ∧ env.parseTarget tdata = .ok (tag, troot) ∧
    xmlRootToTargetAnnotations (env.target troot) o.xmlMapping tag troot = .ok items ∧
    loadDoc { o.doc with preserveTags := true } root = .ok d0 ∧
    ((findAll o.doc.containerPath root).length = 1 →
      ∃ d'', loadDoc { o.doc with preserveTags := true } written = .ok d'' ∧ SegmentsReadBack env o scfg items d0 d'')

end Spec

/-- **C142** for a run over files: the fields of the target annotations are default fields, and the segments are those of
the shipped configuration. -/
theorem C142_run (env : RunEnv) (o : RunOpts) (cfg : PipelineConfig) (fs : FileStore) (u p : Str) (x : Elem)
    (scfg : SegConfig) (np : List Str) (hxml : o.xmlPath ≠ [])
    (hmap : o.doc.mapping = segmentationMapping) (htool : o.tool = .segmentation scfg np)
    (hseg : scfg.mapping = shippedSegments) (hnm : scfg.noMergeReferences = false)
    (hn : ∀ section_ ∈ o.xmlMapping, ∀ e ∈ section_.2, '.' ∉ e.1 → e.1 ∈ segmentationDefaultFields)
    (hsm : o.args.simpleMatcher = true) (hln : o.args.useLineNumbers = false)
    (hk : Spec.keepsNothing o.args o.tool)
    (he : ExactEnv env.tool.simple (simpleCfg o.args false false true)) (henv : env.tool.seg.isDigit '\n' = false)
    (h : annotateFile env o cfg fs u = .ok (some (p, x))) : RunSegmentsBack env o scfg fs u x := by
  obtain ⟨data, final, path, items, root, a, passes, f1, f2, f3, f4, _, ⟨tdata, tag, troot, f5, f6, f7⟩, hrun, hx, htar, _, _, hargs⟩ :=
    C130_document env o cfg fs u p x hxml h
  have hnames : ∀ n ∈ a.targets.map (·.name), n ∈ segmentationDefaultFields := by
    intro n hm
    obtain ⟨y, hy, rfl⟩ := List.mem_map.1 hm
    rw [htar] at hy
    obtain ⟨i, hi, rfl⟩ := List.mem_map.1 hy
    rw [← mappingAndFields_all o.xmlMapping] at f7
    obtain ⟨⟨h1, ⟨d, hd, h2⟩, _⟩, _⟩ := targets_annotatable f7 i hi
    rcases h2 with ⟨v, hv⟩ | ⟨v, hv⟩
    · exact hn _ (mem_of_get? hd) _ hv h1
    · cases hv
  have hk' : Spec.keepsNothing a o.tool := by
    rw [← hargs] at hk
    exact hk
  obtain ⟨d0, d', h0, _⟩ := run_steps hrun
  refine ⟨data, final, path, tdata, tag, troot, items, root, d0, f1, f2, f3, f4, f5, f6, f7, h0, fun hlen => ?_⟩
  obtain ⟨c, hc⟩ := List.length_eq_one_iff.1 hlen
  have hcfg : simpleCfg o.args false false true = simpleCfg a false false true := by rw [← hargs]; rfl
  have hann : o.tool.annotateCfg o.args = o.tool.annotateCfg a := by rw [← hargs]; rfl
  have hsm' : a.simpleMatcher = true := by rw [← hargs] at hsm; exact hsm
  have hln' : a.useLineNumbers = false := by rw [← hargs] at hln; exact hln
  obtain ⟨s1, s2, s3⟩ := C142_shipped scfg hseg hnm _ hnames []
  have hin : (segmentationMapping, [some c!"front", some c!"body", some c!"headnote", some c!"acknowledgment", some c!"annex", some c!"page",
     some c!"line_no", some c!"reference"]) ∈ toolTags := List.mem_cons_of_mem _ List.mem_cons_self
  have hkeep := keepsNothing_noneKept hk' o.doc root
  rw [htool] at hrun hkeep hk'
  rw [hcfg] at he
  obtain ⟨e0, d'', k0, k1, k2, k3, k4⟩ := C142_segments_back env.tool a scfg np o.doc _ passes root c x _ p _ he henv hx hsm' hln' hk'.1
    (fun y hy => s2 _ (List.mem_map.2 ⟨y, hy, rfl⟩)) s1 (by rw [hmap]; exact readable_own hin)
    (fun s hs => by
      have := s3 _ hin s hs
      rwa [show newFields segmentationMapping [] = [] from rfl, List.map_nil, List.append_nil] at this)
    hkeep hc hrun
  rw [h0] at k0
  cases k0
  have htn : a.targets.map (·.name) = items.map (·.target.name) := by
    rw [htar, List.map_map]; rfl
  refine ⟨d'', k1, ?_⟩
  rw [htn] at k2
  refine ⟨k2, k3, ?_⟩
  rw [hcfg, hann, htool]
  intro d ps hps
  exact k4 ps (htar.trans hps)

/-- **C142** from the command line: with the shipped mapping, the shipped segments and the default fields, all that has to
be given is not to keep labels, the simple matcher and no line numbers. -/
theorem C142_command_line (env : CliEnv) (hcc : PlainNames env.tag.cc) (c : CliArgs) (o : RunOpts) (ho : c.options env = .ok o)
    (hmap : parseXmlMapping env.tag.cc env.tag.lower c.mapping = .ok [(c!"article", shippedOptions)])
    (config : List Str) (np : Option Str) (htool : c.tool = .segmentation config false np)
    (hseg : parseSegConfig env.tag.cc env.tag.lower env.tag.parseInt env.parseList config = .ok shippedSegmentation)
    (hf : c.fields = none) (hov : c.overrides = none)
    (hkeep : c.plain.noPreserveTags = true) (hal : c.alwaysPreserve = none) (hsub : c.plain.preserveSubTags = false)
    (hsm : c.plain.simpleMatcher = true) (hln : c.plain.useLineNumbers = false) (hxml : c.xmlPath ≠ [])
    (renv : RunEnv) (he : ExactEnv renv.tool.simple (simpleCfg o.args false false true)) (henv : renv.tool.seg.isDigit '\n' = false)
    (cfg : PipelineConfig) (fs : FileStore) (u p : Str) (x : Elem)
    (h : annotateFile renv o cfg fs u = .ok (some (p, x))) : RunSegmentsBack renv o shippedSegmentation fs u x := by
  obtain ⟨sel, subSel, ov, m, h1, h2, h3, h4, h5, h6, h7⟩ := C132_options env hcc c o ho
  obtain ⟨e0, e1, _, e2, e3, e4, e5, e6, _⟩ := options_args ho
  rw [hmap] at h4
  cases h4
  rw [htool] at h1 h2 h7 e0
  rw [hf] at h1
  cases h1
  have e0 : o.tool = .segmentation shippedSegmentation (listOption env.tag.cc np) := by
    unfold CliTool.tool at e0
    simp only [hseg] at e0
    exact (Except.ok.inj e0).symm
  have hss : subSel = [] := by
    rcases h2 with ⟨_, h⟩ | ⟨_, h, _⟩
    · exact h
    · cases h
  have hovn : ov = [] := by
    rcases h3 with ⟨_, h⟩ | ⟨_, h, _⟩
    · exact h
    · rw [hov] at h; cases h
  subst hss hovn
  refine C142_run renv o cfg fs u p x shippedSegmentation _ (by rw [e1]; exact hxml) h7 e0 rfl rfl ?_ (e5.trans hsm) (e4.trans hln)
    (by rw [e0]; exact ⟨e2.trans hkeep, by rw [e6, hal]; rfl, rfl, e3.trans hsub⟩) he henv h
  intro sec hsec e hmem hdot
  rw [h6] at hsec
  have := (mappingAndFields_mem (by show segmentationDefaultFields ≠ []; decide) hsec hmem).1
  rw [fieldName_self hdot] at this
  exact this

/-! ### An example -/

/-- Not vacuous: the file written by the segmentation with its default fields, the shipped mapping and segments and a title
which occurs. -/
example : PlainNames exEndCliEnv.tag.cc ∧
    parseXmlMapping exEndCliEnv.tag.cc exEndCliEnv.tag.lower (exEndCli (.segmentation segmentationConfLines false none) none).mapping =
      .ok [(c!"article", shippedOptions)] ∧
    parseSegConfig exEndCliEnv.tag.cc exEndCliEnv.tag.lower exEndCliEnv.tag.parseInt exEndCliEnv.parseList segmentationConfLines =
      .ok shippedSegmentation ∧
    exEndEnv.tool.seg.isDigit '\n' = false ∧
    ∃ o, (exEndCli (.segmentation segmentationConfLines false none) none).options exEndCliEnv = .ok o ∧
      ExactEnv exEndEnv.tool.simple (simpleCfg o.args false false true) ∧
      ∃ p x, annotateFile exEndEnv o pipelineExample exRunFiles c!"in/a.tei" = .ok (some (p, x)) ∧
        exXml x = c!"<tei><text><front>on some title</front></text></tei>" := by
  refine ⟨exCli_plain, C119_mapping, ?_, by decide, ?_⟩
  · obtain ⟨r, hr, he⟩ := exists_of_okAnd
      (x := parseSegConfig exEndCliEnv.tag.cc exEndCliEnv.tag.lower exEndCliEnv.tag.parseInt exEndCliEnv.parseList segmentationConfLines)
      (p := fun r => r = shippedSegmentation) (by decide +kernel)
    rw [hr, he]
  · obtain ⟨o, ho, h⟩ := exists_of_okAnd (x := (exEndCli (.segmentation segmentationConfLines false none) none).options exEndCliEnv)
      (p := fun o => okAnd (annotateFile exEndEnv o pipelineExample exRunFiles c!"in/a.tei") (fun r => r.map (fun q => exXml q.2) =
        some c!"<tei><text><front>on some title</front></text></tei>") = true)
      (by decide +kernel)
    obtain ⟨_, h2⟩ := options_doc ho
    refine ⟨o, ho, exMatch_exact _ (by rw [h2]; decide +kernel) (by rw [h2]; decide +kernel), ?_⟩
    obtain ⟨r, hr, he⟩ := exists_of_okAnd h
    cases r with
    | none => cases he
    | some q => exact ⟨q.1, q.2, hr, Option.some.inj he⟩

end Verif
