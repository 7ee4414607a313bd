/-
C136: from the command line and the files to the labels read back.
-/
import Verif.Props.CommandLine
import Verif.Props.ReadBack
import Verif.Spec.EndToEnd

namespace Verif
open Spec

theorem mappingAndFields_all (m : Mapping) : (mappingAndFields m [] [] []).1 = m := rfl

theorem oneStep_oneOf {s v : Str} (h : OneStep s) (hv : v = s ∨ tagValue (some s) = some v) : OneStep v := by
  rcases hv with rfl | hv
  · exact h
  · intro c hc
    refine h c ?_
    have : v <:+ s := by
      unfold tagValue at hv
      split at hv
      · next w e => cases hv; cases e; exact ⟨c!"b-", rfl⟩
      · next w e => cases hv; cases e; exact ⟨c!"i-", rfl⟩
      · cases hv; exact List.suffix_refl _
    exact this.subset hc

/-- The target annotations found with a mapping whose names are simple. -/
theorem items_readable {tenv : TargetEnv} {xmlMapping : Mapping} {mains : List (Option Str)} {tag : Str} {root : XNode}
    {items : List TargetItem} (hn : ReadableNames xmlMapping mains)
    (h : xmlRootToTargetAnnotations tenv xmlMapping tag root = .ok items) :
    ∀ i ∈ items, (i.target.name ≠ [] ∧ tagValue (some i.target.name) = some i.target.name ∧ some i.target.name ∈ mains) ∧
      ∀ s ∈ i.target.subs, OneStep s.1 := by
  intro i hi
  rw [← mappingAndFields_all xmlMapping] at h
  obtain ⟨⟨h1, ⟨d, hd, h2⟩, _⟩, h3⟩ := targets_annotatable h i hi
  have hmem : (tag, d) ∈ xmlMapping := mem_of_get? hd
  refine ⟨?_, fun s hs => ?_⟩
  · rcases h2 with ⟨v, hv⟩ | ⟨v, hv⟩
    · exact (hn _ hmem _ hv).2 h1
    · cases hv
  · obtain ⟨_, _, ⟨d', hd', h4⟩, _⟩ := h3 s hs
    rcases h4 with ⟨v, hv⟩ | ⟨v, hv⟩
    · intro c hc
      exact (hn _ (mem_of_get? hd') _ hv).1 c (List.mem_append_right _ hc)
    · cases hv

/-- The labels of target annotations whose names are simple can be read back. -/
theorem readableLabels_of_names {a : ToolArgs} {t : Tool} {mapping : Dict Str} {mains : List (Option Str)}
    (ht : labelsByMatching a t) (hnone : none ∈ mains) (hlist : (∃ p q r, t = .fulltext p q r) → some c!"list" ∈ mains)
    (hn : ∀ y ∈ a.targets, y.name ≠ [] ∧ tagValue (some y.name) = some y.name ∧ some y.name ∈ mains)
    (hs : ∀ y ∈ a.targets, ∀ s ∈ y.subs, OneStep s.1) : Spec.readableLabels a t mapping mains := by
  have hmain : ∀ v, oneOf (a.targets.map (·.name)) v → some v ∈ mains := by
    rintro v ⟨n, hm, hv⟩
    obtain ⟨y, hy, rfl⟩ := List.mem_map.1 hm
    obtain ⟨_, h2, h3⟩ := hn y hy
    rcases hv with rfl | hv
    · exact h3
    · rw [h2] at hv; cases hv; exact h3
  have hsub : ∀ v, oneOf (targetSubLabels a) v → v ∈ mapping.map (·.1) ∨ OneStep v := by
    rintro v ⟨n, hm, hv⟩
    obtain ⟨y, hy, hm⟩ := List.mem_flatMap.1 hm
    obtain ⟨s, hs', rfl⟩ := List.mem_map.1 hm
    exact .inr (oneStep_oneOf (hs y hy s hs') hv)
  have hcons : ∀ (n : Str) (ns : List Str) v, oneOf (n :: ns) v → (v = n ∨ tagValue (some n) = some v) ∨ oneOf ns v := by
    rintro n ns v ⟨m, hm, hv⟩
    rcases List.mem_cons.1 hm with rfl | hm
    · exact .inl hv
    · exact .inr ⟨m, hm, hv⟩
  refine ⟨hnone, ?_, ?_⟩
  · intro v hv
    cases t with
    | header =>
      obtain ⟨h1, h2, h3⟩ := ht
      simp only [toolLabels, targetLabels, h1, h2, h3, if_true, Bool.false_eq_true, if_false, List.nil_append] at hv
      exact hmain v hv
    | referenceSegmenter =>
      obtain ⟨h1, h2, h3⟩ := ht
      simp only [toolLabels, targetLabels, h1, h2, h3, if_true, Bool.false_eq_true, if_false, List.nil_append] at hv
      exact hmain v hv
    | segmentation cfg np => exact ht.elim
    | fulltext p q r =>
      rcases hcons _ _ v hv with h | h
      · have e : tagValue (some c!"list") = some c!"list" := rfl
        rcases h with rfl | h
        · exact hlist ⟨p, q, r, rfl⟩
        · rw [e] at h; cases h; exact hlist ⟨p, q, r, rfl⟩
      · exact hmain v h
    | figure seg =>
      have ht : seg = true := ht
      subst ht
      exact hmain v hv
    | table seg =>
      have ht : seg = true := ht
      subst ht
      exact hmain v hv
    | reference seg b c =>
      have ht : seg = true := ht
      subst ht
      exact hmain v hv
    | affiliation seg b =>
      have ht : seg = true := ht
      subst ht
      exact hmain v hv
  · intro v hv
    cases t with
    | header =>
      obtain ⟨h1, h2, h3⟩ := ht
      simp only [toolSubLabels, h1, h2, true_and, not_true_eq_false, if_false] at hv
      obtain ⟨_, hm, _⟩ := hv
      cases hm
    | referenceSegmenter =>
      obtain ⟨h1, h2, h3⟩ := ht
      simp only [toolSubLabels, h1, h2, if_true] at hv
      exact hsub v hv
    | segmentation cfg np => exact ht.elim
    | fulltext p q r => exact hsub v hv
    | figure seg => exact hsub v hv
    | table seg => exact hsub v hv
    | reference seg b c =>
      rcases hcons _ _ v hv with h | h
      · exact .inr (oneStep_oneOf (by decide +kernel) h)
      · exact hsub v h
    | affiliation seg b =>
      rcases hcons _ _ v hv with h | h
      · exact .inr (oneStep_oneOf (by decide +kernel) h)
      · exact hsub v h

/-! ## C136 From the files to the labels read back -/

namespace Spec

/-- If the value of the first of the target annotations occurs literally in the text of the first lines of the source file,
with the document `before`, the file written, with the document `after_`, has neighbouring text with the label of this target
annotation that contains the value; and likewise each of the values of a list which are close together. -/
def FirstReadBack (env : RunEnv) (o : RunOpts) (items : List TargetItem) (before after_ : Doc) : Prop :=
  ∀ (y : Target) (rest : List Target), items.map (·.target) = y :: rest →
    ((∃ p q r, o.tool = .fulltext p q r) → y.name ≠ c!"note_other" ∧ y.name ≠ c!"note[@type=\"other\"]") →
    CommonSpace o.doc.cc (tokenTexts before) →
    let d := beforeAnnotator (o.tool.annotateCfg o.args) before
    let text := seqsText (matchSeqEnv env.tool.simple) d (firstLines d o.args.lookahead)
    let missing := Missing env.tool.simple (simpleCfg o.args false false true) y.name text
    (∀ v, OccursFor env.tool.simple (simpleCfg o.args false false true) y v text →
      ReadBack o.doc.cc env.tool.simple.lower after_ (normaliseStr env.tool.simple.lower v) y.name) ∧
    (∀ vs, ManyOccur env.tool.simple (simpleCfg o.args false false true) y vs text →
      (∀ places, PlacesOf env.tool.simple.lower text missing vs places → CloseTogether places) →
      ∀ v ∈ vs, ¬ missing v → ReadBack o.doc.cc env.tool.simple.lower after_ (normaliseStr env.tool.simple.lower v) y.name)

/-- What is written for the source file `u` can be loaded, and the value of the first target annotation of its target file
can be read back from it. -/
def RunReadBack (env : RunEnv) (o : RunOpts) (fs : FileStore) (u : Str) (written : Elem) : Prop :=
  ∃ (data final path tdata tag : Str) (troot : XNode) (items : List TargetItem) (root : Elem) (d0 : Doc),
    fs u = some data ∧ finalSource env o.tool data = .ok final ∧ env.parseSource final = .ok root ∧
    targetXml env.reSub o.xmlPath o.xmlRegex u = .ok path ∧ fs path = some tdata ∧ env.parseTarget tdata = .ok (tag, troot) ∧
    xmlRootToTargetAnnotations (env.target troot) o.xmlMapping tag troot = .ok items ∧
    loadDoc { o.doc with preserveTags := true } root = .ok d0 ∧
    ((findAll o.doc.containerPath root).length = 1 →
      ∃ d'', loadDoc { o.doc with preserveTags := true } written = .ok d'' ∧ FirstReadBack env o items d0 d'')

end Spec

/-- **C136.** For a run of a tool over files, without keeping labels of the source files: what is written for a source file
can be loaded again, and the first value of its target file can be read back if it occurs literally. -/
theorem C136_run (env : RunEnv) (o : RunOpts) (cfg : PipelineConfig) (fs : FileStore) (u p : Str) (x : Elem)
    (mains : List (Option Str)) (hxml : o.xmlPath ≠ [])
    (hm : ReadableMapping o.doc.mapping mains) (hnone : none ∈ mains)
    (hlist : (∃ p q r, o.tool = .fulltext p q r) → some c!"list" ∈ mains)
    (hn : ReadableNames o.xmlMapping mains)
    (ht : labelsByMatching { o.args with hasXml := true } o.tool) (hr : ¬ Spec.removesText o.tool)
    (hk : Spec.keepsNothing o.args o.tool)
    (he : ExactEnv env.tool.simple (simpleCfg o.args false false true)) (hcc : env.tool.simple.cc = o.doc.cc)
    (h : annotateFile env o cfg fs u = .ok (some (p, x))) : RunReadBack env o fs u x := by
  obtain ⟨data, final, path, items, root, a, passes, f1, f2, f3, f4, _, ⟨tdata, tag, troot, f5, f6, f7⟩, hrun, hx, htar, _, _, hargs⟩ :=
    C130_document env o cfg fs u p x hxml h
  have hnames := items_readable hn f7
  have ht' : labelsByMatching a o.tool := by
    have e : ({ o.args with hasXml := true } : ToolArgs) = { a with targets := o.args.targets, coreTargets := o.args.coreTargets } := by
      rw [← hargs]
      simp only [hx]
    rw [e] at ht
    cases hT : o.tool <;> rw [hT] at ht <;> exact ht
  have hk' : Spec.keepsNothing a o.tool := by
    rw [← hargs] at hk
    exact hk
  have hn1 : ∀ y ∈ a.targets, y.name ≠ [] ∧ tagValue (some y.name) = some y.name ∧ some y.name ∈ mains := by
    intro y hy
    rw [htar] at hy
    obtain ⟨i, hi, rfl⟩ := List.mem_map.1 hy
    exact (hnames i hi).1
  have hs1 : ∀ y ∈ a.targets, ∀ s ∈ y.subs, OneStep s.1 := by
    intro y hy
    rw [htar] at hy
    obtain ⟨i, hi, rfl⟩ := List.mem_map.1 hy
    exact (hnames i hi).2
  have hread := readableLabels_of_names (mapping := o.doc.mapping) ht' hnone hlist hn1 hs1
  have hcfg : simpleCfg o.args false false true = simpleCfg a false false true := by rw [← hargs]; rfl
  have hann : o.tool.annotateCfg o.args = o.tool.annotateCfg a := by rw [← hargs]; rfl
  have hlook : o.args.lookahead = a.lookahead := by rw [← hargs]
  obtain ⟨d0, d', h0, _⟩ := run_steps hrun
  refine ⟨data, final, path, tdata, tag, troot, items, root, d0, f1, f2, f3, f4, f5, f6, f7, h0, fun hlen => ?_⟩
  obtain ⟨c, hc⟩ := List.length_eq_one_iff.1 hlen
  obtain ⟨_, _, d'', g0, _, g2, _⟩ := C134_written env.tool a o.tool o.doc mains passes root c x _ p _ hm hread
    (keepsNothing_noneKept hk' _ _) hc hrun
  refine ⟨d'', g2, ?_⟩
  unfold FirstReadBack
  rw [hcfg, hann, hlook]
  rw [hcfg] at he
  intro y after hy hrep hcs
  refine ⟨fun v ho => ?_, fun vs ho hclose v hv hmiss => ?_⟩
  · obtain ⟨e0, e'', k0, k1, k2⟩ := C134_read_back env.tool a o.tool o.doc mains passes root c x _ p _ he hcc ht' hr y after v
      (by rw [htar, hy]) (fun y hy => ⟨(hn1 y hy).1, (hn1 y hy).2.1⟩) hrep hm hread (keepsNothing_noneKept hk' _ _) hc hrun
    rw [h0] at k0
    cases k0
    rw [g2] at k1
    cases k1
    exact k2 hcs ho
  · obtain ⟨e0, e'', k0, k1, k2⟩ := C134_read_back_many env.tool a o.tool o.doc mains passes root c x _ p _ he hcc ht' hr y after vs
      (by rw [htar, hy]) (fun y hy => ⟨(hn1 y hy).1, (hn1 y hy).2.1⟩) hrep hm hread (keepsNothing_noneKept hk' _ _) hc hrun
    rw [h0] at k0
    cases k0
    rw [g2] at k1
    cases k1
    exact k2 hcs ho hclose v hv hmiss

/-- **C136** for the header tool with the shipped mapping and its default fields: all that has to be given is not to keep
labels, the simple matcher and no line numbers. -/
theorem C136_header (env : CliEnv) (hcc : PlainNames env.tag.cc) (c : CliArgs) (o : RunOpts) (ho : c.options env = .ok o)
    (hmap : parseXmlMapping env.tag.cc env.tag.lower c.mapping = .ok [(c!"article", shippedOptions)])
    (htool : c.tool = .header) (hf : c.fields = none) (hov : c.overrides = none)
    (hkeep : c.plain.noPreserveTags = true) (hal : c.alwaysPreserve = none) (hsub : c.plain.preserveSubTags = false)
    (hsm : c.plain.simpleMatcher = true) (hln : c.plain.useLineNumbers = false) (hxml : c.xmlPath ≠ [])
    (renv : RunEnv) (he : ExactEnv renv.tool.simple (simpleCfg o.args false false true)) (hrcc : renv.tool.simple.cc = o.doc.cc)
    (cfg : PipelineConfig) (fs : FileStore) (u p : Str) (x : Elem)
    (h : annotateFile renv o cfg fs u = .ok (some (p, x))) : RunReadBack renv o fs u x := by
  obtain ⟨sel, subSel, ov, m, h1, h2, h3, h4, h5, h6, h7⟩ := C132_options env hcc c o ho
  obtain ⟨e0, e1, _, e2, e3, e4, e5, e6, _⟩ := options_args ho
  rw [hmap] at h4
  cases h4
  rw [htool] at h1 h2 h7 e0
  rw [hf] at h1
  cases h1
  have e0 : o.tool = .header := (Except.ok.inj e0).symm
  have hss : subSel = [] := by
    rcases h2 with ⟨_, h⟩ | ⟨_, h, _⟩
    · exact h
    · cases h
  have hovn : ov = [] := by
    rcases h3 with ⟨_, h⟩ | ⟨_, h, _⟩
    · exact h
    · rw [hov] at h; cases h
  subst hss hovn
  have hm1 : o.xmlMapping = [(c!"article", shippedOptions)] := h6
  have hm2 : o.doc.mapping = addFieldPaths headerMapping shippedFields := by
    rw [h7]
    have : (mappingAndFields [(c!"article", shippedOptions)] [] [] []).2 = shippedFields := by decide +kernel
    show addFieldPaths headerMapping _ = _
    rw [show CliTool.defaultFields .header = [] from rfl, this]
  obtain ⟨r1, r2⟩ := C135_shipped headerMapping _ List.mem_cons_self (by decide +kernel)
  refine C136_run renv o cfg fs u p x _ (by rw [e1]; exact hxml) (by rw [hm2]; exact r1) (by decide +kernel)
    (by rintro ⟨_, _, _, h⟩; rw [e0] at h; cases h) ?_ (by rw [e0]; exact ⟨rfl, e5.trans hsm, e4.trans hln⟩) (by rw [e0]; exact id)
    (by rw [e0]; exact ⟨e2.trans hkeep, by rw [e6, hal]; rfl, rfl, e3.trans hsub⟩) he hrcc h
  rw [hm1]
  unfold ReadableNames
  decide +kernel

theorem mappingAndFields_mem {m : Mapping} {sel subSel : List Str} {sec : Str × Dict Str} {e : Str × Str} (hsel : sel ≠ [])
    (h : sec ∈ (mappingAndFields m sel subSel []).1) (he : e ∈ sec.2) :
    mappingKeyFieldName e.1 ∈ sel ∧ ∃ sec' ∈ m, e ∈ sec'.2 := by
  have hne : (!sel.isEmpty) = true := by
    cases sel with
    | nil => exact absurd rfl hsel
    | cons => rfl
  have h : sec ∈ filterSubFields subSel
      (m.map (fun p => (p.1, p.2.filter (fun e => sel.contains (mappingKeyFieldName e.1))))) := by
    have e : mappingAndFields m sel subSel [] = filterMapping sel subSel m := rfl
    rw [e] at h
    unfold filterMapping at h
    rw [if_pos hne] at h
    exact h
  have base : ∀ sec', sec' ∈ m.map (fun p => (p.1, p.2.filter (fun e => sel.contains (mappingKeyFieldName e.1)))) → e ∈ sec'.2 →
      mappingKeyFieldName e.1 ∈ sel ∧ ∃ sec' ∈ m, e ∈ sec'.2 := by
    intro sec' h he
    obtain ⟨q, hq, rfl⟩ := List.mem_map.1 h
    obtain ⟨h1, h2⟩ := List.mem_filter.1 he
    exact ⟨by simpa using h2, q, hq, h1⟩
  unfold filterSubFields at h
  split at h
  · exact base sec h he
  · obtain ⟨q, hq, rfl⟩ := List.mem_map.1 h
    exact base q hq (List.mem_filter.1 he).1

theorem fieldName_self {k : Str} (h : '.' ∉ k) : mappingKeyFieldName k = k := by
  unfold mappingKeyFieldName splitOnce
  rw [if_neg h]
  rfl

/-- **C136** for any of the tools with the shipped mapping, if fields are listed whose labels are among those of the tool
that can be read back. -/
theorem C136_listed (env : CliEnv) (hcc : PlainNames env.tag.cc) (c : CliArgs) (o : RunOpts) (ho : c.options env = .ok o)
    (hmap : parseXmlMapping env.tag.cc env.tag.lower c.mapping = .ok [(c!"article", shippedOptions)])
    (own : List (Option Str)) (hbase : (c.tool.basePaths env.tag.cc, own) ∈ toolTags)
    (s item : Str) (items : List Str) (hs : c.fields = some s) (hl : commaList env.tag.cc s = item :: items) (hns : ¬ signed item)
    (hown : ∀ f ∈ commaList env.tag.cc s, some f ∈ own) (hov : c.overrides = none)
    (hkeep : c.plain.noPreserveTags = true) (hal : c.alwaysPreserve = none) (hsub : c.plain.preserveSubTags = false)
    (htool : labelsByMatching { o.args with hasXml := true } o.tool) (hr : ¬ Spec.removesText o.tool) (hxml : c.xmlPath ≠ [])
    (renv : RunEnv) (he : ExactEnv renv.tool.simple (simpleCfg o.args false false true)) (hrcc : renv.tool.simple.cc = o.doc.cc)
    (cfg : PipelineConfig) (fs : FileStore) (u p : Str) (x : Elem)
    (h : annotateFile renv o cfg fs u = .ok (some (p, x))) : RunReadBack renv o fs u x := by
  obtain ⟨sel, subSel, ov, m, h1, h2, h3, h4, h5, h6, h7⟩ := C132_options env hcc c o ho
  obtain ⟨e0, e1, _, e2, e3, e4, e5, e6, _⟩ := options_args ho
  rw [hmap] at h4
  cases h4
  have hsel : sel = item :: items := by
    rw [hs] at h1
    cases h1 with
    | listed _ => exact hl
    | edited hl' hs' _ =>
      rw [hl] at hl'
      cases hl'
      exact absurd hs' hns
  rw [hl, ← hsel] at hown
  have hne : sel ≠ [] := by rw [hsel]; exact List.cons_ne_nil _ _
  have hovn : ov = [] := by
    rcases h3 with ⟨_, h⟩ | ⟨_, h, _⟩
    · exact h
    · rw [hov] at h; cases h
  subst hovn
  have hnotseg : ∀ cfg np, o.tool ≠ .segmentation cfg np := by
    intro cfg np e
    rw [e] at htool
    exact htool
  have hnot : c.tool.basePaths env.tag.cc ≠ segmentationMapping ∧ c.tool.paths env.tag.cc sel = addFieldPaths (c.tool.basePaths env.tag.cc) sel := by
    have keys : ∀ mp : Dict Str, (resolveMapping env.tag.cc teiNsMap mp).map (·.1) = mp.map (·.1) := by
      intro mp
      unfold resolveMapping
      rw [List.map_map]
      rfl
    cases hT : c.tool with
    | segmentation a b d =>
      exfalso
      rw [hT] at e0
      unfold CliTool.tool at e0
      simp only at e0
      split at e0
      · cases e0
      · exact hnotseg _ _ (Except.ok.inj e0).symm
    | header => exact ⟨by show headerMapping ≠ _; decide +kernel, rfl⟩
    | referenceSegmenter => exact ⟨by show referenceSegmenterMapping ≠ _; decide +kernel, rfl⟩
    | fulltext a b d => exact ⟨by show fulltextMapping ≠ _; decide +kernel, rfl⟩
    | figure a => exact ⟨fun e => absurd ((keys figureMapping).symm.trans (congrArg (List.map (·.1)) e)) (by decide +kernel), rfl⟩
    | table a => exact ⟨fun e => absurd ((keys tableMapping).symm.trans (congrArg (List.map (·.1)) e)) (by decide +kernel), rfl⟩
    | reference a b d => exact ⟨fun e => absurd ((keys referenceMapping).symm.trans (congrArg (List.map (·.1)) e)) (by decide +kernel), rfl⟩
    | affiliation a b => exact ⟨fun e => absurd ((keys affiliationMapping).symm.trans (congrArg (List.map (·.1)) e)) (by decide +kernel), rfl⟩
  have key : ∀ t ∈ toolTags, t.1 ≠ segmentationMapping → none ∈ t.2 ∧ ∀ v ∈ t.2, v = none ∨ (t.1.get? (v.getD [])).isSome = true ∧
      v.getD [] ≠ [] ∧ tagValue v = v := by
    decide +kernel
  obtain ⟨k1, k2⟩ := key _ hbase hnot.1
  have hsecond : (mappingAndFields [(c!"article", shippedOptions)] sel subSel []).2 = sel := by
    show (filterMapping sel subSel _).2 = sel
    unfold filterMapping
    rw [hsel]
    rfl
  have hm : ReadableMapping o.doc.mapping own := by
    refine ⟨_, own, sel, ⟨hbase, fun f hf => ?_⟩, ?_, ?_⟩
    · exfalso
      obtain ⟨f1, f2⟩ := mem_newFields.1 hf
      rcases k2 _ (hown f f1) with h | ⟨h, _⟩
      · cases h
      · rw [show (some f).getD [] = f from rfl, f2] at h; cases h
    · rw [h7, hsecond, hnot.2]
    · have : newFields (c.tool.basePaths env.tag.cc) sel = [] := by
        rw [List.eq_nil_iff_forall_not_mem]
        intro f hf
        obtain ⟨f1, f2⟩ := mem_newFields.1 hf
        rcases k2 _ (hown f f1) with h | ⟨h, _⟩
        · cases h
        · rw [show (some f).getD [] = f from rfl, f2] at h; cases h
      rw [this, List.map_nil, List.append_nil]
  refine C136_run renv o cfg fs u p x own (by rw [e1]; exact hxml) hm k1 ?_ ?_ htool hr
    ⟨e2.trans hkeep, by rw [e6, hal]; rfl, ?_, e3.trans hsub⟩ he hrcc h
  · rintro ⟨a, b, c', e⟩
    rw [e] at e0
    have hb : c.tool.basePaths env.tag.cc = fulltextMapping := by
      cases hT : c.tool <;> rw [hT] at e0 <;> unfold CliTool.tool at e0 <;> simp only at e0
      case fulltext => rfl
      case segmentation =>
        split at e0
        · cases e0
        · cases e0
      all_goals cases e0
    rw [hb] at hbase
    have kl : ∀ t ∈ toolTags, t.1 = fulltextMapping → some c!"list" ∈ t.2 := by decide +kernel
    exact kl _ hbase rfl
  · intro sec hsec e hmem
    rw [h6] at hsec
    obtain ⟨g1, sec', g2, g3⟩ := mappingAndFields_mem hne hsec hmem
    rw [List.mem_singleton] at g2
    subst g2
    have keys : ∀ e ∈ shippedOptions, OneStep e.1 := by decide +kernel
    refine ⟨keys e g3, fun hdot => ?_⟩
    rw [fieldName_self hdot] at g1
    rcases k2 _ (hown _ g1) with h | ⟨_, h, h'⟩
    · cases h
    · exact ⟨h, h', hown _ g1⟩
  · cases hT : o.tool with
    | figure a => rw [hT] at htool; rw [show a = true from htool]; rfl
    | table a => rw [hT] at htool; rw [show a = true from htool]; rfl
    | reference a b d => rw [hT] at htool; rw [show a = true from htool]; rfl
    | affiliation a b => rw [hT] at htool; rw [show a = true from htool]; rfl
    | _ => rfl

/-! ### Examples -/

/-- Source files with a front; the title of a target file is its first element. -/
def exEndEnv : RunEnv :=
  { exRunEnv with
    parseSource := fun data => .ok (.mk c!"tei" [] none [.mk c!"text" [] none [.mk c!"front" [] (some data) [] none] none] none)
    target := fun root => { targetExampleEnv with
      xpath := fun n s => if some s = shippedOptions.get? c!"title" ∧ n.id = 0 then root.children else [] } }

def exEndCliEnv : CliEnv := { exCliEnv with tag := { exTagEnv with validRegex := fun _ => true } }

/-- A tool with the shipped mapping, not keeping labels. -/
def exEndCli (tool : CliTool) (fields : Option Str) : CliArgs where
  tool := tool
  plain := { noPreserveTags := true, simpleMatcher := true, useLineNumbers := false }
  mapping := xmlMappingConfLines
  xmlPath := c!"xml"
  xmlRegex := c!"/(.*).tei/\\1.xml/"
  fields := fields

/-- The file written for the first source file of the example. -/
def exEndWritten (tool : CliTool) (fields : Option Str) : Except Err Str :=
  match (exEndCli tool fields).options exEndCliEnv with
  | .error e => .error e
  | .ok o =>
    match annotateFile exEndEnv o pipelineExample exRunFiles c!"in/a.tei" with
    | .ok (some (_, x)) => .ok (exXml x)
    | .ok none => .error .exception
    | .error e => .error e

theorem options_doc {env : CliEnv} {c : CliArgs} {o : RunOpts} (h : c.options env = .ok o) :
    o.doc.cc = env.tag.cc ∧ o.args.threshold = c.plain.threshold := by
  unfold CliArgs.options at h
  simp only at h
  split at h
  · cases h
  split at h
  · cases h
  split at h
  · cases h
  split at h
  · cases h
  split at h
  · cases h
  split at h
  · cases h
  cases h
  exact ⟨rfl, rfl⟩

/-- Not vacuous: the file written by the header tool with its default fields, the shipped mapping and a title which occurs. -/
example : PlainNames exEndCliEnv.tag.cc ∧
    parseXmlMapping exEndCliEnv.tag.cc exEndCliEnv.tag.lower (exEndCli .header none).mapping = .ok [(c!"article", shippedOptions)] ∧
    ∃ o, (exEndCli .header none).options exEndCliEnv = .ok o ∧
      ExactEnv exEndEnv.tool.simple (simpleCfg o.args false false true) ∧ exEndEnv.tool.simple.cc = o.doc.cc ∧
      ∃ p x, annotateFile exEndEnv o pipelineExample exRunFiles c!"in/a.tei" = .ok (some (p, x)) ∧
        exXml x = c!"<tei><text><front><note type=other>on</note><docTitle> <titlePart>some title</titlePart></docTitle></front></text></tei>" := by
  refine ⟨exCli_plain, C119_mapping, ?_⟩
  obtain ⟨o, ho, h⟩ := exists_of_okAnd (x := (exEndCli .header none).options exEndCliEnv)
    (p := fun o => okAnd (annotateFile exEndEnv o pipelineExample exRunFiles c!"in/a.tei") (fun r => r.map (fun q => exXml q.2) =
      some c!"<tei><text><front><note type=other>on</note><docTitle> <titlePart>some title</titlePart></docTitle></front></text></tei>") = true)
    (by decide +kernel)
  obtain ⟨h1, h2⟩ := options_doc ho
  refine ⟨o, ho, exMatch_exact _ (by rw [h2]; decide +kernel) (by rw [h2]; decide +kernel), h1.symm, ?_⟩
  obtain ⟨r, hr, he⟩ := exists_of_okAnd h
  cases r with
  | none => cases he
  | some q => exact ⟨q.1, q.2, hr, Option.some.inj he⟩

/-- Not vacuous: the fields listed have labels of the tool, and the title is written with its label. -/
example : (∃ own, ((CliTool.header).basePaths asciiClass, own) ∈ toolTags ∧ ∀ f ∈ commaList asciiClass c!"title,abstract", some f ∈ own) ∧
    commaList asciiClass c!"title,abstract" = [c!"title", c!"abstract"] ∧ ¬ signed c!"title" ∧
    exEndWritten .header (some c!"title,abstract") =
      .ok c!"<tei><text><front><note type=other>on</note><docTitle> <titlePart>some title</titlePart></docTitle></front></text></tei>" :=
  ⟨⟨_, List.mem_cons_self, by decide +kernel⟩, by decide +kernel, (by rintro ⟨_, h | h⟩ <;> cases h), by decide +kernel⟩

end Verif
