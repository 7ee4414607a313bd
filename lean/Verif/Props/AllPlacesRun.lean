/-
C141: from the command line and the files to all values read back.
-/
import Verif.Props.AllPlaces
import Verif.Props.EndToEnd

namespace Verif
open Spec

namespace Spec

/-- If each value of the target annotations has its place in the source file, with the document `before`, then each of the
values whose place is not interrupted can be read back from the file written, with the document `after_`. -/
def AllReadBack (env : RunEnv) (o : RunOpts) (items : List TargetItem) (before after_ : Doc) : Prop :=
  CommonSpace o.doc.cc (tokenTexts before) →
  let d := beforeAnnotator (o.tool.annotateCfg o.args) before
  ∀ ps, items.map (·.target) = ps.map Prod.fst → PlacedInTurn env.tool.simple (simpleCfg o.args false false true) d [] ps →
    ∀ p ∈ ps, ((∃ p q r, o.tool = .fulltext p q r) → p.1.name ≠ c!"note_other" ∧ p.1.name ≠ c!"note[@type=\"other\"]") →
      p.2 <:+: d.nonSpaceTokens →
      ∀ v, p.1.value = .one v → ReadBack o.doc.cc env.tool.simple.lower after_ (normaliseStr env.tool.simple.lower v) p.1.name

/-- What is written for the source file `u` can be loaded, and all values of its target file with places of their own can be
read back from it. -/
def RunAllBack (env : RunEnv) (o : RunOpts) (fs : FileStore) (u : Str) (written : Elem) : Prop :=
  ∃ (data final path tdata tag : Str) (troot : XNode) (items : List TargetItem) (root : Elem) (d0 : Doc),
    fs u = some data ∧ finalSource env o.tool data = .ok final ∧ env.parseSource final = .ok root ∧
    targetXml env.reSub o.xmlPath o.xmlRegex u = .ok path ∧ fs path = some tdata ∧ env.parseTarget tdata = .ok (tag, troot) ∧
    xmlRootToTargetAnnotations (env.target troot) o.xmlMapping tag troot = .ok items ∧
    loadDoc { o.doc with preserveTags := true } root = .ok d0 ∧
    ((findAll o.doc.containerPath root).length = 1 →
      ∃ d'', loadDoc { o.doc with preserveTags := true } written = .ok d'' ∧ AllReadBack env o items d0 d'')

end Spec

/-- **C141** for a run of a tool over files, without keeping labels of the source files. -/
theorem C141_run (env : RunEnv) (o : RunOpts) (cfg : PipelineConfig) (fs : FileStore) (u p : Str) (x : Elem)
    (mains : List (Option Str)) (hxml : o.xmlPath ≠ [])
    (hm : ReadableMapping o.doc.mapping mains) (hnone : none ∈ mains)
    (hlist : (∃ p q r, o.tool = .fulltext p q r) → some c!"list" ∈ mains)
    (hn : ReadableNames o.xmlMapping mains)
    (ht : labelsByMatching { o.args with hasXml := true } o.tool) (hr : ¬ Spec.removesText o.tool)
    (hk : Spec.keepsNothing o.args o.tool)
    (he : ExactEnv env.tool.simple (simpleCfg o.args false false true)) (hcc : env.tool.simple.cc = o.doc.cc)
    (h : annotateFile env o cfg fs u = .ok (some (p, x))) : RunAllBack env o fs u x := by
  obtain ⟨data, final, path, items, root, a, passes, f1, f2, f3, f4, _, ⟨tdata, tag, troot, f5, f6, f7⟩, hrun, hx, htar, _, _, hargs⟩ :=
    C130_document env o cfg fs u p x hxml h
  have hnames := items_readable hn f7
  have ht' : labelsByMatching a o.tool := by
    have e : ({ o.args with hasXml := true } : ToolArgs) = { a with targets := o.args.targets, coreTargets := o.args.coreTargets } := by
      rw [← hargs]
      simp only [hx]
    rw [e] at ht
    cases hT : o.tool <;> rw [hT] at ht <;> exact ht
  have hk' : Spec.keepsNothing a o.tool := by
    rw [← hargs] at hk
    exact hk
  have hn1 : ∀ y ∈ a.targets, y.name ≠ [] ∧ tagValue (some y.name) = some y.name ∧ some y.name ∈ mains := by
    intro y hy
    rw [htar] at hy
    obtain ⟨i, hi, rfl⟩ := List.mem_map.1 hy
    exact (hnames i hi).1
  have hs1 : ∀ y ∈ a.targets, ∀ s ∈ y.subs, OneStep s.1 := by
    intro y hy
    rw [htar] at hy
    obtain ⟨i, hi, rfl⟩ := List.mem_map.1 hy
    exact (hnames i hi).2
  have hread := readableLabels_of_names (mapping := o.doc.mapping) ht' hnone hlist hn1 hs1
  have hcfg : simpleCfg o.args false false true = simpleCfg a false false true := by rw [← hargs]; rfl
  have hann : o.tool.annotateCfg o.args = o.tool.annotateCfg a := by rw [← hargs]; rfl
  obtain ⟨d0, d', h0, _⟩ := run_steps hrun
  refine ⟨data, final, path, tdata, tag, troot, items, root, d0, f1, f2, f3, f4, f5, f6, f7, h0, fun hlen => ?_⟩
  obtain ⟨c, hc⟩ := List.length_eq_one_iff.1 hlen
  rw [hcfg] at he
  obtain ⟨e0, d'', k0, k1, k2⟩ := C141_read_back env.tool a o.tool o.doc mains passes root c x _ p _ he hcc ht' hr
    (fun y hy => ⟨(hn1 y hy).1, (hn1 y hy).2.1⟩) hm hread (keepsNothing_noneKept hk' _ _) hc hrun
  rw [h0] at k0
  cases k0
  refine ⟨d'', k1, ?_⟩
  unfold AllReadBack
  rw [hcfg, hann]
  intro hcs d ps hps
  exact k2 hcs ps (htar.trans hps)

/-- **C141** from the command line of the header tool, with the shipped mapping and its default fields: all that has to be
given is not to keep labels, the simple matcher and no line numbers. -/
theorem C141_header (env : CliEnv) (hcc : PlainNames env.tag.cc) (c : CliArgs) (o : RunOpts) (ho : c.options env = .ok o)
    (hmap : parseXmlMapping env.tag.cc env.tag.lower c.mapping = .ok [(c!"article", shippedOptions)])
    (htool : c.tool = .header) (hf : c.fields = none) (hov : c.overrides = none)
    (hkeep : c.plain.noPreserveTags = true) (hal : c.alwaysPreserve = none) (hsub : c.plain.preserveSubTags = false)
    (hsm : c.plain.simpleMatcher = true) (hln : c.plain.useLineNumbers = false) (hxml : c.xmlPath ≠ [])
    (renv : RunEnv) (he : ExactEnv renv.tool.simple (simpleCfg o.args false false true)) (hrcc : renv.tool.simple.cc = o.doc.cc)
    (cfg : PipelineConfig) (fs : FileStore) (u p : Str) (x : Elem)
    (h : annotateFile renv o cfg fs u = .ok (some (p, x))) : RunAllBack renv o fs u x := by
  obtain ⟨sel, subSel, ov, m, h1, h2, h3, h4, h5, h6, h7⟩ := C132_options env hcc c o ho
  obtain ⟨e0, e1, _, e2, e3, e4, e5, e6, _⟩ := options_args ho
  rw [hmap] at h4
  cases h4
  rw [htool] at h1 h2 h7 e0
  rw [hf] at h1
  cases h1
  have e0 : o.tool = .header := (Except.ok.inj e0).symm
  have hss : subSel = [] := by
    rcases h2 with ⟨_, h⟩ | ⟨_, h, _⟩
    · exact h
    · cases h
  have hovn : ov = [] := by
    rcases h3 with ⟨_, h⟩ | ⟨_, h, _⟩
    · exact h
    · rw [hov] at h; cases h
  subst hss hovn
  have hm1 : o.xmlMapping = [(c!"article", shippedOptions)] := h6
  have hm2 : o.doc.mapping = addFieldPaths headerMapping shippedFields := by
    rw [h7]
    have : (mappingAndFields [(c!"article", shippedOptions)] [] [] []).2 = shippedFields := by decide +kernel
    show addFieldPaths headerMapping _ = _
    rw [show CliTool.defaultFields .header = [] from rfl, this]
  obtain ⟨r1, r2⟩ := C135_shipped headerMapping _ List.mem_cons_self (by decide +kernel)
  refine C141_run renv o cfg fs u p x _ (by rw [e1]; exact hxml) (by rw [hm2]; exact r1) (by decide +kernel)
    (by rintro ⟨_, _, _, h⟩; rw [e0] at h; cases h) ?_ (by rw [e0]; exact ⟨rfl, e5.trans hsm, e4.trans hln⟩) (by rw [e0]; exact id)
    (by rw [e0]; exact ⟨e2.trans hkeep, by rw [e6, hal]; rfl, rfl, e3.trans hsub⟩) he hrcc h
  rw [hm1]
  unfold ReadableNames
  decide +kernel

/-- Not vacuous: the file written by the header tool in the example of C136. -/
example : PlainNames exEndCliEnv.tag.cc ∧
    parseXmlMapping exEndCliEnv.tag.cc exEndCliEnv.tag.lower (exEndCli .header none).mapping = .ok [(c!"article", shippedOptions)] ∧
    ∃ o, (exEndCli .header none).options exEndCliEnv = .ok o ∧
      ExactEnv exEndEnv.tool.simple (simpleCfg o.args false false true) ∧ exEndEnv.tool.simple.cc = o.doc.cc ∧
      ∃ p x, annotateFile exEndEnv o pipelineExample exRunFiles c!"in/a.tei" = .ok (some (p, x)) ∧ RunAllBack exEndEnv o exRunFiles c!"in/a.tei" x := by
  obtain ⟨o, ho, h⟩ := exists_of_okAnd (x := (exEndCli .header none).options exEndCliEnv)
    (p := fun o => okAnd (annotateFile exEndEnv o pipelineExample exRunFiles c!"in/a.tei") (fun r => r.isSome = true) = true)
    (by decide +kernel)
  obtain ⟨h1, h2⟩ := options_doc ho
  have he : ExactEnv exEndEnv.tool.simple (simpleCfg o.args false false true) :=
    exMatch_exact _ (by rw [h2]; decide +kernel) (by rw [h2]; decide +kernel)
  have hmap : parseXmlMapping exEndCliEnv.tag.cc exEndCliEnv.tag.lower (exEndCli .header none).mapping = .ok [(c!"article", shippedOptions)] :=
    C119_mapping
  refine ⟨exCli_plain, hmap, o, ho, he, h1.symm, ?_⟩
  obtain ⟨r, hr, hs⟩ := exists_of_okAnd h
  cases r with
  | none => cases hs
  | some q =>
    exact ⟨q.1, q.2, hr, C141_header exEndCliEnv exCli_plain (exEndCli .header none) o ho hmap rfl rfl rfl rfl rfl rfl rfl rfl (by show c!"xml" ≠ []; decide) exEndEnv he h1.symm
      pipelineExample exRunFiles _ q.1 q.2 hr⟩

end Verif
