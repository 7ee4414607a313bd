/-
C144: in which order, how often and with which blanks names are listed on the command line does not matter.
-/
import Verif.Props.RunChecks
import Verif.Props.SetOrder
import Verif.Spec.OptionOrder

namespace Verif
open Spec

theorem listOption_same {cc : CharClass} (hc : cc.isSpace ',' = false) {s s' : Option Str} (h : SameNames cc s s') :
    SameSet (listOption cc s) (listOption cc s') := fun f => by
  rw [listOption_named hc, listOption_named hc]
  exact h f

/-- **C144.** The same names listed for fields select the same fields, if none of them begins with a sign. -/
theorem C144_listed {cc : CharClass} (hc : cc.isSpace ',' = false) (dflt : List Str) (s s' : Str)
    (h : SameNames cc (some s) (some s')) (hp : ∀ f, namedIn cc (some s) f → ¬ signed f) :
    SameSelection cc dflt (some s) (some s') := by
  have hm := listOption_same hc h
  have hn : ∀ x item items, (x = s ∨ x = s') → commaList cc x = item :: items → ¬ signed item := by
    intro x item items hx hl
    have : item ∈ listOption cc (some x) := by simp only [listOption, hl]; exact List.mem_cons_self
    rcases hx with rfl | rfl
    · exact hp _ ((listOption_named hc _ _).1 this)
    · exact hp _ ((h item).2 ((listOption_named hc _ _).1 this))
  intro sel sel' h1 h2
  cases h1 with
  | edited hl hs => exact absurd hs (hn s _ _ (.inl rfl) hl)
  | listed =>
    cases h2 with
    | edited hl hs => exact absurd hs (hn s' _ _ (.inr rfl) hl)
    | listed => exact hm

/-- **C144.** Listing the names of the default is the same as not giving the option. -/
theorem C144_default {cc : CharClass} (hc : cc.isSpace ',' = false) (dflt : List Str) (s : Str)
    (h : ∀ f, namedIn cc (some s) f ↔ f ∈ dflt) (hp : ∀ f ∈ dflt, ¬ signed f) :
    SameSelection cc dflt none (some s) := by
  intro sel sel' h1 h2
  cases h1
  cases h2 with
  | edited hl hs =>
    exact absurd hs (hp _ ((h _).1 ((listOption_named hc _ _).1 (by simp only [listOption, hl]; exact List.mem_cons_self))))
  | listed =>
    intro f
    rw [← h f, ← listOption_named hc]
    rfl

/-- **C144.** The same fields added and removed, in any order, select the same fields. -/
theorem C144_edited {cc : CharClass} (dflt : List Str) (s s' item item' : Str) (items items' : List Str)
    (hl : commaList cc s = item :: items) (hl' : commaList cc s' = item' :: items') (hs : signed item) (hs' : signed item')
    (h : (edits false (item :: items)).Perm (edits false (item' :: items'))) :
    SameSelection cc dflt (some s) (some s') := by
  intro sel sel' h1 h2
  cases h1 with
  | listed hn => exact absurd hs (hn _ _ hl)
  | edited e1 _ c1 =>
    rw [hl] at e1
    cases e1
    cases h2 with
    | listed hn => exact absurd hs' (hn _ _ hl')
    | edited e2 _ c2 =>
      rw [hl'] at e2
      cases e2
      intro x
      have a1 := c1 x
      have a2 := c2 x
      rw [← h.count_eq, ← h.count_eq] at a2
      rw [← List.count_pos_iff, ← List.count_pos_iff]
      omega

theorem sameCliTool_default {cc : CharClass} {t t' : CliTool} (h : SameCliTool cc t t') :
    t'.defaultFields = t.defaultFields ∧ t'.defaultSubFields = t.defaultSubFields ∧ t'.hasChecks = t.hasChecks ∧
    t'.container = t.container := by
  cases h <;> exact ⟨rfl, rfl, rfl, rfl⟩

theorem sameCliTool_tool {env : CliEnv} (hc : env.tag.cc.isSpace ',' = false) {t t' : CliTool} (h : SameCliTool env.tag.cc t t')
    {x x' : Tool} (hx : t.tool env = .ok x) (hx' : t'.tool env = .ok x') :
    SameTool x x' ∧ x'.usesDefault = x.usesDefault := by
  cases h with
  | refl =>
    rw [hx] at hx'
    cases hx'
    exact ⟨.refl _, rfl⟩
  | segmentation config noMerge hs =>
    simp only [CliTool.tool] at hx hx'
    split at hx
    · cases hx
    · next cfg hcfg =>
      cases hx
      rw [hcfg] at hx'
      cases hx'
      exact ⟨.segmentation _ _ _ (listOption_same hc hs), rfl⟩

theorem sameCliTool_paths {cc : CharClass} {t t' : CliTool} (h : SameCliTool cc t t') {fields fields' : List Str}
    (hf : SameSet fields fields') :
    ∃ (base : Dict Str) (f f' : List Str), SameSet f f' ∧ t.paths cc fields = addFieldPaths base f ∧
      t'.paths cc fields' = addFieldPaths base f' := by
  have key : ∀ b : Dict Str, b = addFieldPaths b [] := fun b => rfl
  cases h with
  | refl =>
    cases t with
    | segmentation c n s => exact ⟨_, [], [], fun _ => .rfl, key _, key _⟩
    | _ => exact ⟨_, fields, fields', hf, rfl, rfl⟩
  | segmentation c n hs => exact ⟨_, [], [], fun _ => .rfl, key _, key _⟩

/-- What the options given are read as. -/
theorem options_inv {env : CliEnv} {c : CliArgs} {o : RunOpts} (h : c.options env = .ok o) :
    ∃ fields subFields overrides mapping tool configs,
      fieldsOption env.tag.cc c.tool.defaultFields c.fields = .ok fields ∧
      c.tool.subFields env.tag.cc c.subFields = .ok subFields ∧
      overridesOption env.tag.cc c.overrides = .ok overrides ∧
      parseXmlMapping env.tag.cc env.tag.lower c.mapping = .ok mapping ∧ c.tool.tool env = .ok tool ∧
      matcherTagConfigs env tool c.plain.simpleMatcher (mappingAndFields mapping fields subFields overrides).1 = .ok configs ∧
      o = {
        tool := tool
        args := { c.plain with
          tagConfigMap := configs
          alwaysPreserve := listOption env.tag.cc c.alwaysPreserve
          fields := fields
          noPreserveSubFields := listOption env.tag.cc c.noPreserveSubFields }
        xmlPath := c.xmlPath
        xmlRegex := c.xmlRegex
        xmlMapping := (mappingAndFields mapping fields subFields overrides).1
        requireMatching := if c.tool.hasChecks then listOption env.tag.cc c.requireMatching else []
        required := if c.tool.hasChecks then listOption env.tag.cc c.required else []
        doc := {
          cc := env.tag.cc
          mapping := c.tool.paths env.tag.cc (mappingAndFields mapping fields subFields overrides).2
          okNode := env.okNode
          containerPath := c.tool.container
          preserveTags := true } } := by
  unfold CliArgs.options at h
  simp only at h
  split at h
  · cases h
  next f hf =>
  split at h
  · cases h
  next sf hsf =>
  split at h
  · cases h
  next ov hov =>
  split at h
  · cases h
  next m hm =>
  split at h
  · cases h
  next t ht =>
  split at h
  · cases h
  next cf hcf =>
  exact ⟨f, sf, ov, m, t, cf, hf, hsf, hov, hm, ht, hcf, (Except.ok.inj h).symm⟩

/-- **C144.** Two command lines which select the same are read as the same options, but for the order of sets. -/
theorem sameCommand_options {env : CliEnv} (hcc : PlainNames env.tag.cc) {c c' : CliArgs} (h : SameCommand env.tag.cc c c')
    {o o' : RunOpts} (ho : c.options env = .ok o) (ho' : c'.options env = .ok o') : SameOptions o o' := by
  have hc : env.tag.cc.isSpace ',' = false := hcc ',' (by decide) (by decide)
  obtain ⟨f, sf, ov, m, t, cf, hf, hsf, hov, hm, ht, hcf, rfl⟩ := options_inv ho
  obtain ⟨f', sf', ov', m', t', cf', hf', hsf', hov', hm', ht', hcf', rfl⟩ := options_inv ho'
  obtain ⟨e1, e2, e3, e4⟩ := sameCliTool_default h.tool
  rw [h.overrides, hov] at hov'
  cases hov'
  rw [h.mapping, hm] at hm'
  cases hm'
  have sf1 : SameSet f f' := by
    rw [e1] at hf'
    exact h.fields _ _ (selected_of_plainDefault hcc (defaultFields_plain _) hf)
      (selected_of_plainDefault hcc (defaultFields_plain _) hf')
  have sf2 : SameSet sf sf' := by
    rcases subFields_selected hcc hsf with ⟨h1, rfl⟩ | ⟨dflt, h1, h2⟩
    · rcases subFields_selected hcc hsf' with ⟨_, rfl⟩ | ⟨dflt, h1', _⟩
      · exact fun _ => .rfl
      · rw [e2, h1] at h1'
        cases h1'
    · rcases subFields_selected hcc hsf' with ⟨h1', _⟩ | ⟨dflt', h1', h2'⟩
      · rw [e2, h1] at h1'
        cases h1'
      · rw [e2, h1] at h1'
        cases h1'
        exact h.subFields _ h1 _ _ h2 h2'
  obtain ⟨m1, m2⟩ := C131_fields f f' sf sf' sf1 sf2 m ov
  obtain ⟨t1, t2⟩ := sameCliTool_tool hc h.tool ht ht'
  have hcf2 : cf' = cf := by
    rw [← m1, h.plain] at hcf'
    unfold matcherTagConfigs at hcf hcf'
    rw [t2, hcf] at hcf'
    exact (Except.ok.inj hcf').symm
  subst hcf2
  obtain ⟨base, p, p', p1, p2, p3⟩ := sameCliTool_paths h.tool m2
  refine ⟨t1, ⟨f', listOption env.tag.cc c'.alwaysPreserve, listOption env.tag.cc c'.noPreserveSubFields, ?_, sf1,
    listOption_same hc h.alwaysPreserve, listOption_same hc h.noPreserveSubFields⟩, h.xmlPath, h.xmlRegex, m1.symm, ?_, ?_,
    ⟨base, p, p', p1, p2, ?_⟩⟩
  · simp only [h.plain]
  · simp only [e3]
    split
    · exact listOption_same hc h.requireMatching
    · exact fun _ => .rfl
  · simp only [e3]
    split
    · exact listOption_same hc h.required
    · exact fun _ => .rfl
  · simp only [p3, e4]

theorem no_checks {env : CliEnv} (hcc : PlainNames env.tag.cc) {c : CliArgs} {o : RunOpts} (ho : c.options env = .ok o)
    (hn : ¬ checksFields env.tag.cc c) : o.requireMatching = [] ∧ o.required = [] := by
  have hc : env.tag.cc.isSpace ',' = false := hcc ',' (by decide) (by decide)
  obtain ⟨f, sf, ov, m, t, cf, _, _, _, _, _, _, rfl⟩ := options_inv ho
  have a : listOption env.tag.cc c.requireMatching = [] :=
    List.eq_nil_iff_forall_not_mem.2 fun f hf => hn ⟨f, .inl ((listOption_named hc _ _).1 hf)⟩
  have b : listOption env.tag.cc c.required = [] :=
    List.eq_nil_iff_forall_not_mem.2 fun f hf => hn ⟨f, .inr ((listOption_named hc _ _).1 hf)⟩
  simp only [a, b, ite_self, and_self]

/-- **C144.** For two command lines which select the same, the document written for a source file, and its path, are
the same. The tool for segmentation has its own checks, see `C144_segmentation`. -/
theorem C144_document (env : CliEnv) (hcc : PlainNames env.tag.cc) (c c' : CliArgs) (h : SameCommand env.tag.cc c c')
    (o o' : RunOpts) (ho : c.options env = .ok o) (ho' : c'.options env = .ok o')
    (hseg : (∃ config n s, c.tool = .segmentation config n s) → ¬ checksFields env.tag.cc c)
    (renv : RunEnv) (cfg : PipelineConfig) (fs : FileStore) (u : Str) :
    annotateFile renv o cfg fs u = annotateFile renv o' cfg fs u := by
  refine C131_document renv o o' cfg fs u (sameCommand_options hcc h ho ho') ?_
  intro hu
  refine no_checks hcc ho (hseg ?_)
  obtain ⟨f, sf, ov, m, t, cf, _, _, _, _, ht, _, rfl⟩ := options_inv ho
  cases hct : c.tool with
  | segmentation config n s => exact ⟨config, n, s, rfl⟩
  | _ =>
    rw [hct] at ht
    cases ht
    exact absurd hu (by simp [usesSegChecks])

/-- **C144.** So are the files of runs over many documents, in any interleaving. -/
theorem C144_run (env : CliEnv) (hcc : PlainNames env.tag.cc) (c c' : CliArgs) (h : SameCommand env.tag.cc c c')
    (o o' : RunOpts) (ho : c.options env = .ok o) (ho' : c'.options env = .ok o')
    (hseg : (∃ config n s, c.tool = .segmentation config n s) → ¬ checksFields env.tag.cc c)
    (renv : RunEnv) (cfg : PipelineConfig) (jobs : List Str) (fs0 : FileStore) (j : JobsConfig) :
    JobsReach cfg (processFile renv o cfg) jobs fs0 j ↔ JobsReach cfg (processFile renv o' cfg) jobs fs0 j := by
  refine C131_run renv o o' cfg (sameCommand_options hcc h ho ho') ?_ jobs fs0 j
  intro hu
  refine no_checks hcc ho (hseg ?_)
  obtain ⟨f, sf, ov, m, t, cf, _, _, _, _, ht, _, rfl⟩ := options_inv ho
  cases hct : c.tool with
  | segmentation config n s => exact ⟨config, n, s, rfl⟩
  | _ =>
    rw [hct] at ht
    cases ht
    exact absurd hu (by simp [usesSegChecks])

/-- **C144.** With the checks of the tool for segmentation, the documents which pass and what is written for them are
the same. -/
theorem C144_segmentation (env : CliEnv) (hcc : PlainNames env.tag.cc) (c c' : CliArgs) (h : SameCommand env.tag.cc c c')
    (o o' : RunOpts) (ho : c.options env = .ok o) (ho' : c'.options env = .ok o')
    (renv : RunEnv) (cfg : PipelineConfig) (fs : FileStore) (u : Str)
    (hf : failedOutput cfg.failedOutputPath u ≠ some (annotatedOutput cfg.outputPath u)) (root : Elem)
    (hok : annotateFile renv o cfg fs u = .ok (some (annotatedOutput cfg.outputPath u, root))) :
    annotateFile renv o' cfg fs u = .ok (some (annotatedOutput cfg.outputPath u, root)) :=
  C131_segmentation renv o o' cfg fs u (sameCommand_options hcc h ho ho') hf root hok

/-! ### Examples -/

/-- Two lists with the same names. -/
theorem exSameNames : SameNames asciiClass (some c!"title,abstract") (some c!"abstract , title,title") := by
  intro f
  rw [← listOption_named rfl, ← listOption_named rfl]
  have h1 : listOption asciiClass (some c!"title,abstract") = [c!"title", c!"abstract"] := by decide +kernel
  have h2 : listOption asciiClass (some c!"abstract , title,title") = [c!"abstract", c!"title", c!"title"] := by
    decide +kernel
  rw [h1, h2]
  simp only [List.mem_cons, List.not_mem_nil, or_false]
  constructor
  · rintro (h | h)
    · exact .inr (.inl h)
    · exact .inl h
  · rintro (h | h | h)
    · exact .inr h
    · exact .inl h
    · exact .inl h

/-- Neither of the names has a sign. -/
theorem exNotSigned : ∀ f, namedIn asciiClass (some c!"title,abstract") f → ¬ signed f := by
  intro f hf
  rw [← listOption_named rfl] at hf
  have h1 : listOption asciiClass (some c!"title,abstract") = [c!"title", c!"abstract"] := by decide +kernel
  rw [h1] at hf
  simp only [List.mem_cons, List.not_mem_nil, or_false] at hf
  rintro ⟨v, hv | hv⟩ <;> rcases hf with e | e <;> (rw [e] at hv; injection hv with hv _; exact absurd hv (by decide))

/-- Not vacuous: two command lines with the same fields and the same fields to be checked. -/
example : SameCommand asciiClass (exCheckCli (.fulltext false false false) (some c!"title,abstract") none)
    { exCheckCli (.fulltext false false false) (some c!"abstract , title,title") none with
      fields := some c!"abstract , title,title" } where
  tool := .refl _
  fields := C144_listed rfl _ _ _ exSameNames exNotSigned
  subFields := by
    intro dflt _ sel sel' h1 h2
    cases h1
    cases h2
    exact fun _ => .rfl
  alwaysPreserve := fun _ => .rfl
  noPreserveSubFields := fun _ => .rfl
  requireMatching := exSameNames
  required := fun _ => .rfl
  plain := rfl
  mapping := rfl
  xmlPath := rfl
  xmlRegex := rfl
  overrides := rfl

/-- The path of the file written for these. -/
def exOrderPath (fields : Str) : Option Str :=
  match ({ exCheckCli (.fulltext false false false) (some fields) none with fields := some fields } : CliArgs).options exCliEnv with
  | .error _ => none
  | .ok o =>
    match annotateFile exRunEnv o pipelineExample exRunFiles c!"in/b.tei" with
    | .ok (some (p, _)) => some p
    | _ => none

/-- Both can be read, and the title of the document is found in neither run. -/
example : exOrderPath c!"title,abstract" = some c!"f/b.tei" ∧ exOrderPath c!"abstract , title,title" = some c!"f/b.tei" := by
  decide +kernel

/-- Not vacuous: adding and removing fields in different order. -/
example : SameSelection asciiClass [c!"figure"] (some c!"+table,+list,-figure") (some c!"-figure,+list,+table") :=
  C144_edited _ _ _ c!"+table" c!"-figure" [c!"+list", c!"-figure"] [c!"+list", c!"+table"] (by decide +kernel)
    (by decide +kernel) ⟨_, .inl rfl⟩ ⟨_, .inr rfl⟩ (by decide +kernel)

/-- Not vacuous: the default of the tool for figures. -/
example : SameSelection asciiClass [c!"figure"] none (some c!" figure") := by
  refine C144_default rfl _ _ ?_ ?_
  · intro f
    rw [← listOption_named rfl]
    have h1 : listOption asciiClass (some c!" figure") = [c!"figure"] := by decide +kernel
    rw [h1]
  · intro f hf
    rw [List.mem_singleton] at hf
    rintro ⟨v, hv | hv⟩ <;> (rw [hf] at hv; injection hv with hv _; exact absurd hv (by decide))

end Verif
