/-
C143 (the checks asked for on the command line decide where a document is written).
-/
import Verif.Props.CommandLine
import Verif.Props.SegChecks
import Verif.Spec.RunChecks

namespace Verif
open Spec Props

theorem listOption_named {cc : CharClass} (hc : cc.isSpace ',' = false) (opt : Option Str) (f : Str) :
    f ∈ listOption cc opt ↔ namedIn cc opt f := by
  cases opt with
  | none => simp [listOption, namedIn]
  | some s =>
    simp only [listOption]
    have key : ∀ parts : List Str, parts ≠ [] → (∀ p ∈ parts, ',' ∉ p) → s = joinStr c!"," parts →
        (f ∈ commaList cc s ↔ (∃ c ∈ s, cc.isSpace c = false) ∧ ∃ p ∈ parts, f = strip cc p) := by
      intro parts h1 h2 h3
      rw [h3, C42_comma_list cc hc parts h1 h2, ← h3]
      split
      · next hb =>
        constructor
        · intro h; cases h
        · rintro ⟨⟨c, hc, hcs⟩, _⟩
          rw [hb c hc] at hcs
          cases hcs
      · next hb =>
        have : ∃ c ∈ s, cc.isSpace c = false := Classical.byContradiction fun hn => hb fun c hc => by
          cases hsp : cc.isSpace c with
          | true => rfl
          | false => exact absurd ⟨c, hc, hsp⟩ hn
        simp only [this, true_and, List.mem_map]
        exact ⟨fun ⟨p, hp, he⟩ => ⟨p, hp, he.symm⟩, fun ⟨p, hp, he⟩ => ⟨p, hp, he.symm⟩⟩
    constructor
    · intro h
      obtain ⟨parts, h1, h2, h3⟩ := C42_parts s
      obtain ⟨h4, h5⟩ := (key parts h1 h2 h3).1 h
      exact ⟨s, parts, rfl, h4, h1, h2, h3, h5⟩
    · rintro ⟨s', parts, hs, h4, h1, h2, h3, h5⟩
      cases hs
      exact (key parts h1 h2 h3).2 ⟨h4, h5⟩

theorem targetsOf_check (items : List TargetItem) (f : Str) :
    targetsOf (items.map (·.check)) f = (items.filter (fun i => decide (i.target.name = f))).map (·.check) := by
  unfold targetsOf
  rw [List.filter_map]
  rfl

theorem targetsOf_nil_iff (items : List TargetItem) (f : Str) :
    targetsOf (items.map (·.check)) f = [] ↔ valuesOf items f = [] := by
  rw [targetsOf_check]
  unfold valuesOf
  simp

theorem targetsOf_one_iff (items : List TargetItem) (f v : Str) :
    targetsOf (items.map (·.check)) f = [⟨f, some v⟩] ↔ valuesOf items f = [.one v] := by
  rw [targetsOf_check]
  unfold valuesOf
  have hn : ∀ i ∈ items.filter (fun i => decide (i.target.name = f)), i.target.name = f := by
    intro i hi
    simpa using (List.mem_filter.1 hi).2
  generalize items.filter (fun i => decide (i.target.name = f)) = l at hn ⊢
  match l, hn with
  | [], _ => simp
  | [i], hn =>
    have h1 := hn i (by simp)
    simp only [List.map_cons, List.map_nil, List.cons.injEq, and_true]
    unfold TargetItem.check
    rw [h1]
    cases i.target.value <;> simp
  | i :: j :: is, _ => simp

/-- The condition of the checks in terms of the values in the target file. -/
theorem fieldsFine_iff (m r : List Str) (items : List TargetItem) (found : Str → Str → Prop) :
    ((m = [] ∧ r = []) ∨
      (items.map (·.check) ≠ [] ∧ (∀ f ∈ m ++ r, usable (items.map (·.check)) f) ∧
        (∀ f ∈ r, targetsOf (items.map (·.check)) f ≠ []) ∧
        ∀ f ∈ m ++ r, ∀ v, targetsOf (items.map (·.check)) f = [⟨f, some v⟩] → found f v)) ↔
    FieldsFine (· ∈ m) (· ∈ r) items found := by
  unfold FieldsFine usable
  have h0 : (m = [] ∧ r = []) ↔ ∀ f, ¬ f ∈ m ∧ ¬ f ∈ r := by
    rw [List.eq_nil_iff_forall_not_mem, List.eq_nil_iff_forall_not_mem]
    exact ⟨fun h f => ⟨h.1 f, h.2 f⟩, fun h => ⟨fun f => (h f).1, fun f => (h f).2⟩⟩
  rw [h0]
  refine or_congr Iff.rfl (and_congr (by simp) ?_)
  simp only [List.mem_append, targetsOf_nil_iff, targetsOf_one_iff, ne_eq]
  constructor
  · rintro ⟨h1, h2, h3⟩ f hf
    rcases h1 f hf with h | ⟨v, hv⟩
    · exact .inl ⟨h, fun hr => h2 f hr h⟩
    · exact .inr ⟨v, hv, h3 f hf v hv⟩
  · intro h
    refine ⟨fun f hf => ?_, fun f hf hn => ?_, fun f hf v hv => ?_⟩
    · rcases h f hf with ⟨h, _⟩ | ⟨v, hv, _⟩
      · exact .inl h
      · exact .inr ⟨v, hv⟩
    · rcases h f (.inr hf) with ⟨_, h⟩ | ⟨v, hv, _⟩
      · exact h hf
      · rw [hn] at hv; cases hv
    · rcases h f hf with ⟨h, _⟩ | ⟨w, hw, hfound⟩
      · rw [h] at hv; cases hv
      · rw [hw] at hv; cases hv; exact hfound

theorem entityText_labelled (d : Doc) (f : Str) : Props.entityText d f = textLabelled d f := by
  unfold Props.entityText textLabelled
  rw [(C27_entities d).1, List.filter_map, List.map_map]
  rfl

theorem entities_labelled (d : Doc) (f : Str) : (∃ p ∈ entities d, p.1 = f) ↔ someLabelled d f := by
  unfold someLabelled
  rw [(C27_entities d).1]
  simp only [List.mem_map]
  constructor
  · rintro ⟨_, ⟨p, hp, rfl⟩, h⟩; exact ⟨p, hp, h⟩
  · rintro ⟨p, hp, h⟩; exact ⟨_, ⟨p, hp, rfl⟩, h⟩

/-- The checks of a run pass exactly if the fields to be checked are as required. -/
theorem runChecks_iff (env : RunEnv) (o : RunOpts) (items : List TargetItem) (d : Doc) :
    runChecks env o items d = .ok true ↔
      FieldsFine (· ∈ o.requireMatching) (· ∈ o.required) items (valueFound env o.tool d) := by
  rw [← fieldsFine_iff]
  unfold runChecks
  cases ht : o.tool with
  | segmentation cfg fields =>
    simp only [valueFound, C98_passes, entities_labelled, entityText_labelled]
  | _ => simp only [valueFound, C28_passes, entities_labelled, entityText_labelled]

/-- The fields to be checked are those given. -/
theorem options_checks {env : CliEnv} {c : CliArgs} {o : RunOpts} (h : c.options env = .ok o) :
    (hasCheckOptions c.tool → o.requireMatching = listOption env.tag.cc c.requireMatching ∧
      o.required = listOption env.tag.cc c.required) ∧
    (¬ hasCheckOptions c.tool → o.requireMatching = [] ∧ o.required = []) := by
  unfold CliArgs.options at h
  simp only at h
  split at h
  · cases h
  split at h
  · cases h
  split at h
  · cases h
  split at h
  · cases h
  split at h
  · cases h
  split at h
  · cases h
  have h := Except.ok.inj h
  subst h
  cases c.tool <;> simp [hasCheckOptions, CliTool.hasChecks]

/-- **C143.** From the command line: the document made for a source file, if there is no error, is written to the
directory for the output exactly if the fields named in the options for checks are as required in the annotated
document (or if the tool has no such options); otherwise it is written to the directory for failed checks, if there is
one, and not at all if there is none. -/
theorem C143_file (env : CliEnv) (hcc : env.tag.cc.isSpace ',' = false) (c : CliArgs) (o : RunOpts)
    (ho : c.options env = .ok o) (renv : RunEnv) (cfg : PipelineConfig) (fs : FileStore) (u : Str)
    (r : Option (Str × Elem)) (h : annotateFile renv o cfg fs u = .ok r) :
    ∃ (data final path : Str) (items : List TargetItem) (root : Elem) (d0 d : Doc),
      fs u = some data ∧ finalSource renv o.tool data = .ok final ∧ renv.parseSource final = .ok root ∧
      targetXml renv.reSub o.xmlPath o.xmlRegex u = .ok path ∧ readTargets renv o fs path = .ok items ∧
      loadDoc { o.doc with preserveTags := true } root = .ok d0 ∧
      annotateAll (o.tool.annotators renv.tool (o.withTargets path items))
        (beforeAnnotator (o.tool.annotateCfg (o.withTargets path items)) d0) = .ok d ∧
      let fine := ¬ hasCheckOptions c.tool ∨ FieldsFine (namedIn env.tag.cc c.requireMatching) (namedIn env.tag.cc c.required)
        items (valueFound renv o.tool d)
      (fine → ∃ x, docRoot o.doc root d = .ok x ∧ r = some (annotatedOutput cfg.outputPath u, x)) ∧
      (¬ fine → ∀ f, failedOutput cfg.failedOutputPath u = some f → ∃ x, docRoot o.doc root d = .ok x ∧ r = some (f, x)) ∧
      (¬ fine → failedOutput cfg.failedOutputPath u = none → r = none) := by
  unfold annotateFile at h
  split at h
  · cases h
  · next data hdata =>
    split at h
    · cases h
    · next final hfinal =>
      split at h
      · cases h
      · next path hpath =>
        split at h
        · cases h
        · next items hitems =>
          split at h
          · cases h
          · next root hroot =>
            obtain ⟨d0, d, ok, h0, h1, h2, h3, h4, h5⟩ := C15_saved _ _ _ _ h
            refine ⟨data, final, path, items, root, d0, d, hdata, hfinal, hroot, hpath, hitems, h0, h1, ?_⟩
            intro fine
            have hfine : ok = true ↔ fine := by
              have e1 : ok = true ↔ runChecks renv o items d = .ok true := by
                have h2 : runChecks renv o items d = .ok ok := h2
                rw [h2]
                simp
              rw [e1, runChecks_iff]
              obtain ⟨g1, g2⟩ := options_checks ho
              by_cases ht : hasCheckOptions c.tool
              · obtain ⟨k1, k2⟩ := g1 ht
                rw [k1, k2]
                have a1 : (fun f => f ∈ listOption env.tag.cc c.requireMatching) = namedIn env.tag.cc c.requireMatching :=
                  funext fun f => propext (listOption_named hcc _ f)
                have a2 : (fun f => f ∈ listOption env.tag.cc c.required) = namedIn env.tag.cc c.required :=
                  funext fun f => propext (listOption_named hcc _ f)
                rw [a1, a2]
                exact ⟨.inr, fun h => h.resolve_left (fun hn => hn ht)⟩
              · obtain ⟨k1, k2⟩ := g2 ht
                rw [k1, k2]
                exact ⟨fun _ => .inl ht, fun _ => .inl (by simp)⟩
            refine ⟨fun hf => h3 (hfine.2 hf), fun hf f hff => ?_, fun hf hff => ?_⟩
            · have hk : ok = false := by
                cases hok : ok with
                | false => rfl
                | true => exact absurd (hfine.1 hok) hf
              have htr : truthy (failedOutput cfg.failedOutputPath u) = true :=
                truthy_iff.2 ⟨f, hff, failedOutput_ne_nil hff⟩
              obtain ⟨f', x, h6, h7, h8⟩ := h4 hk htr
              rw [hff] at h6
              cases h6
              exact ⟨x, h7, h8⟩
            · have hk : ok = false := by
                cases hok : ok with
                | false => rfl
                | true => exact absurd (hfine.1 hok) hf
              exact h5 hk (by rw [hff]; rfl)

theorem eq_of_sameName {jobs : List Str} (h : DifferentNames jobs) {u v : Str} (hu : u ∈ jobs) (hv : v ∈ jobs)
    (he : baseName u = baseName v) : u = v := by
  induction jobs with
  | nil => cases hu
  | cons w ws ih =>
    obtain ⟨h1, h2⟩ := List.pairwise_cons.1 h
    rcases List.mem_cons.1 hu with hu' | hu'
    · rcases List.mem_cons.1 hv with hv' | hv'
      · rw [hu', hv']
      · exact absurd (hu' ▸ he) (h1 v hv')
    · rcases List.mem_cons.1 hv with hv' | hv'
      · exact absurd (hv' ▸ he.symm) (h1 u hu')
      · exact ih h2 hu' hv'

/-- **C143.** After a run from the command line, whatever the order of the steps of the workers, for each source file
processed without an error: if the fields named in the options for checks are as required then the annotated document is
the file in the directory for the output; if not then that file is as it was before the run, and the annotated document
is the file in the directory for failed checks, if there is such a directory. -/
theorem C143_run (env : CliEnv) (hcc : env.tag.cc.isSpace ',' = false) (c : CliArgs) (o : RunOpts)
    (ho : c.options env = .ok o) (renv : RunEnv) (cfg : PipelineConfig) (jobs : List Str) (fs0 : FileStore)
    (hnames : DifferentNames jobs) (hread : ReadApart renv o cfg jobs) (jc : JobsConfig)
    (hc : JobsReach cfg (processFile renv o cfg) jobs fs0 jc) (hcomp : jc.complete) (u : Str) (hu : u ∈ jobs)
    (hdirs : failedOutput cfg.failedOutputPath u ≠ some (annotatedOutput cfg.outputPath u))
    (r : Option (Str × Elem)) (h : annotateFile renv o cfg fs0 u = .ok r) :
    ∃ (path : Str) (items : List TargetItem) (root : Elem) (d0 d : Doc), SourceRoot renv o fs0 u root ∧
      targetXml renv.reSub o.xmlPath o.xmlRegex u = .ok path ∧ readTargets renv o fs0 path = .ok items ∧
      loadDoc { o.doc with preserveTags := true } root = .ok d0 ∧
      annotateAll (o.tool.annotators renv.tool (o.withTargets path items))
        (beforeAnnotator (o.tool.annotateCfg (o.withTargets path items)) d0) = .ok d ∧
      let fine := ¬ hasCheckOptions c.tool ∨ FieldsFine (namedIn env.tag.cc c.requireMatching) (namedIn env.tag.cc c.required)
        items (valueFound renv o.tool d)
      (fine → ∃ x, docRoot o.doc root d = .ok x ∧ jc.fs (annotatedOutput cfg.outputPath u) = some (renv.tostring x)) ∧
      (¬ fine → jc.fs (annotatedOutput cfg.outputPath u) = fs0 (annotatedOutput cfg.outputPath u) ∧
        ∀ f, failedOutput cfg.failedOutputPath u = some f →
          ∃ x, docRoot o.doc root d = .ok x ∧ jc.fs f = some (renv.tostring x)) := by
  obtain ⟨data, final, path, items, root, d0, d, h1, h2, h3, h4, h5, h6, h7, h8⟩ := C143_file env hcc c o ho renv cfg fs0 u r h
  obtain ⟨g1, g2⟩ := C130_run renv o cfg jobs fs0 hnames hread jc hc hcomp
  refine ⟨path, items, root, d0, d, ⟨data, final, h1, h2, h3⟩, h4, h5, h6, h7, ?_⟩
  intro fine
  obtain ⟨k1, k2, k3⟩ := h8
  refine ⟨fun hf => ?_, fun hf => ⟨?_, fun f hff => ?_⟩⟩
  · obtain ⟨x, hx, hr⟩ := k1 hf
    subst hr
    exact ⟨x, hx, g1 u hu _ _ h⟩
  · refine g2 _ fun v hv x hx => ?_
    have hmem : annotatedOutput cfg.outputPath u ∈ outputPaths cfg v :=
      toSave_mem ((toSave_processFile renv o cfg fs0 v _ _).2 ⟨x, hx, rfl⟩)
    have he : v = u := eq_of_sameName hnames hv hu
      ((outputPaths_name hmem).symm.trans (outputPaths_name (output_mem cfg u)))
    subst he
    rw [h] at hx
    have hr := Except.ok.inj hx
    cases hfo : failedOutput cfg.failedOutputPath v with
    | none =>
      rw [k3 hf hfo] at hr
      cases hr
    | some f =>
      obtain ⟨y, _, hy⟩ := k2 hf f hfo
      rw [hy] at hr
      have hr := (Prod.mk.inj (Option.some.inj hr)).1
      exact hdirs (by rw [hfo, hr])
  · obtain ⟨x, hx, hr⟩ := k2 hf f hff
    subst hr
    exact ⟨x, hx, g1 u hu _ _ h⟩

/-! ### Example -/

/-- Titles annotated by the tool for full text or for tables, with checks. -/
def exCheckCli (tool : CliTool) (matching required : Option Str) : CliArgs where
  tool := tool
  mapping := [c!"[article]", c!"title = title", c!"abstract = abstract"]
  xmlPath := c!"xml"
  xmlRegex := c!"/(.*).tei/\\1.xml/"
  fields := some c!"title,abstract"
  requireMatching := matching
  required := required

/-- The path of the file written for a source file. -/
def exCheckPath (tool : CliTool) (matching required : Option Str) (u : Str) : Option Str :=
  match (exCheckCli tool matching required).options exCliEnv with
  | .error _ => none
  | .ok o =>
    match annotateFile exRunEnv o pipelineExample exRunFiles u with
    | .ok (some (p, _)) => some p
    | _ => none

/-- Not vacuous: the title of `a` is found in the document, that of `b` is not; neither has an abstract. -/
example : exCliEnv.tag.cc.isSpace ',' = false ∧
    exCheckPath (.fulltext false false false) none none c!"in/b.tei" = some c!"o/b.tei" ∧
    exCheckPath (.fulltext false false false) (some c!"title, abstract") none c!"in/a.tei" = some c!"o/a.tei" ∧
    exCheckPath (.fulltext false false false) (some c!"title, abstract") none c!"in/b.tei" = some c!"f/b.tei" ∧
    exCheckPath (.fulltext false false false) (some c!"title") (some c!" abstract ") c!"in/a.tei" = some c!"f/a.tei" ∧
    exCheckPath (.table true) (some c!"title") (some c!"abstract") c!"in/b.tei" = some c!"o/b.tei" := by
  decide +kernel

example : namedIn asciiClass (some c!"title, abstract ") c!"abstract" :=
  (listOption_named rfl _ _).1 (by decide +kernel)

/-- The directories of the example are different. -/
example : failedOutput pipelineExample.failedOutputPath c!"in/a.tei" ≠
    some (annotatedOutput pipelineExample.outputPath c!"in/a.tei") := by decide +kernel

end Verif
