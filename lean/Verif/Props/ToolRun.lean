/-
What a run of a tool over many files writes (C130).
-/
import Verif.Lemmas.LocalFiles
import Verif.Props.Pipeline
import Verif.Props.SaveAgain
import Verif.Props.SourceFiles
import Verif.Props.TargetAnnotations
import Verif.Props.TargetFile
import Verif.Props.Tools
import Verif.Spec.ToolRun

namespace Verif

open Spec

/-! ### The targets of the checks -/

/-- Each annotator of a tool is listed. -/
theorem annotatorTargets_length (env : ToolEnv) (a : ToolArgs) (items : List TargetItem) (tool : Tool) :
    (tool.annotatorTargets a items).length = (tool.annotators env a).length := by
  have h : ∀ useSub, ((if a.useLineNumbers then [none] else []) ++ (if a.hasXml then [some items] else [])).length = (defaultAnnotators env a useSub).length := by
    intro useSub
    unfold defaultAnnotators
    cases a.useLineNumbers <;> cases a.hasXml <;> rfl
  cases tool with
  | header => exact h _
  | referenceSegmenter => exact h _
  | segmentation cfg np =>
    show (((if a.useLineNumbers then [none] else []) ++ (if a.hasXml then [some items] else [])) ++ [none]).length = (defaultAnnotators env a false ++ [_]).length
    generalize (if a.useLineNumbers then [none] else []) ++ (if a.hasXml then [some items] else []) = l at h
    rw [List.length_append, h false, List.length_append]
    rfl
  | fulltext ne previous following => cases previous <;> cases following <;> rfl
  | figure seg => rfl
  | table seg => rfl
  | reference seg ip ri => cases ri <;> rfl
  | affiliation seg ri => cases ri <;> rfl

/-- The checks get the target annotations which were read: the first annotator having any has these, and if none has then none were read. -/
theorem C28_checked_targets (env : RunEnv) (o : RunOpts) (fs : FileStore) (path : Str) (items : List TargetItem) (h : readTargets env o fs path = .ok items) :
    (targetsFromAnnotators (o.tool.annotatorTargets (o.withTargets path items) items)).getD [] = items := by
  have hd : o.tool.usesDefault = true → ∀ lines last : Bool,
      (targetsFromAnnotators ((if lines then [none] else []) ++ (if (o.withTargets path items).hasXml then [some items] else []) ++
        (if last then [none] else []))).getD [] = items := by
    intro hu lines last
    show (targetsFromAnnotators ((if lines then [none] else []) ++ (if (!path.isEmpty) = true then [some items] else []) ++ _)).getD [] = items
    unfold readTargets at h
    rw [hu] at h
    cases hp : path.isEmpty with
    | true =>
      rw [hp] at h
      cases h
      cases lines <;> cases last <;> rfl
    | false => cases lines <;> cases last <;> rfl
  cases ht : o.tool with
  | header =>
    have := hd (by rw [ht]; rfl) (o.withTargets path items).useLineNumbers false
    rwa [if_neg Bool.false_ne_true, List.append_nil] at this
  | referenceSegmenter =>
    have := hd (by rw [ht]; rfl) (o.withTargets path items).useLineNumbers false
    rwa [if_neg Bool.false_ne_true, List.append_nil] at this
  | segmentation cfg np => exact hd (by rw [ht]; rfl) (o.withTargets path items).useLineNumbers true
  | fulltext ne previous following => rfl
  | figure seg => rfl
  | table seg => rfl
  | reference seg ip ri => rfl
  | affiliation seg ri => rfl

/-! ### Names of output files -/

theorem baseName_joinPath (dir : Str) {name : Str} (hname : '/' ∉ name) : baseName (joinPath dir name) = name := by
  unfold joinPath
  have h0 : startsWith ['/'] name = false := by
    unfold startsWith
    rw [Bool.eq_false_iff]
    intro hc
    obtain ⟨t, ht⟩ := List.isPrefixOf_iff_prefix.mp hc
    exact hname (by rw [← ht]; simp)
  rw [h0]
  simp only [Bool.false_eq_true, if_false]
  split
  · next h =>
    rcases Bool.or_eq_true_iff.1 h with h | h
    · rw [List.isEmpty_iff.1 h]
      exact baseName_plain hname
    · unfold endsWith at h
      obtain ⟨t, ht⟩ := List.isSuffixOf_iff_suffix.mp h
      rw [← ht, List.append_assoc]
      exact baseName_slash hname t
  · exact baseName_slash hname dir

theorem outputPaths_name {cfg : PipelineConfig} {u q : Str} (h : q ∈ outputPaths cfg u) : baseName q = baseName u := by
  unfold outputPaths at h
  rcases List.mem_cons.1 h with rfl | h
  · exact baseName_joinPath _ (slash_not_mem_baseName u)
  · rw [Option.mem_toList] at h
    unfold failedOutput at h
    split at h
    · simp only [Option.some.injEq] at h
      subst h
      exact baseName_joinPath _ (slash_not_mem_baseName u)
    · cases h

/-- **C130.** The outputs of the source files are different files exactly if the source files have different names. -/
theorem C130_separate (cfg : PipelineConfig) (sources : List Str) :
    SeparateOutputs cfg sources ↔ DifferentNames sources := by
  unfold SeparateOutputs DifferentNames
  constructor
  · refine fun h => h.imp fun {u v} h he => ?_
    refine h _ (output_mem cfg u) ?_
    have : annotatedOutput cfg.outputPath u = annotatedOutput cfg.outputPath v := by
      unfold annotatedOutput
      rw [he]
    rw [this]
    exact output_mem cfg v
  · exact fun h => h.imp fun {u v} h q hu hv => h ((outputPaths_name hu).symm.trans (outputPaths_name hv))

/-! ### What a document is made from -/

/-- **C130.** The document written for a source file, and whether there is one, depends on nothing but the source
file and its target file. -/
theorem C130_depends (env : RunEnv) (o : RunOpts) (cfg : PipelineConfig) (fs fs' : FileStore) (u : Str)
    (h : ∀ q, readsFile env o u q → fs q = fs' q) : annotateFile env o cfg fs u = annotateFile env o cfg fs' u := by
  unfold annotateFile
  rw [h u (.inl rfl)]
  cases fs' u with
  | none => rfl
  | some data =>
    simp only
    cases finalSource env o.tool data with
    | error e => rfl
    | ok final =>
      simp only
      cases ht : targetXml env.reSub o.xmlPath o.xmlRegex u with
      | error e => rfl
      | ok path =>
        have : readTargets env o fs path = readTargets env o fs' path := by
          unfold readTargets
          rw [h path (.inr ht)]
        simp only [this]

theorem processFile_independent {env : RunEnv} {o : RunOpts} {cfg : PipelineConfig} {sources : List Str}
    (h : ReadApart env o cfg sources) : IndependentOfOutputs cfg (processFile env o cfg) sources := by
  intro fs fs' hq u hu
  unfold processFile
  rw [C130_depends env o cfg fs fs' u (fun q hr => hq q fun v hv hqv => h v hv q hqv u hu hr)]

theorem joinPath_ne_nil {a : Str} (ha : a ≠ []) (b : Str) : joinPath a b ≠ [] := by
  unfold joinPath
  split
  · next hs =>
    intro hn
    rw [hn] at hs
    cases hs
  · split <;> simp [ha]

theorem failedOutput_ne_nil {f : Option Str} {u p : Str} (h : failedOutput f u = some p) : p ≠ [] := by
  unfold failedOutput at h
  split at h
  · next c s =>
    cases h
    exact joinPath_ne_nil (by simp) _
  · cases h

/-- A document is written to the output or to the output for failed checks; if none is written, there is no output
for failed checks. -/
theorem annotateFile_path {env : RunEnv} {o : RunOpts} {cfg : PipelineConfig} {fs : FileStore} {u : Str}
    {r : Option (Str × Elem)} (h : annotateFile env o cfg fs u = .ok r) :
    (∀ p x, r = some (p, x) → p = annotatedOutput cfg.outputPath u ∨ failedOutput cfg.failedOutputPath u = some p) ∧
      (r = none → failedOutput cfg.failedOutputPath u = none) := by
  unfold annotateFile at h
  split at h
  · cases h
  · split at h
    · cases h
    · split at h
      · cases h
      · split at h
        · cases h
        · split at h
          · cases h
          · refine ⟨?_, ?_⟩
            · rintro p x rfl
              obtain ⟨_, _, _, _, _, h4⟩ := run_steps h
              rcases h4 with h4 | h4
              · exact .inl h4.2
              · exact .inr h4.2
            · rintro rfl
              unfold Tool.run annotateDocument at h
              simp only at h
              split at h
              · cases h
              · split at h
                · cases h
                · split at h
                  · cases h
                  · split at h <;> cases h
                  · split at h
                    · split at h <;> cases h
                    · next hf =>
                      cases hfo : failedOutput cfg.failedOutputPath u with
                      | none => rfl
                      | some p =>
                        cases p with
                        | nil => exact absurd rfl (failedOutput_ne_nil hfo)
                        | cons c s => exact absurd hfo (hf c s)

/-- What the pipeline saves for a source file. -/
theorem toSave_processFile (env : RunEnv) (o : RunOpts) (cfg : PipelineConfig) (fs : FileStore) (u : Str) (p d : Str) :
    toSave cfg u (processFile env o cfg fs u) = some (p, d) ↔
      ∃ x, annotateFile env o cfg fs u = .ok (some (p, x)) ∧ d = env.tostring x := by
  unfold processFile
  cases h : annotateFile env o cfg fs u with
  | error e => simp [toSave]
  | ok r =>
    cases r with
    | none => simp [toSave, (annotateFile_path h).2 rfl]
    | some px =>
      obtain ⟨q, x⟩ := px
      simp only [Except.ok.injEq, Option.some.injEq, Prod.mk.injEq]
      split
      · next hq =>
        subst hq
        simp only [toSave, Option.some.injEq, Prod.mk.injEq]
        constructor
        · rintro ⟨h1, h2⟩
          exact ⟨x, ⟨h1, rfl⟩, h2.symm⟩
        · rintro ⟨y, ⟨h1, h2⟩, h3⟩
          exact ⟨h1, by rw [h3, h2]⟩
      · next hq =>
        have hf := ((annotateFile_path h).1 q x rfl).resolve_left hq
        simp only [toSave, hf, Option.map_some, Option.some.injEq, Prod.mk.injEq]
        constructor
        · rintro ⟨h1, h2⟩
          exact ⟨x, ⟨h1, rfl⟩, h2.symm⟩
        · rintro ⟨y, ⟨h1, h2⟩, h3⟩
          exact ⟨h1, by rw [h3, h2]⟩

/-- **C130.** A document is written to a file with the name of its source file in the directory for the output or, if
there is one, in the directory for documents that fail the checks. -/
theorem C130_paths (env : RunEnv) (o : RunOpts) (cfg : PipelineConfig) (fs : FileStore) (u p : Str) (x : Elem)
    (h : annotateFile env o cfg fs u = .ok (some (p, x))) :
    p = joinPath cfg.outputPath (baseName u) ∨
      ∃ f, f ≠ [] ∧ cfg.failedOutputPath = some f ∧ p = joinPath f (baseName u) := by
  rcases (annotateFile_path h).1 p x rfl with h1 | h1
  · exact .inl h1
  · right
    unfold failedOutput at h1
    split at h1
    · next c s hf =>
      exact ⟨c :: s, by simp, hf, (Option.some.inj h1).symm⟩
    · cases h1

/-- **C130.** What is written for a source file is its document, annotated by the tool with the options given and with
the target annotations found in its own target file, whichever of the matchers is used. -/
theorem C130_document (env : RunEnv) (o : RunOpts) (cfg : PipelineConfig) (fs : FileStore) (u p : Str) (x : Elem)
    (hxml : o.xmlPath ≠ []) (h : annotateFile env o cfg fs u = .ok (some (p, x))) :
    ∃ (data final path : Str) (items : List TargetItem) (root : Elem) (a : ToolArgs) (passes : Doc → Except Err Bool),
      fs u = some data ∧ finalSource env o.tool data = .ok final ∧ env.parseSource final = .ok root ∧
      targetXml env.reSub o.xmlPath o.xmlRegex u = .ok path ∧ path ≠ [] ∧
      (∃ tdata tag troot, fs path = some tdata ∧ env.parseTarget tdata = .ok (tag, troot) ∧
        xmlRootToTargetAnnotations (env.target troot) o.xmlMapping tag troot = .ok items) ∧
      o.tool.run env.tool a o.doc passes root (annotatedOutput cfg.outputPath u) (failedOutput cfg.failedOutputPath u) =
        .ok (some (p, x)) ∧
      a.hasXml = true ∧ a.targets = items.map (·.target) ∧
      a.coreTargets.map (fun t => (t.name, t.value, t.subs.map (fun s => (s.name, s.value)))) =
        items.map (fun i => (i.target.name, i.target.value, i.target.subs)) ∧
      a.coreTargets.map (fun t => (t.matchMultiple, t.bonding, t.requireNext)) =
        items.map (fun i => (i.matchMultiple, i.bonding, i.requireNext)) ∧
      { a with hasXml := o.args.hasXml, targets := o.args.targets, coreTargets := o.args.coreTargets } = o.args := by
  unfold annotateFile at h
  split at h
  · cases h
  · next data hd =>
    split at h
    · cases h
    · next final hf =>
      split at h
      · cases h
      · next path hp =>
        split at h
        · cases h
        · next items hi =>
          split at h
          · cases h
          · next root hroot =>
            have hne : path ≠ [] := by
              unfold targetXml at hp
              split at hp
              · cases hp
              · cases hp
                exact joinPath_ne_nil hxml _
            refine ⟨data, final, path, items, root, _, _, hd, hf, hroot, hp, hne, ?_, h, ?_, rfl, ?_, ?_, rfl⟩
            · unfold readTargets at hi
              rw [if_neg (by simp [hne])] at hi
              split at hi
              · cases hi
              · next tdata htd =>
                split at hi
                · cases hi
                · next tag troot hpt => exact ⟨tdata, tag, troot, htd, hpt, hi⟩
            · simp [RunOpts.withTargets, hne]
            · simp [RunOpts.withTargets, TargetItem.core, Function.comp_def]
            · simp [RunOpts.withTargets, TargetItem.core, Function.comp_def]

/-- **C130.** A source file that is valid and has no stray end tag is used as it is; the figure tool removes stray end
tags, and the tool for full text repairs files that are not valid. -/
theorem C130_source (env : RunEnv) (t : Tool) (data : Str) :
    (env.validXml data = true → (¬ c!"</content>" <:+: data ∨ c!"<content>" <:+: data) → finalSource env t data = .ok data) ∧
      (∀ seg, ¬ c!"<content>" <:+: data → 
        ∃ final, finalSource env (.figure seg) data = .ok final ∧ Substituted c!"</content>" [] data final) ∧
      (∀ a b c, env.validXml data = false → finalSource env (.fulltext a b c) data = fixEvents (env.tokenise data)) := by
  refine ⟨fun hv hc => ?_, fun seg hc => ?_, fun a b c hv => ?_⟩
  · cases t <;> simp only [finalSource]
    · simp [getFixedXmlStr, hv]
    · rw [C110_unchanged data hc]
  · exact ⟨_, rfl, C110_removed data hc⟩
  · simp [finalSource, getFixedXmlStr, hv]

/-! ### The files after a run -/

/-- **C130.** After a run of a tool, in whatever order the workers made their steps, the files are these: for each
source file the document annotated with the target annotations of its own target file, at the path of its output or
of its output for failed checks; all other files are as before. This takes source files with different names, and
outputs that are none of the files read. -/
theorem C130_run (env : RunEnv) (o : RunOpts) (cfg : PipelineConfig) (jobs : List Str) (fs0 : FileStore)
    (hnames : DifferentNames jobs) (hread : ReadApart env o cfg jobs) (c : JobsConfig)
    (hc : JobsReach cfg (processFile env o cfg) jobs fs0 c) (hcomp : c.complete) :
    (∀ u ∈ jobs, ∀ p x, annotateFile env o cfg fs0 u = .ok (some (p, x)) → c.fs p = some (env.tostring x)) ∧
      ∀ q, (∀ u ∈ jobs, ∀ x, annotateFile env o cfg fs0 u ≠ .ok (some (q, x))) → c.fs q = fs0 q := by
  have hsep := (C130_separate cfg jobs).2 hnames
  have hind := processFile_independent hread
  have hj := jobsInv_reach hind (List.Sublist.refl _) hsep hc
  have hs := (C17_outcome_partial cfg _ jobs fs0 hind hsep c hc hcomp c.states (List.Perm.refl _)).1
  refine ⟨fun u hu p x hx => ?_, fun q hq => ?_⟩
  · exact (hs u hu).1 p _ ((toSave_processFile env o cfg fs0 u p _).2 ⟨x, hx, rfl⟩)
  · by_cases h : ∃ u ∈ jobs, q ∈ outputPaths cfg u
    · obtain ⟨u, hu, hqu⟩ := h
      refine (hs u hu).2 q hqu fun d hd => ?_
      obtain ⟨x, hx, -⟩ := (toSave_processFile env o cfg fs0 u q d).1 hd
      exact hq u hu x hx
    · exact hj.other q fun u hu hqu => h ⟨u, hu, hqu⟩

/-- **C130.** The same after runs with resume that were interrupted anywhere except in the middle of writing an
output, followed by a run that was not, for the source files that had no output before. -/
theorem C130_resumed (env : RunEnv) (o : RunOpts) (cfg : PipelineConfig) (hres : cfg.resume = true)
    (sources : List Str) (fs0 : FileStore) (hnames : DifferentNames sources) (hread : ReadApart env o cfg sources)
    (runs : List PipelineRun) (fs : FileStore) (h : RunHistory cfg (processFile env o cfg) sources fs0 runs fs)
    (hclean : ∀ r ∈ runs, ∀ u ∈ sources, ¬ r.last.halfWritten (annotatedOutput cfg.outputPath u))
    (c : JobsConfig) (hc : JobsReach cfg (processFile env o cfg) (remainingFiles cfg fs sources) fs c) (hcomp : c.complete)
    (u : Str) (hu : u ∈ sources) (h0 : fs0 (annotatedOutput cfg.outputPath u) = none) (p : Str) (x : Elem)
    (hx : annotateFile env o cfg fs0 u = .ok (some (p, x))) : c.fs p = some (env.tostring x) :=
  ((C16_resume_partial cfg hres _ sources fs0 (processFile_independent hread) ((C130_separate cfg sources).2 hnames)
    runs fs h hclean c hc hcomp).1 u hu h0).1 p _ ((toSave_processFile env o cfg fs0 u p _).2 ⟨x, hx, rfl⟩)

/-- **C130.** What is written for a source file is the same as if it had been the only one of the run. -/
theorem C130_alone (env : RunEnv) (o : RunOpts) (cfg : PipelineConfig) (jobs : List Str) (fs0 fs1 : FileStore)
    (hnames : DifferentNames jobs) (hread : ReadApart env o cfg jobs) (c c' : JobsConfig) (u : Str) (hu : u ∈ jobs)
    (hsame : ∀ q, readsFile env o u q → fs0 q = fs1 q)
    (hc : JobsReach cfg (processFile env o cfg) jobs fs0 c) (hcomp : c.complete)
    (hc' : JobsReach cfg (processFile env o cfg) [u] fs1 c') (hcomp' : c'.complete) (p : Str) (x : Elem)
    (hx : annotateFile env o cfg fs0 u = .ok (some (p, x))) : c.fs p = c'.fs p := by
  rw [(C130_run env o cfg jobs fs0 hnames hread c hc hcomp).1 u hu p x hx]
  refine ((C130_run env o cfg [u] fs1 (List.pairwise_singleton _ _) ?_ c' hc' hcomp').1 u (by simp) p x ?_).symm
  · intro v hv q hq w hw
    rw [List.mem_singleton] at hv hw
    subst hv hw
    exact hread _ hu q hq _ hu
  · rw [← C130_depends env o cfg fs0 fs1 u hsame]
    exact hx

/-- **C130.** A file changed by a run has the text of the source file it was written for (after the repair of the
source file by the tools that do so), whatever the options, if references or affiliations without labels are not to
be removed and the source file has one container. -/
theorem C130_text (env : RunEnv) (o : RunOpts) (cfg : PipelineConfig) (jobs : List Str) (fs0 : FileStore)
    (hnames : DifferentNames jobs) (hread : ReadApart env o cfg jobs) (hr : ¬ removesText o.tool) (c : JobsConfig)
    (hc : JobsReach cfg (processFile env o cfg) jobs fs0 c) (hcomp : c.complete) (q : Str) (hq : c.fs q ≠ fs0 q) :
    ∃ u ∈ jobs, q ∈ outputPaths cfg u ∧ ∃ (data final : Str) (root root' : Elem),
      fs0 u = some data ∧ finalSource env o.tool data = .ok final ∧ env.parseSource final = .ok root ∧
      c.fs q = some (env.tostring root') ∧
      ((findAll o.doc.containerPath root).length = 1 → outerText root' = outerText root) := by
  obtain ⟨h1, h2⟩ := C130_run env o cfg jobs fs0 hnames hread c hc hcomp
  have : ∃ u ∈ jobs, ∃ x, annotateFile env o cfg fs0 u = .ok (some (q, x)) :=
    Classical.byContradiction fun hn => hq (h2 q fun u hu x hx => hn ⟨u, hu, x, hx⟩)
  obtain ⟨u, hu, x, hx⟩ := this
  refine ⟨u, hu, toSave_mem ((toSave_processFile env o cfg fs0 u q _).2 ⟨x, hx, rfl⟩), ?_⟩
  have hw := h1 u hu q x hx
  unfold annotateFile at hx
  split at hx
  · cases hx
  · next data hd =>
    split at hx
    · cases hx
    · next final hf =>
      split at hx
      · cases hx
      · split at hx
        · cases hx
        · split at hx
          · cases hx
          · next root hroot =>
            refine ⟨data, final, root, x, hd, hf, hroot, hw, fun hl => ?_⟩
            obtain ⟨ct, hct⟩ := List.length_eq_one_iff.1 hl
            exact (C92_text _ _ _ _ _ _ _ ct _ _ _ hr hct hx).1



/-! ### Examples -/

/-- Where a document is written to. -/
def outputOf (r : Except Err (Option (Str × Elem))) : Option Str :=
  match r with
  | .ok (some (p, _)) => some p
  | _ => none

/-- The data of a source file are its text, those of a target file the title. -/
def exRunEnv : RunEnv where
  tool := exToolEnv
  reSub := modelReSub
  parseSource data := if data.isEmpty then .error .exception else
    .ok (.mk c!"tei" [] none [.mk c!"text" [] (some data) [] none] none)
  parseTarget data := .ok (c!"article", .mk 0 none [.mk 1 (some data) [] none] none)
  target root := { targetExampleEnv with xpath := fun n s => if s = c!"title" ∧ n.id = 0 then root.children else [] }
  tostring := exXml
  validXml _ := true
  tokenise _ := []
  ratio _ _ := 1
  search _ _ := .ok true

/-- Titles, with target files in `xml` and a check for documents without a label for the title. -/
def exRunOpts : RunOpts where
  tool := .header
  xmlPath := c!"xml"
  xmlRegex := c!"/(.*).tei/\\1.xml/"
  xmlMapping := [(c!"article", [(c!"title", c!"title")])]
  requireMatching := [c!"title"]
  doc := exToolCfg

/-- Three source files, the last of which cannot be parsed, and their target files. -/
def exRunFiles : FileStore := fun p =>
  if p = c!"in/a.tei" then some c!"on some title"
  else if p = c!"in/b.tei" then some c!"another title"
  else if p = c!"in/e.tei" then some c!""
  else if p = c!"xml/a.xml" then some c!"some title"
  else if p = c!"xml/b.xml" then some c!"not in the document"
  else if p = c!"xml/e.xml" then some c!"title"
  else none

def exRunJobs : List Str := [c!"in/a.tei", c!"in/b.tei", c!"in/e.tei"]

theorem exRun_names : DifferentNames exRunJobs := by
  unfold DifferentNames
  decide +kernel

/-- The target files of the example. -/
def exRunTargets : List Str := [c!"xml/a.xml", c!"xml/b.xml", c!"xml/e.xml"]

theorem exRun_read : ReadApart exRunEnv exRunOpts pipelineExample exRunJobs := by
  have h1 : ∀ u ∈ exRunJobs, ∀ q ∈ outputPaths pipelineExample u, q ∉ exRunJobs ∧ q ∉ exRunTargets := by decide +kernel
  have h2 : ∀ v ∈ exRunJobs, ∃ t ∈ exRunTargets, targetXml exRunEnv.reSub exRunOpts.xmlPath exRunOpts.xmlRegex v = .ok t := by
    intro v hv
    unfold exRunJobs at hv
    simp only [List.mem_cons, List.not_mem_nil, or_false] at hv
    rcases hv with rfl | rfl | rfl
    · exact ⟨c!"xml/a.xml", by decide, rfl⟩
    · exact ⟨c!"xml/b.xml", by decide, rfl⟩
    · exact ⟨c!"xml/e.xml", by decide, rfl⟩
  intro u hu q hq v hv hr
  rcases hr with rfl | hr
  · exact (h1 u hu q hq).1 hv
  · obtain ⟨t, ht, he⟩ := h2 v hv
    rw [he] at hr
    cases hr
    exact (h1 u hu _ hq).2 ht

/-- A run in which the files are annotated one after the other. -/
theorem exRun_reach : ∃ c, JobsReach pipelineExample (processFile exRunEnv exRunOpts pipelineExample) exRunJobs exRunFiles c ∧
    c.complete ∧
    c.fs c!"o/a.tei" = some c!"<tei><text><front><title>on some title</title></front></text></tei>" ∧
    c.fs c!"f/b.tei" = some c!"<tei><text>another title</text></tei>" ∧ c.fs c!"o/b.tei" = none := by
  have h0 : JobsReach pipelineExample (processFile exRunEnv exRunOpts pipelineExample) exRunJobs exRunFiles _ := .start
  have h1 := job_one h0 (i := 0) (u := c!"in/a.tei") (p := c!"o/a.tei")
    (d := c!"<tei><text><front><title>on some title</title></front></text></tei>") rfl rfl (by decide +kernel)
  have h2 := job_one h1 (i := 1) (u := c!"in/b.tei") (p := c!"f/b.tei") (d := c!"<tei><text>another title</text></tei>")
    rfl rfl (by decide +kernel)
  have h3 := job_skip h2 (i := 2) (u := c!"in/e.tei") rfl rfl (st := .finished) (by decide +kernel)
  refine ⟨_, h3, ?_, by decide +kernel, by decide +kernel, by decide +kernel⟩
  intro st hst
  simp [exRunJobs] at hst
  exact .inl hst

/-- Not vacuous: a complete run, in which the title of `a` was found, `b` failed the check and `e` was skipped. -/
example : DifferentNames exRunJobs ∧ ReadApart exRunEnv exRunOpts pipelineExample exRunJobs ∧ ¬ removesText exRunOpts.tool ∧
    (∃ c, JobsReach pipelineExample (processFile exRunEnv exRunOpts pipelineExample) exRunJobs exRunFiles c ∧ c.complete ∧
      c.fs c!"o/a.tei" ≠ exRunFiles c!"o/a.tei" ∧ c.fs c!"f/b.tei" ≠ exRunFiles c!"f/b.tei") ∧
    outputOf (annotateFile exRunEnv exRunOpts pipelineExample exRunFiles c!"in/a.tei") = some c!"o/a.tei" ∧
    outputOf (annotateFile exRunEnv exRunOpts pipelineExample exRunFiles c!"in/b.tei") = some c!"f/b.tei" ∧
    exRunOpts.xmlPath ≠ [] := by
  obtain ⟨c, h1, h2, h3, h4, -⟩ := exRun_reach
  refine ⟨exRun_names, exRun_read, fun h => h, ⟨c, h1, h2, ?_, ?_⟩, by decide +kernel, by decide +kernel, by decide⟩
  · rw [h3]; decide +kernel
  · rw [h4]; decide +kernel

/-- Source files with the same name in different directories are written to the same file: which of them it has in
the end depends on the workers. -/
theorem C130_same_name :
    ∃ (env : RunEnv) (o : RunOpts) (cfg : PipelineConfig) (jobs : List Str) (fs0 : FileStore) (c c' : JobsConfig),
      ReadApart env o cfg jobs ∧ jobs.Nodup ∧
      JobsReach cfg (processFile env o cfg) jobs fs0 c ∧ c.complete ∧
      JobsReach cfg (processFile env o cfg) jobs fs0 c' ∧ c'.complete ∧
      c.fs c!"o/a.tei" = some c!"<tei><text>one</text></tei>" ∧
      c'.fs c!"o/a.tei" = some c!"<tei><text>two</text></tei>" := by
  let o : RunOpts := { exRunOpts with requireMatching := [] }
  let fs0 : FileStore := fun p => if p = c!"x/a.tei" then some c!"one" else if p = c!"y/a.tei" then some c!"two"
    else if p = c!"xml/a.xml" then some c!"title" else none
  have h0 : JobsReach pipelineExample (processFile exRunEnv o pipelineExample) [c!"x/a.tei", c!"y/a.tei"] fs0 _ := .start
  have h1 := job_one h0 (i := 0) (u := c!"x/a.tei") (p := c!"o/a.tei") (d := c!"<tei><text>one</text></tei>") rfl rfl
    (by decide +kernel)
  have h2 := job_one h1 (i := 1) (u := c!"y/a.tei") (p := c!"o/a.tei") (d := c!"<tei><text>two</text></tei>") rfl rfl
    (by decide +kernel)
  have h3 := job_one h0 (i := 1) (u := c!"y/a.tei") (p := c!"o/a.tei") (d := c!"<tei><text>two</text></tei>") rfl rfl
    (by decide +kernel)
  have h4 := job_one h3 (i := 0) (u := c!"x/a.tei") (p := c!"o/a.tei") (d := c!"<tei><text>one</text></tei>") rfl rfl
    (by decide +kernel)
  refine ⟨exRunEnv, o, pipelineExample, [c!"x/a.tei", c!"y/a.tei"], fs0, _, _, ?_, by decide, h4, ?_, h2, ?_, by decide +kernel,
    by decide +kernel⟩
  · have h1 : ∀ u ∈ [c!"x/a.tei", c!"y/a.tei"], ∀ q ∈ outputPaths pipelineExample u,
        q ∉ [c!"x/a.tei", c!"y/a.tei"] ∧ q ≠ c!"xml/a.xml" := by decide +kernel
    have h2 : ∀ v ∈ [c!"x/a.tei", c!"y/a.tei"], targetXml exRunEnv.reSub o.xmlPath o.xmlRegex v = .ok c!"xml/a.xml" := by
      intro v hv
      simp only [List.mem_cons, List.not_mem_nil, or_false] at hv
      rcases hv with rfl | rfl <;> rfl
    intro u hu q hq v hv hr
    rcases hr with rfl | hr
    · exact (h1 u hu q hq).1 hv
    · rw [h2 v hv] at hr
      cases hr
      exact (h1 u hu _ hq).2 rfl
  · intro st hst
    simp at hst
    exact .inl hst
  · intro st hst
    simp at hst
    exact .inl hst

end Verif
