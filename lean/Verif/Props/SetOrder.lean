/-
C131: what a run writes does not depend on the order in which the elements of its sets of fields come. Python
iterates over a set of strings in an order which differs from one process to the next.
-/
import Verif.Lemmas.SetOrder
import Verif.Props.Checks
import Verif.Props.SegChecks
import Verif.Props.ToolRun

namespace Verif
open Spec

/-- C131: the paths of the tags. For the fields in any order, each tag has the same path, each path belongs to the
same tag, and the same elements are recognised as elements of a field. -/
theorem C131_paths (base : Dict Str) (fields fields' : List Str) (h : SameSet fields fields') :
    (∀ tag, (addFieldPaths base fields).get? tag = (addFieldPaths base fields').get? tag) ∧
    (∀ path, (Doc.revMapping (addFieldPaths base fields)).get? path =
      (Doc.revMapping (addFieldPaths base fields')).get? path) ∧
    SameSet ((addFieldPaths base fields).map (·.2)) ((addFieldPaths base fields').map (·.2)) :=
  let s := addFieldPaths_same base h
  ⟨s.get, s.rev, s.values⟩

/-- C131: the checks of a document give the same result, or fail in the same way. -/
theorem C131_checks (ratio : Str → Str → Rat) (threshold : Rat) (m r m' r' : List Str) (hm : SameSet m m')
    (hr : SameSet r r') (targets : List CheckTarget) (d : Doc) :
    passesChecks ratio threshold m r targets d = passesChecks ratio threshold m' r' targets d := by
  have hall : ∀ f, f ∈ m ++ r ↔ f ∈ m' ++ r' := fun f => by simp only [List.mem_append, hm f, hr f]
  have hnil : (m = [] ∧ r = []) ↔ (m' = [] ∧ r' = []) := by
    simp only [List.eq_nil_iff_forall_not_mem]
    exact and_congr (forall_congr' fun f => not_congr (hm f)) (forall_congr' fun f => not_congr (hr f))
  have hne : m ++ r ≠ [] ↔ m' ++ r' ≠ [] := by
    simp only [ne_eq, List.append_eq_nil_iff, hnil]
  have ht : passesChecks ratio threshold m r targets d = .ok true ↔
      passesChecks ratio threshold m' r' targets d = .ok true := by
    rw [Props.C28_passes, Props.C28_passes, hnil]
    simp only [hall, hr _]
  have he : ∀ e, passesChecks ratio threshold m r targets d = .error e ↔
      passesChecks ratio threshold m' r' targets d = .error e := by
    intro e
    rw [Props.C28_error, Props.C28_error, hne]
    simp only [hall]
  cases h : passesChecks ratio threshold m r targets d with
  | error e => exact ((he e).1 h).symm
  | ok b =>
    cases b with
    | true => exact (ht.1 h).symm
    | false =>
      cases h' : passesChecks ratio threshold m' r' targets d with
      | error e => rw [(he e).2 h'] at h; cases h
      | ok b' =>
        cases b' with
        | true => rw [ht.2 h'] at h; cases h
        | false => rfl

/-- The steps of the annotation of a document which do not check it. -/
theorem run_congr {o o' : RunOpts} (h : SameOptions o o') (env : RunEnv) (path : Str) (items : List TargetItem) :
    (∀ root, loadDoc { o.doc with preserveTags := true } root = loadDoc { o'.doc with preserveTags := true } root) ∧
    (∀ d, beforeAnnotator (o.tool.annotateCfg (o.withTargets path items)) d =
      beforeAnnotator (o'.tool.annotateCfg (o'.withTargets path items)) d) ∧
    o.tool.annotators env.tool (o.withTargets path items) = o'.tool.annotators env.tool (o'.withTargets path items) ∧
    (∀ root d, docRoot o.doc root d = docRoot o'.doc root d) := by
  obtain ⟨htool, ⟨fields, always, sub, hargs, hf, ha, hs⟩, hxp, hxr, hxm, hm, hr, base, fs, fs', hfs, hd, hd'⟩ := h
  have hsl : SameLookup o.doc.mapping (addFieldPaths base fs') := by
    rw [hd]
    exact addFieldPaths_same base hfs
  refine ⟨?_, ?_, ?_, ?_⟩
  · intro root
    rw [hd']
    exact loadDoc_congr { o.doc with preserveTags := true } hsl root
  · intro d
    generalize o.tool = t at htool ⊢
    generalize o'.tool = t' at htool ⊢
    apply beforeAnnotator_congr
    · show (!(o.args.noPreserveTags)) = !(o'.args.noPreserveTags)
      rw [hargs]
    · cases htool with
      | refl =>
        cases t with
        | segmentation cfg np => exact SameSet.refl' _
        | _ => show SameSet o.args.fields o'.args.fields; rw [hargs]; exact hf
      | segmentation cfg a b hab => exact hab
    · have hown : t'.ownField = t.ownField := by cases htool <;> rfl
      show SameSet (match t.ownField with | some f => [f] | none => o.args.alwaysPreserve)
        (match t'.ownField with | some f => [f] | none => o'.args.alwaysPreserve)
      rw [hown]
      cases t.ownField with
      | some f => exact SameSet.refl' _
      | none => show SameSet o.args.alwaysPreserve o'.args.alwaysPreserve; rw [hargs]; exact ha
    · have hopt : t'.hasSubTagOptions = t.hasSubTagOptions := by cases htool <;> rfl
      show (t.hasSubTagOptions && o.args.preserveSubTags) = (t'.hasSubTagOptions && o'.args.preserveSubTags)
      rw [hopt, hargs]
    · have hopt : t'.hasSubTagOptions = t.hasSubTagOptions := by cases htool <;> rfl
      show SameSet (if t.hasSubTagOptions then o.args.noPreserveSubFields else [])
        (if t'.hasSubTagOptions then o'.args.noPreserveSubFields else [])
      rw [hopt]
      cases t.hasSubTagOptions with
      | false => exact SameSet.refl' _
      | true => show SameSet o.args.noPreserveSubFields o'.args.noPreserveSubFields; rw [hargs]; exact hs
  · have hw : o'.withTargets path items =
        { o.withTargets path items with fields := fields, alwaysPreserve := always, noPreserveSubFields := sub } := by
      unfold RunOpts.withTargets
      rw [hargs]
    rw [hw]
    generalize o.tool = t at htool ⊢
    generalize o'.tool = t' at htool ⊢
    cases htool with
    | refl => cases t <;> rfl
    | segmentation cfg a b hab => rfl
  · intro root d
    rw [hd']
    exact docRoot_congr o.doc hsl.get root d

theorem readTargets_congr {o o' : RunOpts} (h : SameOptions o o') (env : RunEnv) (fs : FileStore) (path : Str) :
    readTargets env o fs path = readTargets env o' fs path := by
  have ht : o'.tool.usesDefault = o.tool.usesDefault := by
    have := h.tool
    generalize o.tool = t at this ⊢
    generalize o'.tool = t' at this ⊢
    cases this <;> rfl
  unfold readTargets
  rw [ht, h.xmlMapping]

theorem finalSource_congr {o o' : RunOpts} (h : SameOptions o o') (env : RunEnv) (data : Str) :
    finalSource env o.tool data = finalSource env o'.tool data := by
  have := h.tool
  generalize o.tool = t at this ⊢
  generalize o'.tool = t' at this ⊢
  cases this <;> rfl

/-- C131: the document written and its path do not depend on the order of the sets. The tool for segmentation has
its own checks: without them its result does not depend on the order either. -/
theorem C131_document (env : RunEnv) (o o' : RunOpts) (cfg : PipelineConfig) (fs : FileStore) (source : Str)
    (h : SameOptions o o') (hseg : usesSegChecks o.tool = true → o.requireMatching = [] ∧ o.required = []) :
    annotateFile env o cfg fs source = annotateFile env o' cfg fs source := by
  have hchecks : ∀ items, runChecks env o items = runChecks env o' items := by
    intro items
    have htool := h.tool
    unfold runChecks
    generalize o.tool = t at htool hseg ⊢
    generalize o'.tool = t' at htool ⊢
    have hnil : ∀ a b : List Str, SameSet a b → a = [] → b = [] := by
      rintro a b hab rfl
      rw [List.eq_nil_iff_forall_not_mem]
      exact fun x hx => by cases (hab x).2 hx
    have hsegcase : ∀ cfg : SegConfig, o.requireMatching = [] ∧ o.required = [] →
        segPassesChecks env.search cfg o.requireMatching o.required (items.map (·.check)) =
        segPassesChecks env.search cfg o'.requireMatching o'.required (items.map (·.check)) := by
      intro cfg ⟨h1, h2⟩
      rw [h1, h2, hnil _ _ h.matching h1, hnil _ _ h.required h2]
    have hother : passesChecks env.ratio (4/5) o.requireMatching o.required (items.map (·.check)) =
        passesChecks env.ratio (4/5) o'.requireMatching o'.required (items.map (·.check)) := by
      funext d
      exact C131_checks _ _ _ _ _ _ h.matching h.required _ _
    cases htool with
    | refl =>
      cases t with
      | segmentation cfg np => exact hsegcase cfg (hseg rfl)
      | _ => exact hother
    | segmentation cfg a b hab => exact hsegcase cfg (hseg rfl)
  have hrun : ∀ path items root target failed,
      o.tool.run env.tool (o.withTargets path items) o.doc (runChecks env o items) root target failed =
      o'.tool.run env.tool (o'.withTargets path items) o'.doc (runChecks env o' items) root target failed := by
    intro path items root target failed
    obtain ⟨h1, h2, h3, h4⟩ := run_congr h env path items
    unfold Tool.run
    rw [h1 root, funext h2, h3, funext (h4 root), hchecks]
  unfold annotateFile
  simp only [finalSource_congr h, h.xmlPath, h.xmlRegex, readTargets_congr h, hrun]

/-- C131: so a run over many documents, in any interleaving, writes the same. -/
theorem C131_run (env : RunEnv) (o o' : RunOpts) (cfg : PipelineConfig) (h : SameOptions o o')
    (hseg : usesSegChecks o.tool = true → o.requireMatching = [] ∧ o.required = []) (jobs : List Str) (fs0 : FileStore)
    (c : JobsConfig) :
    JobsReach cfg (processFile env o cfg) jobs fs0 c ↔ JobsReach cfg (processFile env o' cfg) jobs fs0 c := by
  have : processFile env o cfg = processFile env o' cfg := by
    funext fs source
    unfold processFile
    rw [C131_document env o o' cfg fs source h hseg]
  rw [this]

/-- A document that passes is written in the same way if it passes with other checks, too. -/
theorem annotateDocument_passes {D X : Type} (e : SaveEnv D X) (p' : D → Except Err Bool) (target : Str)
    (failed : Option Str) (hf : failed ≠ some target) (hp : ∀ d, e.passes d = .ok true → p' d = .ok true) (x : X)
    (h : annotateDocument e target failed = .ok (some (target, x))) :
    annotateDocument { e with passes := p' } target failed = .ok (some (target, x)) := by
  unfold annotateDocument at h ⊢
  simp only
  cases h0 : e.load with
  | error e => rw [h0] at h; cases h
  | ok d0 =>
    rw [h0] at h
    simp only at h ⊢
    cases h1 : e.annotate (e.prepare d0) with
    | error e => rw [h1] at h; cases h
    | ok d =>
      rw [h1] at h
      simp only at h ⊢
      cases h2 : e.passes d with
      | error e => rw [h2] at h; cases h
      | ok b =>
        rw [h2] at h
        cases b with
        | true =>
          rw [hp d h2]
          exact h
        | false =>
          simp only at h
          split at h
          · next c s =>
            split at h
            · cases h
            · cases h
              exact absurd rfl hf
          · cases h

/-- C131: the tool for segmentation with its checks. Which documents pass, and what is written for them, does not
depend on the order. -/
theorem C131_segmentation (env : RunEnv) (o o' : RunOpts) (cfg : PipelineConfig) (fs : FileStore) (source : Str)
    (h : SameOptions o o') (hf : failedOutput cfg.failedOutputPath source ≠ some (annotatedOutput cfg.outputPath source))
    (root : Elem) (hok : annotateFile env o cfg fs source = .ok (some (annotatedOutput cfg.outputPath source, root))) :
    annotateFile env o' cfg fs source = .ok (some (annotatedOutput cfg.outputPath source, root)) := by
  have hchecks : ∀ items d, runChecks env o items d = .ok true → runChecks env o' items d = .ok true := by
    intro items d hd
    have htool := h.tool
    unfold runChecks at hd ⊢
    generalize o.tool = t at htool hd ⊢
    generalize o'.tool = t' at htool ⊢
    cases htool with
    | refl =>
      cases t with
      | segmentation cfg np => exact (C98_any_order _ _ _ _ _ _ h.matching h.required _ _).1 hd
      | _ => exact (C131_checks _ _ _ _ _ _ h.matching h.required _ _).symm.trans hd
    | segmentation cfg a b hab => exact (C98_any_order _ _ _ _ _ _ h.matching h.required _ _).1 hd
  unfold annotateFile at hok ⊢
  rw [← h.xmlPath, ← h.xmlRegex] at hok
  simp only [finalSource_congr h, readTargets_congr h] at hok
  revert hok
  cases fs source with
  | none => intro hok; cases hok
  | some data =>
    simp only
    cases finalSource env o'.tool data with
    | error e => intro hok; cases hok
    | ok final =>
      simp only
      cases targetXml env.reSub o'.xmlPath o'.xmlRegex source with
      | error e => intro hok; cases hok
      | ok path =>
        simp only
        cases readTargets env o' fs path with
        | error e => intro hok; cases hok
        | ok items =>
          simp only
          cases env.parseSource final with
          | error e => intro hok; cases hok
          | ok r =>
            simp only
            obtain ⟨h1, h2, h3, h4⟩ := run_congr h env path items
            unfold Tool.run
            rw [h1 r, funext h2, h3, funext (h4 r)]
            exact annotateDocument_passes _ _ _ _ hf (hchecks items) root

/-- C131: the fields given on the command line. The mapping is the same for them in any order, and the fields of
the tool are the same set. -/
theorem C131_fields (fields fields' subFields subFields' : List Str) (h : SameSet fields fields')
    (hs : SameSet subFields subFields') (m : Mapping) (overrides : Dict Str) :
    (mappingAndFields m fields subFields overrides).1 = (mappingAndFields m fields' subFields' overrides).1 ∧
    SameSet (mappingAndFields m fields subFields overrides).2 (mappingAndFields m fields' subFields' overrides).2 := by
  have hsel : keySelected subFields = keySelected subFields' := by
    funext k
    unfold keySelected
    simp only [SameSet.contains hs]
  have hsub : ∀ m, filterSubFields subFields m = filterSubFields subFields' m := by
    intro m
    unfold filterSubFields
    rw [hsel, SameSet.isEmpty hs]
  unfold mappingAndFields filterMapping
  simp only [SameSet.isEmpty h, SameSet.contains h, hsub]
  split
  · exact ⟨rfl, h⟩
  · exact ⟨rfl, SameSet.refl' _⟩

/-! ### Examples -/

/-- Two fields without a path, one of them required. -/
def exOrderOpts (a b : Str) : RunOpts :=
  { exRunOpts with
    args := { exRunOpts.args with fields := [a, b], alwaysPreserve := [b, a] }
    requireMatching := [a, b]
    doc := { exToolCfg with mapping := addFieldPaths exToolCfg.mapping [a, b] } }

theorem exOrder_same : SameOptions (exOrderOpts c!"keywords" c!"title") (exOrderOpts c!"title" c!"keywords") := by
  have hs : ∀ a b : Str, SameSet [a, b] [b, a] := fun a b x => by simp [or_comm]
  exact ⟨.refl _, ⟨_, _, _, rfl, hs _ _, hs _ _, SameSet.refl' _⟩, rfl, rfl, rfl, hs _ _, SameSet.refl' _,
    _, _, _, hs _ _, rfl, rfl⟩

/-- Not vacuous: the mappings of the two runs differ as lists; a document is written. -/
example : SameOptions (exOrderOpts c!"keywords" c!"title") (exOrderOpts c!"title" c!"keywords") ∧
    (usesSegChecks (exOrderOpts c!"keywords" c!"title").tool = true →
      (exOrderOpts c!"keywords" c!"title").requireMatching = [] ∧ (exOrderOpts c!"keywords" c!"title").required = []) ∧
    (exOrderOpts c!"keywords" c!"journal").doc.mapping ≠ (exOrderOpts c!"journal" c!"keywords").doc.mapping ∧
    outputOf (annotateFile exRunEnv (exOrderOpts c!"keywords" c!"title") pipelineExample exRunFiles c!"in/a.tei") =
      some c!"o/a.tei" :=
  ⟨exOrder_same, (fun h => by cases h), by decide +kernel, by decide +kernel⟩

/-- The tool for segmentation with two fields to be checked, one of which belongs to no label. -/
def exSegOrderOpts (a b : Str) : RunOpts :=
  { exRunOpts with
    tool := .segmentation exSegCheckCfg []
    xmlMapping := [(c!"article", [(c!"title", c!"title"), (c!"keywords", c!"title")])]
    requireMatching := [a, b] }

/-- Whether a result is an error. -/
def isError {α : Type} : Except Err α → Bool
  | .error _ => true
  | .ok _ => false

/-- C131, disagreement: whether the tool for segmentation saves a document which does not pass, or fails, depends
on the order of the fields to be checked. -/
theorem C131_segmentation_failure :
    ∃ (env : RunEnv) (o o' : RunOpts) (cfg : PipelineConfig) (fs : FileStore) (source : Str),
      SameOptions o o' ∧ outputOf (annotateFile env o cfg fs source) = some c!"f/b.tei" ∧
      ∃ e, annotateFile env o' cfg fs source = .error e := by
  refine ⟨exRunEnv, exSegOrderOpts c!"title" c!"keywords", exSegOrderOpts c!"keywords" c!"title", pipelineExample,
    exRunFiles, c!"in/b.tei", ?_, by decide +kernel, ?_⟩
  rotate_left
  · have h : isError (annotateFile exRunEnv (exSegOrderOpts c!"keywords" c!"title") pipelineExample exRunFiles
        c!"in/b.tei") = true := by decide +kernel
    cases hr : annotateFile exRunEnv (exSegOrderOpts c!"keywords" c!"title") pipelineExample exRunFiles c!"in/b.tei" with
    | error e => exact ⟨e, rfl⟩
    | ok x => rw [hr] at h; cases h
  have hs : ∀ a b : Str, SameSet [a, b] [b, a] := fun a b x => by simp [or_comm]
  exact ⟨.refl _, ⟨_, _, _, rfl, SameSet.refl' _, SameSet.refl' _, SameSet.refl' _⟩, rfl, rfl, rfl, hs _ _, SameSet.refl' _,
    _, [], [], SameSet.refl' _, rfl, rfl⟩

end Verif
