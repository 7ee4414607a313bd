/-
C132 (which fields a run annotates, from the options given).
-/
import Verif.Lemmas.Ok
import Verif.Lemmas.CommandLine
import Verif.Props.ToolLabels
import Verif.Props.SaveAgain
import Verif.Props.TagConfig
import Verif.Props.ToolRun
import Verif.Spec.CommandLine

namespace Verif
open Spec

theorem plusMinusSet_selected {cc : CharClass} {dflt : List Str} {s : Str} {sel : List Str}
    (h : plusMinusSet cc dflt s = .ok sel) : Selected cc dflt (some s) sel := by
  unfold plusMinusSet at h
  cases hl : commaList cc s with
  | nil =>
    rw [Props.C42_literal cc _ 0 1 s (by rw [hl]; simp)] at h
    cases h
    exact .listed (by rw [hl]; simp)
  | cons item items =>
    by_cases hs : signed item
    · exact .edited hl hs (Props.C42_edited cc _ 0 1 s item items hl hs sel h).1
    · have hns : ∀ i is, commaList cc s = i :: is → ¬ signed i := by
        intro i is hi
        rw [hl] at hi
        cases hi
        exact hs
      rw [Props.C42_literal cc _ 0 1 s hns] at h
      cases h
      exact .listed hns

/-- A default which is a list of plain names, separated by commas, is read as that list. -/
theorem plusMinusSet_default {cc : CharClass} (hcc : PlainNames cc) {dflt : List Str} (hne : dflt ≠ [])
    (hd : ∀ p ∈ dflt, ∀ c ∈ p, 33 ≤ c.toNat ∧ c.toNat ≤ 126 ∧ c ≠ ',')
    (hb : ∃ p ∈ dflt, p ≠ []) (hs : ∀ item items, dflt = item :: items → ¬ signed item) :
    plusMinusSet cc dflt (joinStr c!"," dflt) = .ok dflt := by
  have hl : commaList cc (joinStr c!"," dflt) = dflt := by
    rw [Props.C42_comma_list cc (hcc ',' (by decide) (by decide)) dflt hne (fun p hp hc => (hd p hp _ hc).2.2 rfl)]
    rw [if_neg]
    · have : ∀ p ∈ dflt, strip cc p = id p := by
        intro p hp
        exact strip_noSpace (fun c hc => hcc c (hd p hp c hc).1 (hd p hp c hc).2.1)
      rw [List.map_congr_left this, List.map_id]
    · intro hall
      obtain ⟨p, hp, hpn⟩ := hb
      cases p with
      | nil => exact hpn rfl
      | cons c cs =>
        have h1 := hcc c (hd _ hp c (List.mem_cons_self ..)).1 (hd _ hp c (List.mem_cons_self ..)).2.1
        have h2 := hall c (mem_joinStr_of_mem hp (List.mem_cons_self ..))
        rw [h1] at h2
        cases h2
  unfold plusMinusSet
  rw [Props.C42_literal cc _ 0 1 _ (by rw [hl]; exact hs), hl]

/-- Reading an option with fields. -/
theorem fieldsOption_selected {cc : CharClass} (hcc : PlainNames cc) {dflt : List Str}
    (hd : ∀ p ∈ dflt, ∀ c ∈ p, 33 ≤ c.toNat ∧ c.toNat ≤ 126 ∧ c ≠ ',')
    (hb : dflt ≠ [] → ∃ p ∈ dflt, p ≠ []) (hs : ∀ item items, dflt = item :: items → ¬ signed item) {s : Option Str}
    {sel : List Str} (h : fieldsOption cc dflt s = .ok sel) : Selected cc dflt s sel := by
  unfold fieldsOption at h
  cases s with
  | some s => exact plusMinusSet_selected h
  | none =>
    simp only at h
    cases dflt with
    | nil => cases h; exact .default
    | cons x xs =>
      rw [if_neg (by simp), plusMinusSet_default hcc (by simp) hd (hb (by simp)) hs] at h
      cases h
      exact .default

/-- The names of a default. -/
def plainDefault (dflt : List Str) : Bool :=
  dflt.all (fun p => p.all (fun c => decide (33 ≤ c.toNat) && decide (c.toNat ≤ 126) && c != ',')) &&
  (dflt.isEmpty || dflt.any (fun p => !p.isEmpty)) &&
  match dflt with
  | ('+' :: _) :: _ => false
  | ('-' :: _) :: _ => false
  | _ => true

theorem selected_of_plainDefault {cc : CharClass} (hcc : PlainNames cc) {dflt : List Str} (hp : plainDefault dflt = true)
    {s : Option Str} {sel : List Str} (h : fieldsOption cc dflt s = .ok sel) : Selected cc dflt s sel := by
  unfold plainDefault at hp
  simp only [Bool.and_eq_true] at hp
  refine fieldsOption_selected hcc ?_ ?_ ?_ h
  · intro p hm c hc
    have := List.all_eq_true.mp (List.all_eq_true.mp hp.1.1 p hm) c hc
    simp only [Bool.and_eq_true, decide_eq_true_eq, bne_iff_ne] at this
    exact ⟨this.1.1, this.1.2, this.2⟩
  · intro hne
    rcases Bool.or_eq_true_iff.mp hp.1.2 with h | h
    · exact absurd (List.isEmpty_iff.mp h) hne
    · obtain ⟨p, hm, hpn⟩ := List.any_eq_true.mp h
      exact ⟨p, hm, by intro e; subst e; cases hpn⟩
  · rintro item items rfl ⟨v, hv | hv⟩ <;> subst hv <;> exact absurd hp.2 (by simp)

theorem defaultFields_plain (t : CliTool) : plainDefault t.defaultFields = true := by
  cases t <;> simp only [CliTool.defaultFields] <;> decide +kernel

theorem defaultSubFields_plain (t : CliTool) {dflt : List Str} (h : t.defaultSubFields = some dflt) : plainDefault dflt = true := by
  cases t <;> simp only [CliTool.defaultSubFields] at h <;> cases h <;> decide +kernel

theorem subFields_selected {cc : CharClass} (hcc : PlainNames cc) {t : CliTool} {s : Option Str} {sel : List Str}
    (h : t.subFields cc s = .ok sel) :
    (t.defaultSubFields = none ∧ sel = []) ∨ ∃ dflt, t.defaultSubFields = some dflt ∧ Selected cc dflt s sel := by
  unfold CliTool.subFields at h
  cases hd : t.defaultSubFields with
  | none => rw [hd] at h; cases h; exact .inl ⟨rfl, rfl⟩
  | some dflt =>
    rw [hd] at h
    exact .inr ⟨dflt, rfl, selected_of_plainDefault hcc (defaultSubFields_plain t hd) h⟩

/-- **C132.** What the options given select. -/
theorem C132_options (env : CliEnv) (hcc : PlainNames env.tag.cc) (c : CliArgs) (o : RunOpts) (h : c.options env = .ok o) :
    ∃ (sel subSel : List Str) (ov : Dict Str) (m : Dict (Dict Str)),
      Selected env.tag.cc c.tool.defaultFields c.fields sel ∧
      ((c.tool.defaultSubFields = none ∧ subSel = []) ∨
        ∃ dflt, c.tool.defaultSubFields = some dflt ∧ Selected env.tag.cc dflt c.subFields subSel) ∧
      (c.overrides = none ∧ ov = [] ∨ ∃ s, c.overrides = some s ∧ parseDict env.tag.cc s = .ok ov) ∧
      parseXmlMapping env.tag.cc env.tag.lower c.mapping = .ok m ∧
      o.args.fields = sel ∧ o.xmlMapping = (mappingAndFields m sel subSel ov).1 ∧
      o.doc.mapping = c.tool.paths env.tag.cc (mappingAndFields m sel subSel ov).2 := by
  unfold CliArgs.options at h
  simp only at h
  split at h
  · cases h
  next sel h1 =>
    split at h
    · cases h
    next subSel h2 =>
      split at h
      · cases h
      next ov h3 =>
        split at h
        · cases h
        next m h4 =>
          split at h
          · cases h
          split at h
          · cases h
          cases h
          refine ⟨sel, subSel, ov, m, selected_of_plainDefault hcc (defaultFields_plain _) h1, subFields_selected hcc h2, ?_, h4,
            rfl, rfl, rfl⟩
          unfold overridesOption at h3
          cases ho : c.overrides with
          | none => rw [ho] at h3; cases h3; exact .inl ⟨rfl, rfl⟩
          | some s => rw [ho] at h3; exact .inr ⟨s, rfl, h3⟩

/-- Every target annotation is of a field selected, and each of its sub annotations of a sub field selected. -/
theorem targets_annotatable {m : Mapping} {sel subSel : List Str} {ov : Dict Str} {tenv : TargetEnv} {tag : Str} {root : XNode}
    {items : List TargetItem} (h : xmlRootToTargetAnnotations tenv (mappingAndFields m sel subSel ov).1 tag root = .ok items) :
    ∀ i ∈ items, annotatable m ov sel tag i.target.name ∧
      ∀ s ∈ i.target.subs, subAnnotatable m ov sel subSel tag i.target.name s.1 := by
  obtain ⟨mapping, found, out, hm, hf, hso, hres⟩ := C46_order _ _ _ _ _ h
  obtain ⟨d0, hd0, hall⟩ := mappingAndFields_get? hm
  intro i hi
  rw [hres] at hi
  obtain ⟨f, hfo, hfi⟩ := List.mem_map.mp hi
  obtain ⟨hn, hs⟩ := hf.names f (hso.perm.mem_iff.mp hfo)
  rw [hfi] at hn hs
  obtain ⟨hn1, hn2⟩ := List.mem_filter.mp hn
  obtain ⟨e, he, hek⟩ := List.mem_map.mp hn1
  have hdot : '.' ∉ i.target.name := by simpa using hn2
  have ha : annotatable m ov sel tag i.target.name := by
    obtain ⟨h1, h2, _⟩ := hall e he
    rw [hek] at h1 h2
    refine ⟨hdot, ⟨d0, hd0, h1⟩, ?_⟩
    rwa [(mappingKeyFieldName_eq _ _ hdot).2 (.inl rfl)] at h2
  refine ⟨ha, fun s hsm => ?_⟩
  obtain ⟨hsd, v, hv⟩ := hs s hsm
  obtain ⟨h1, _, h3⟩ := hall _ hv
  refine ⟨ha, hsd, ⟨d0, hd0, h1⟩, ?_⟩
  rcases h3 with h3 | h3
  · exact .inl h3
  · by_cases hse : s.1 = []
    · exact .inr (.inl hse)
    · exact .inr (.inr ((keySelected_iff _ _).1 h3 s.1 hse ⟨_, hdot, rfl⟩))

theorem run_document {env : ToolEnv} {a : ToolArgs} {t : Tool} {cfg : DocCfg} {passes : Doc → Except Err Bool} {root : Elem}
    {target : Str} {failed : Option Str} {p : Str} {x : Elem} (h : t.run env a cfg passes root target failed = .ok (some (p, x))) :
    ∃ d0 d', loadDoc { cfg with preserveTags := true } root = .ok d0 ∧
      annotateAll (t.annotators env a) (beforeAnnotator (t.annotateCfg a) d0) = .ok d' ∧ docRoot cfg root d' = .ok x := by
  unfold Tool.run annotateDocument at h
  simp only at h
  split at h
  · cases h
  next d0 h0 =>
    split at h
    · cases h
    next d' h1 =>
      refine ⟨d0, d', h0, h1, ?_⟩
      split at h
      · cases h
      · split at h
        · cases h
        · next x' hx => cases h; exact hx
      · split at h
        · split at h
          · cases h
          · next x' hx => cases h; exact hx
        · cases h

/-- **C132.** A label of the annotated document of a run is one of those the tool adds of its own, or a field of the
target file which the options select, or was in the source file and is to be kept; and likewise for sub labels. -/
theorem C132_labels (env : CliEnv) (hcc : PlainNames env.tag.cc) (c : CliArgs) (o : RunOpts) (ho : c.options env = .ok o)
    (renv : RunEnv) (cfg : PipelineConfig) (fs : FileStore) (u p : Str) (x : Elem) (hxml : o.xmlPath ≠ [])
    (h : annotateFile renv o cfg fs u = .ok (some (p, x))) :
    ∃ (sel subSel : List Str) (ov : Dict Str) (m : Dict (Dict Str)) (rootTag : Str) (root : Elem) (d0 d' : Doc),
      Selected env.tag.cc c.tool.defaultFields c.fields sel ∧
      ((c.tool.defaultSubFields = none ∧ subSel = []) ∨
        ∃ dflt, c.tool.defaultSubFields = some dflt ∧ Selected env.tag.cc dflt c.subFields subSel) ∧
      (c.overrides = none ∧ ov = [] ∨ ∃ s, c.overrides = some s ∧ parseDict env.tag.cc s = .ok ov) ∧
      parseXmlMapping env.tag.cc env.tag.lower c.mapping = .ok m ∧
      SourceRoot renv o fs u root ∧ TargetRootTag renv o fs u rootTag ∧
      loadDoc { o.doc with preserveTags := true } root = .ok d0 ∧ docRoot o.doc root d' = .ok x ∧
      ∀ (i : Nat) (v : Str), v ≠ [] →
        (tagValue (d'.getTagOrPreserved i) = some v →
          oneOf (fixedLabels o.args o.tool) v ∨
          (labelsFields o.tool = true ∧ ∃ f, annotatable m ov sel rootTag f ∧ oneOf [f] v) ∨
          ∃ j ∈ d0.allTokens, tagValue (d0.getPreservedTag j) = some v ∧ keptLabel o.args o.tool v) ∧
        (tagValue (d'.getTagOrPreserved i (some subLevel)) = some v →
          oneOf (fixedSubLabels o.tool) v ∨
          (labelsSubFields o.args o.tool = true ∧ ∃ f sub, subAnnotatable m ov sel subSel rootTag f sub ∧ oneOf [sub] v) ∨
          ∃ j ∈ d0.allTokens, tagValue (d0.getPreservedTag j (some subLevel)) = some v ∧ keptSubLabel o.args o.tool v) := by
  obtain ⟨sel, subSel, ov, m, h1, h2, h3, h4, h5, h6, h7⟩ := C132_options env hcc c o ho
  obtain ⟨data, final, path, items, root, a, passes, hdata, hfinal, hparse, hpath, _, ⟨tdata, tag, troot, htdata, htparse, hitems⟩, hrun, hx, ht, hcore, _, hargs⟩ :=
    C130_document renv o cfg fs u p x hxml h
  obtain ⟨d0, d', hload, hann, hroot⟩ := run_document hrun
  rw [h6] at hitems
  have hall := targets_annotatable hitems
  have hname : ∀ t ∈ a.targets, annotatable m ov sel tag t.name ∧ ∀ s ∈ t.subs, subAnnotatable m ov sel subSel tag t.name s.1 := by
    intro t htm
    rw [ht] at htm
    obtain ⟨i, hi, he⟩ := List.mem_map.mp htm
    subst he
    exact hall i hi
  have hcname : ∀ t ∈ a.coreTargets, annotatable m ov sel tag t.name ∧
      ∀ s ∈ t.subs, subAnnotatable m ov sel subSel tag t.name s.name := by
    intro t htm
    have := List.mem_map_of_mem (f := fun t : CoreTarget => (t.name, t.value, t.subs.map (fun s => (s.name, s.value)))) htm
    rw [hcore] at this
    obtain ⟨i, hi, he⟩ := List.mem_map.mp this
    have e1 : i.target.name = t.name := congrArg Prod.fst he
    have e2 : i.target.subs = t.subs.map (fun s => (s.name, s.value)) := congrArg (fun p => p.2.2) he
    obtain ⟨g1, g2⟩ := hall i hi
    rw [e1] at g1 g2
    refine ⟨g1, fun s hs => g2 (s.name, s.value) ?_⟩
    rw [e2]
    exact List.mem_map_of_mem (f := fun s : CoreSub => (s.name, s.value)) hs
  have hfield : ∀ n, n ∈ a.targets.map (·.name) → annotatable m ov sel tag n := by
    intro n hn
    obtain ⟨t, htm, he⟩ := List.mem_map.mp hn
    subst he
    exact (hname t htm).1
  have hlabel : ∀ n, n ∈ targetLabels a → annotatable m ov sel tag n := by
    intro n hn
    unfold targetLabels at hn
    split at hn
    · exact hfield n hn
    · obtain ⟨t, htm, he⟩ := List.mem_map.mp hn
      subst he
      exact (hcname t htm).1
  have hsub : ∀ n, n ∈ targetSubLabels a → ∃ f, subAnnotatable m ov sel subSel tag f n := by
    intro n hn
    obtain ⟨t, htm, hs⟩ := List.mem_flatMap.mp hn
    obtain ⟨s, hsm, he⟩ := List.mem_map.mp hs
    subst he
    exact ⟨t.name, (hname t htm).2 s hsm⟩
  have hcsub : ∀ n, n ∈ coreSubLabels a → ∃ f, subAnnotatable m ov sel subSel tag f n := by
    intro n hn
    obtain ⟨t, htm, hs⟩ := List.mem_flatMap.mp hn
    obtain ⟨s, hsm, he⟩ := List.mem_map.mp hs
    subst he
    exact ⟨t.name, (hcname t htm).2 s hsm⟩
  have hu : a.useLineNumbers = o.args.useLineNumbers := by rw [← hargs]
  have hnp : a.noPreserveTags = o.args.noPreserveTags := by rw [← hargs]
  have hsm : a.simpleMatcher = o.args.simpleMatcher := by rw [← hargs]
  have hkept : ∀ v, keptLabel a o.tool v → keptLabel o.args o.tool v := by
    intro v hv
    rw [← hargs]
    exact hv
  have hksub : ∀ v, keptSubLabel a o.tool v → keptSubLabel o.args o.tool v := by
    intro v hv
    rw [← hargs]
    exact hv
  have hmain : ∀ n ∈ toolLabels a o.tool,
      n ∈ fixedLabels o.args o.tool ∨ (labelsFields o.tool = true ∧ annotatable m ov sel tag n) := by
    intro n hn
    cases htool : o.tool <;> rw [htool] at hn <;>
      simp only [toolLabels, fixedLabels, labelsFields, hx, if_true, hu, hnp, List.mem_append, List.mem_cons] at hn ⊢
    case header => rcases hn with hn | hn <;> simp_all
    case referenceSegmenter => rcases hn with hn | hn <;> simp_all
    case segmentation cfg np =>
      rcases hn with ((((hn | hn) | hn) | hn) | hn) | hn
      · exact .inl (.inl (.inl (.inl (.inl hn))))
      · exact .inr ⟨trivial, hlabel n hn⟩
      · exact .inl (.inl (.inl (.inl (.inr hn))))
      · exact .inl (.inl (.inl (.inr hn)))
      · exact .inl (.inl (.inr hn))
      · exact .inl (.inr hn)
    case fulltext =>
      rcases hn with hn | hn
      · exact .inl (.inl hn)
      · exact .inr ⟨trivial, hfield n hn⟩
    all_goals
      split at hn
      · next hs => exact .inr ⟨hs, hfield n hn⟩
      · cases hn
  have hmainSub : ∀ n ∈ toolSubLabels a o.tool,
      n ∈ fixedSubLabels o.tool ∨ (labelsSubFields o.args o.tool = true ∧ ∃ f, subAnnotatable m ov sel subSel tag f n) := by
    intro n hn
    cases htool : o.tool <;> rw [htool] at hn <;>
      simp only [toolSubLabels, fixedSubLabels, labelsSubFields, hx, if_true, hsm, true_and, List.mem_cons] at hn ⊢
    case header =>
      split at hn
      · next hs => exact .inr ⟨by simpa using hs, hcsub n hn⟩
      · cases hn
    case segmentation =>
      split at hn
      · next hs => exact .inr ⟨by simpa using hs, hcsub n hn⟩
      · cases hn
    case referenceSegmenter =>
      split at hn
      · exact .inr (hsub n hn)
      · exact .inr (hcsub n hn)
    case reference =>
      rcases hn with hn | hn
      · exact .inl (.inl hn)
      · exact .inr (hsub n hn)
    case affiliation =>
      rcases hn with hn | hn
      · exact .inl (.inl hn)
      · exact .inr (hsub n hn)
    all_goals exact .inr (hsub n hn)
  refine ⟨sel, subSel, ov, m, tag, root, d0, d', h1, h2, h3, h4, ⟨data, final, hdata, hfinal, hparse⟩,
    ⟨path, tdata, troot, hpath, htdata, htparse⟩, hload, hroot, fun i v hv => ?_⟩
  obtain ⟨g1, g2⟩ := C96_labels renv.tool a o.tool _ root d0 d' hload hann i v hv
  refine ⟨fun ht => ?_, fun ht => ?_⟩
  · rcases g1 ht with ⟨n, hn, hnv⟩ | ⟨j, hj, hjv, hk⟩
    · rcases hmain n hn with hn | ⟨hl, hn⟩
      · exact .inl ⟨n, hn, hnv⟩
      · exact .inr (.inl ⟨hl, n, hn, n, List.mem_singleton.mpr rfl, hnv⟩)
    · exact .inr (.inr ⟨j, hj, hjv, hkept v hk⟩)
  · rcases g2 ht with ⟨n, hn, hnv⟩ | ⟨j, hj, hjv, hk⟩
    · rcases hmainSub n hn with hn | ⟨hl, f, hn⟩
      · exact .inl ⟨n, hn, hnv⟩
      · exact .inr (.inl ⟨hl, f, n, hn, n, List.mem_singleton.mpr rfl, hnv⟩)
    · exact .inr (.inr ⟨j, hj, hjv, hksub v hk⟩)

/-- The other options of the run are those given. -/
theorem options_args {env : CliEnv} {c : CliArgs} {o : RunOpts} (h : c.options env = .ok o) :
    c.tool.tool env = .ok o.tool ∧ o.xmlPath = c.xmlPath ∧ o.xmlRegex = c.xmlRegex ∧
    o.args.noPreserveTags = c.plain.noPreserveTags ∧ o.args.preserveSubTags = c.plain.preserveSubTags ∧
    o.args.useLineNumbers = c.plain.useLineNumbers ∧ o.args.simpleMatcher = c.plain.simpleMatcher ∧
    o.args.alwaysPreserve = listOption env.tag.cc c.alwaysPreserve ∧
    o.args.noPreserveSubFields = listOption env.tag.cc c.noPreserveSubFields := by
  unfold CliArgs.options at h
  simp only at h
  split at h
  · cases h
  split at h
  · cases h
  split at h
  · cases h
  split at h
  · cases h
  split at h
  · cases h
  next t ht =>
    split at h
    · cases h
    cases h
    exact ⟨ht, rfl, rfl, rfl, rfl, rfl, rfl, rfl, rfl⟩

theorem parseDict_distinct {cc : CharClass} {s : Str} {d : Dict Str} (h : parseDict cc s = .ok d) :
    d.Pairwise (fun p q => p.1 ≠ q.1) := by
  have hl : ∀ (fs : List Str) (d0 d : Dict Str), d0.Pairwise (fun p q => p.1 ≠ q.1) → parseDictLoop cc d0 fs = .ok d →
      d.Pairwise (fun p q => p.1 ≠ q.1) := by
    intro fs
    induction fs with
    | nil => intro d0 d h0 h; cases h; exact h0
    | cons f fs ih =>
      intro d0 d h0 h
      rw [parseDictLoop] at h
      split at h
      · cases h
      · exact ih _ _ (Dict.keys_nodup_set _ _ _ h0) h
  unfold parseDict at h
  split at h
  · cases h; exact .nil
  · exact hl _ _ _ .nil h

/-- **C132.** The mapping used by a run: an entry of the file, or its override, is used exactly if it is of a field
selected and not of a sub field which is not; the overrides apply to every section of the file. -/
theorem C132_mapping (env : CliEnv) (hcc : PlainNames env.tag.cc) (c : CliArgs) (o : RunOpts) (ho : c.options env = .ok o) :
    ∃ (sel subSel : List Str) (ov : Dict Str) (m : Dict (Dict Str)),
      Selected env.tag.cc c.tool.defaultFields c.fields sel ∧
      ((c.tool.defaultSubFields = none ∧ subSel = []) ∨
        ∃ dflt, c.tool.defaultSubFields = some dflt ∧ Selected env.tag.cc dflt c.subFields subSel) ∧
      (c.overrides = none ∧ ov = [] ∨ ∃ s, c.overrides = some s ∧ parseDict env.tag.cc s = .ok ov) ∧
      parseXmlMapping env.tag.cc env.tag.lower c.mapping = .ok m ∧
      ((∀ f ∈ sel, '.' ∉ f) → ∀ s k,
        let used := (sel = [] ∨ ∃ f ∈ sel, keyOf f k) ∧ (subSel = [] ∨ ∀ sub, sub ≠ [] → subKeyOf sub k → sub ∈ subSel)
        (used → (m.get? s).isSome → entry o.xmlMapping s k = (ov.get? k).or (entry m s k)) ∧
        (¬ (used ∧ (m.get? s).isSome) → entry o.xmlMapping s k = none)) := by
  obtain ⟨sel, subSel, ov, m, h1, h2, h3, h4, _, h6, _⟩ := C132_options env hcc c o ho
  have hd : ov.Pairwise (fun p q => p.1 ≠ q.1) := by
    rcases h3 with ⟨_, rfl⟩ | ⟨s, _, h⟩
    · exact .nil
    · exact parseDict_distinct h
  refine ⟨sel, subSel, ov, m, h1, h2, h3, h4, fun hf s k => ?_⟩
  have := Props.C43_mapping sel subSel hf ov hd m s k
  rw [h6]
  exact ⟨this.1, this.2.1⟩

/-- If fields are listed, and no labels of the source file are to be kept, every label of the annotated document is one
of these fields or added by the tool itself. -/
theorem C132_only_listed (env : CliEnv) (hcc : PlainNames env.tag.cc) (c : CliArgs) (o : RunOpts) (ho : c.options env = .ok o)
    (s item : Str) (items : List Str) (hs : c.fields = some s) (hl : commaList env.tag.cc s = item :: items) (hns : ¬ signed item)
    (hp : c.plain.noPreserveTags = true) (ha : c.alwaysPreserve = none) (hown : toolField o.tool = none)
    (renv : RunEnv) (cfg : PipelineConfig) (fs : FileStore) (u p : Str) (x : Elem) (hxml : o.xmlPath ≠ [])
    (h : annotateFile renv o cfg fs u = .ok (some (p, x))) :
    ∃ (root : Elem) (d' : Doc), SourceRoot renv o fs u root ∧ docRoot o.doc root d' = .ok x ∧
      ∀ (i : Nat) (v : Str), v ≠ [] → tagValue (d'.getTagOrPreserved i) = some v →
        oneOf (fixedLabels o.args o.tool) v ∨ ∃ f ∈ commaList env.tag.cc s, '.' ∉ f ∧ oneOf [f] v := by
  obtain ⟨sel, subSel, ov, m, tag, root, d0, d', h1, _, _, _, hsrc, _, _, hroot, hall⟩ :=
    C132_labels env hcc c o ho renv cfg fs u p x hxml h
  refine ⟨root, d', hsrc, hroot, fun i v hv ht => ?_⟩
  have hsel : sel = commaList env.tag.cc s := by
    rw [hs] at h1
    cases h1 with
    | listed _ => rfl
    | edited hl' hs' _ =>
      rw [hl] at hl'
      cases hl'
      exact absurd hs' hns
  obtain ⟨_, _, _, e1, _, _, _, e2, _⟩ := options_args ho
  rcases (hall i v hv).1 ht with h | ⟨_, f, ⟨hd, _, hf⟩, hfv⟩ | ⟨_, _, _, hk⟩
  · exact .inl h
  · refine .inr ⟨f, ?_, hd, hfv⟩
    rw [hsel] at hf
    rcases hf with hf | hf
    · rw [hl] at hf; cases hf
    · exact hf
  · unfold keptLabel at hk
    rw [hown] at hk
    simp only [e2, ha, listOption, if_true, e1, hp] at hk
    cases hk.1

/-- The tool for headers without `--fields` annotates all fields of the mapping, but keeps the labels of all fields in
the source file, too. -/
theorem C132_header_keeps (env : CliEnv) (hcc : PlainNames env.tag.cc) (c : CliArgs) (o : RunOpts) (ho : c.options env = .ok o)
    (ht : c.tool = .header) (hf : c.fields = none) (hp : c.plain.noPreserveTags = false) (ha : c.alwaysPreserve = none) (v : Str) :
    keptLabel o.args o.tool v := by
  obtain ⟨sel, _, _, _, h1, _, _, _, h5, _, _⟩ := C132_options env hcc c o ho
  obtain ⟨e0, _, _, e1, _, _, _, e2, _⟩ := options_args ho
  rw [hf, ht] at h1
  cases h1
  rw [ht] at e0
  have e0 : o.tool = .header := (Except.ok.inj e0).symm
  unfold keptLabel
  rw [e0]
  simp only [toolField, e2, ha, listOption, if_true, e1, hp, true_and]
  rw [h5]
  exact List.not_mem_nil

/-! ### Examples -/

/-- Reading options in the examples. -/
def exCliEnv : CliEnv where
  tag := exTagEnv
  parseList := commaList asciiClass
  okNode _ _ := true

/-- Titles and authors, for the tool which annotates references by default. -/
def exCli (fields : Option Str) : CliArgs where
  tool := .referenceSegmenter
  plain := { noPreserveTags := true }
  mapping := [c!"[article]", c!"title = title", c!"author = author"]
  xmlPath := c!"xml"
  xmlRegex := c!"/(.*).tei/\\1.xml/"
  fields := fields

/-- The file written for the options. -/
def exCliOutput (fields : Option Str) : Option Str :=
  match (exCli fields).options exCliEnv with
  | .error _ => none
  | .ok o =>
    match annotateFile exRunEnv o pipelineExample exRunFiles c!"in/a.tei" with
    | .ok (some (_, x)) => some (exXml x)
    | _ => none

theorem exCli_plain : PlainNames exCliEnv.tag.cc := by
  intro c h1 h2
  cases h : asciiClass.isSpace c with
  | false => exact h
  | true =>
    unfold asciiClass at h
    simp only [Bool.or_eq_true, decide_eq_true_eq] at h
    rcases h with ((h | h) | h) | h <;> subst h <;> exact absurd h1 (by decide)

/-- Not vacuous: the title is annotated if it is listed, added to the default, or if the list is empty, but not by default;
the title cannot be removed from the default. -/
example : PlainNames exCliEnv.tag.cc ∧
    exCliOutput (some c!"title") = some c!"<tei><text><note type=title>on some title</note></text></tei>" ∧
    exCliOutput (some c!"+title") = some c!"<tei><text><note type=title>on some title</note></text></tei>" ∧
    exCliOutput (some c!"") = some c!"<tei><text><note type=title>on some title</note></text></tei>" ∧
    exCliOutput none = some c!"<tei><text><note type=other>on some title</note></text></tei>" ∧
    exCliOutput (some c!"-title") = none :=
  ⟨exCli_plain, by decide +kernel, by decide +kernel, by decide +kernel, by decide +kernel, by decide +kernel⟩

example : Selected asciiClass [c!"reference"] (some c!"+title,-reference") [c!"title"] :=
  plusMinusSet_selected rfl

end Verif
