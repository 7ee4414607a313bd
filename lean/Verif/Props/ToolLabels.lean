/-
The labels in the files written by the tools: C96.
-/
import Verif.Lemmas.ToolLabels
import Verif.Lemmas.TargetAnnotations
import Verif.Props.Tools

namespace Verif

/-! ### C96 Labels come from the file, the target annotations or the tool -/

namespace Spec

/-- The names of the target annotations a tool uses for main labels, by matcher. -/
def targetLabels (a : ToolArgs) : List Str :=
  if a.simpleMatcher then a.targets.map (·.name) else a.coreTargets.map (·.name)

/-- The main labels a tool may add. -/
def toolLabels (a : ToolArgs) : Tool → List Str
  | .header => (if a.useLineNumbers then [c!"line_no"] else []) ++ if a.hasXml then targetLabels a else []
  | .referenceSegmenter => (if a.useLineNumbers then [c!"line_no"] else []) ++ if a.hasXml then targetLabels a else []
  | .segmentation cfg _ =>
    (if a.useLineNumbers then [c!"line_no"] else []) ++ (if a.hasXml then targetLabels a else []) ++
    cfg.mapping.map (·.1) ++ [c!"front", c!"page", c!"headnote", c!"annex"] ++
    (if cfg.noMergeReferences then [] else [c!"reference"]) ++ (if a.noPreserveTags then [c!"body"] else [])
  | .fulltext _ _ _ => c!"list" :: a.targets.map (·.name)
  | .figure seg => if seg then a.targets.map (·.name) else []
  | .table seg => if seg then a.targets.map (·.name) else []
  | .reference seg _ _ => if seg then a.targets.map (·.name) else []
  | .affiliation seg _ => if seg then a.targets.map (·.name) else []

/-- The sub labels of the target annotations. -/
def targetSubLabels (a : ToolArgs) : List Str := a.targets.flatMap (fun t => t.subs.map (·.1))

/-- The sub labels of the target annotations for the matcher of lines. -/
def coreSubLabels (a : ToolArgs) : List Str := a.coreTargets.flatMap (fun t => t.subs.map (·.name))

/-- The sub labels a tool may add. The tools for headers and segmentation add none, unless they use the matcher of
lines. -/
def toolSubLabels (a : ToolArgs) : Tool → List Str
  | .header => if a.hasXml ∧ ¬ a.simpleMatcher then coreSubLabels a else []
  | .referenceSegmenter => if a.hasXml then if a.simpleMatcher then targetSubLabels a else coreSubLabels a else []
  | .segmentation _ _ => if a.hasXml ∧ ¬ a.simpleMatcher then coreSubLabels a else []
  | .fulltext _ _ _ => targetSubLabels a
  | .figure _ => targetSubLabels a
  | .table _ => targetSubLabels a
  | .reference _ _ _ => c!"reference-page" :: targetSubLabels a
  | .affiliation _ _ => c!"author_aff-address" :: targetSubLabels a

/-- The labels of the file that are to be kept: those of the tool's own field if it has one, else those of the fields
given by `--always-preserve-fields` if any, else all but those of the annotated fields, unless no tags are to be
preserved. -/
def keptLabel (a : ToolArgs) (t : Tool) (v : Str) : Prop :=
  match toolField t with
  | some f => v = f
  | none =>
    if a.alwaysPreserve = [] then
      a.noPreserveTags = false ∧
        match t with
        | .segmentation _ noPreserveFields => v ∉ noPreserveFields
        | _ => v ∉ a.fields
    else v ∈ a.alwaysPreserve

/-- The sub labels of the file that are to be kept: only tools with an option for it keep them. -/
def keptSubLabel (a : ToolArgs) (t : Tool) (v : Str) : Prop :=
  a.preserveSubTags = true ∧ v ∉ a.noPreserveSubFields ∧
    match t with
    | .figure _ => True
    | .table _ => True
    | .affiliation _ _ => True
    | _ => False

/-- `v` is one of the names, possibly without a prefix the name begins with. -/
def oneOf (names : List Str) (v : Str) : Prop := ∃ n ∈ names, v = n ∨ tagValue (some n) = some v

end Spec

theorem keptLabel_of_keepMain {a : ToolArgs} {t : Tool} {v : Str} (h : Spec.keepMain (t.annotateCfg a) (some v)) : Spec.keptLabel a t v := by
  unfold Spec.keepMain at h
  unfold Spec.keptLabel
  rw [← ownField_eq]
  cases ho : t.ownField with
  | some f =>
    have e : (t.annotateCfg a).preserveFields = [f] := by simp only [Tool.annotateCfg, ho]
    rw [e, if_neg (by intro h; cases h)] at h
    obtain ⟨g, hg, hv⟩ := h
    rw [List.mem_singleton] at hg
    rw [← hg]
    exact Option.some.inj hv
  | none =>
    have e : (t.annotateCfg a).preserveFields = a.alwaysPreserve := by simp only [Tool.annotateCfg, ho]
    rw [e] at h
    simp only
    split at h
    · next hn =>
      rw [if_pos hn]
      obtain ⟨h1, h2⟩ := h
      refine ⟨by simpa [Tool.annotateCfg] using h1, ?_⟩
      cases t <;> exact fun hm => h2 v hm rfl
    · next hn =>
      rw [if_neg hn]
      obtain ⟨g, hg, hv⟩ := h
      rw [Option.some.inj hv]
      exact hg

theorem keptSubLabel_of_keepSub {a : ToolArgs} {t : Tool} {v : Str} (h : Spec.keepSub (t.annotateCfg a) (some v)) :
    Spec.keptSubLabel a t v := by
  obtain ⟨h1, h2⟩ := h
  simp only [Tool.annotateCfg, Bool.and_eq_true] at h1
  have hn : v ∉ a.noPreserveSubFields := by
    intro hm
    refine h2 v ?_ rfl
    simp only [Tool.annotateCfg, h1.1, if_true]
    exact hm
  refine ⟨h1.2, hn, ?_⟩
  have := h1.1
  cases t <;> first | trivial | cases this

theorem okName_oneOf {names : List Str} {R : Str → Prop} {n : Str} (h : n ∈ names) :
    OkName (fun v => Spec.oneOf names v ∨ R v) n := by
  refine ⟨fun _ => .inl ⟨n, h, .inl rfl⟩, fun v hv _ => .inl ⟨n, h, .inr ?_⟩⟩
  rw [← stripTagPrefix_eq_tagValue]
  exact hv

theorem labels_default (env : ToolEnv) (a : ToolArgs) (s : Bool) {P Q : Str → Prop}
    (hl : a.useLineNumbers = true → OkName P c!"line_no")
    (ht : a.hasXml = true → ∀ n ∈ Spec.targetLabels a, OkName P n)
    (hs : a.hasXml = true → a.simpleMatcher = true → s = true → ∀ n ∈ Spec.targetSubLabels a, OkName Q n)
    (hc : a.hasXml = true → a.simpleMatcher = false → ∀ n ∈ Spec.coreSubLabels a, OkName Q n) :
    ∀ f ∈ defaultAnnotators env a s, Labels P Q f := by
  intro f hf
  unfold defaultAnnotators at hf
  unfold Spec.targetLabels at ht
  rcases List.mem_append.1 hf with h | h
  · split at h
    · next hu => rw [List.mem_singleton] at h; subst h; exact labels_lineNumbers _ _ (hl hu).2
    · cases h
  · split at h
    · next hx =>
      rw [List.mem_singleton] at h
      subst h
      split
      · next hm =>
        refine labels_simple _ _ _ (fun t hmem => ⟨fun _ => ht hx _ ?_, fun e x hx' => hs hx hm e _ ?_⟩)
        · rw [if_pos hm]; exact List.mem_map.2 ⟨t, hmem, rfl⟩
        · exact List.mem_flatMap.2 ⟨t, hmem, List.mem_map.2 ⟨x, hx', rfl⟩⟩
      · next hm =>
        refine labels_core _ _ _ (fun t hmem => ⟨ht hx _ ?_, fun x hx' => hc hx (by simpa using hm) _ ?_⟩)
        · rw [if_neg hm]; exact List.mem_map.2 ⟨t, hmem, rfl⟩
        · exact List.mem_flatMap.2 ⟨t, hmem, List.mem_map.2 ⟨x, hx', rfl⟩⟩
    · cases h

theorem labels_remove {P Q : Str → Prop} (b : Bool) : ∀ f ∈ removeUntaggedIf b, Labels P Q f := by
  intro f hf
  unfold removeUntaggedIf at hf
  split at hf
  · rw [List.mem_singleton] at hf; subst hf
    exact labels_total (fun d h => ⟨h.main, h.sub⟩)
  · cases hf

theorem addressGroup_name {v g : Str} (h : addressGroup v = some g) : g = c!"author_aff-address" := by
  unfold addressGroup at h
  split at h
  · exact (Option.some.inj h).symm
  · cases h

theorem tool_labels (env : ToolEnv) (a : ToolArgs) (t : Tool) {P Q : Str → Prop}
    (hP : ∀ n ∈ Spec.toolLabels a t, OkName P n) (hQ : ∀ n ∈ Spec.toolSubLabels a t, OkName Q n) :
    ∀ f ∈ t.annotators env a, Labels P Q f := by
  intro f hf
  have hsubs : (∀ n ∈ Spec.targetSubLabels a, OkName Q n) → ∀ t ∈ a.targets, ∀ s ∈ t.subs, OkName Q s.1 :=
    fun h t ht s hs => h _ (List.mem_flatMap.2 ⟨t, ht, List.mem_map.2 ⟨s, hs, rfl⟩⟩)
  have hmos : ∀ (cfg : MatchCfg) (seg : Bool), (∀ n ∈ Spec.targetSubLabels a, OkName Q n) →
      (∀ n ∈ (if seg then a.targets.map (·.name) else []), OkName P n) → Labels P Q (matchOrSubTags env cfg a.targets seg) := by
    intro cfg seg h1 h2
    refine labels_matchOrSubTags _ _ _ _ (fun t ht => ⟨fun e => h2 _ ?_, fun _ => hsubs h1 t ht⟩)
    rw [e]; exact List.mem_map.2 ⟨t, ht, rfl⟩
  cases t with
  | header =>
    refine labels_default env a false (fun e => hP _ ?_) (fun e n hn => hP _ ?_) (fun _ _ e => by cases e) (fun h1 h2 n hn => hQ n ?_) f hf
    · simp [Spec.toolLabels, e]
    · simp [Spec.toolLabels, e, hn]
    · simp [Spec.toolSubLabels, h1, h2, hn]
  | referenceSegmenter =>
    refine labels_default env a true (fun e => hP _ ?_) (fun e n hn => hP _ ?_) (fun h1 h2 _ n hn => hQ n ?_)
      (fun h1 h2 n hn => hQ n ?_) f hf
    · simp [Spec.toolLabels, e]
    · simp [Spec.toolLabels, e, hn]
    · simp [Spec.toolSubLabels, h1, h2, hn]
    · simp [Spec.toolSubLabels, h1, h2, hn]
  | segmentation cfg np =>
    rcases List.mem_append.1 hf with hf | hf
    · refine labels_default env a false (fun e => hP _ ?_) (fun e n hn => hP _ ?_) (fun _ _ e => by cases e) (fun h1 h2 n hn => hQ n ?_) f hf
      · simp [Spec.toolLabels, e]
      · simp [Spec.toolLabels, e, hn]
      · simp [Spec.toolSubLabels, h1, h2, hn]
    · rw [List.mem_singleton] at hf; subst hf
      refine labels_total (labelsIn_segment _ _ _ (fun p hp => (hP _ ?_).2) (fun x hx => (hP _ ?_).2) (fun e => (hP _ ?_).2) (fun e => (hP _ ?_).2))
      · simp only [Spec.toolLabels, List.mem_append]
        exact .inl (.inl (.inl (.inr (List.mem_map.2 ⟨p, hp, rfl⟩))))
      · simp only [Spec.toolLabels, List.mem_append]
        refine .inl (.inl (.inr ?_))
        simp only [List.mem_cons, List.not_mem_nil, or_false] at hx ⊢
        rcases hx with rfl | rfl | rfl | rfl
        · exact .inr (.inl rfl)
        · exact .inr (.inr (.inl rfl))
        · exact .inr (.inr (.inr rfl))
        · exact .inl rfl
      · simp only [Spec.toolLabels, List.mem_append]
        refine .inl (.inr ?_)
        rw [e]; exact List.mem_singleton.2 rfl
      · simp only [Spec.toolLabels, List.mem_append]
        refine .inr ?_
        have : a.noPreserveTags = true := by simpa using e
        rw [this]; exact List.mem_singleton.2 rfl
  | fulltext ne p fo =>
    have hgroup : ∀ v g, fulltextGroup v = some g → P g := by
      intro v g h
      unfold fulltextGroup at h
      split at h
      · cases h; exact (hP c!"list" (by simp [Spec.toolLabels])).1 (by decide)
      · cases h
    rcases List.mem_append.1 hf with hf | hf
    · rcases List.mem_append.1 hf with hf | hf
      · simp only [List.mem_cons, List.not_mem_nil, or_false] at hf
        rcases hf with rfl | rfl | rfl
        · refine labels_simple _ _ _ (fun t ht => ⟨fun _ => hP _ ?_, fun _ => hsubs hQ t ht⟩)
          exact List.mem_cons_of_mem _ (List.mem_map.2 ⟨t, ht, rfl⟩)
        · refine labels_total (fun d h => labelsIn_replaceTags _ h (fun v new e => ?_))
          have : new = none := by
            have := mem_of_get? e
            simp only [fulltextReplaced, List.mem_cons, Prod.mk.injEq, List.not_mem_nil, or_false] at this
            rcases this with ⟨_, h⟩ | ⟨_, h⟩ <;> exact h
          subst this
          exact ⟨okTag_none P, by intro w e; cases e⟩
        · exact labels_total (fun d h => labelsIn_mergeGroup _ h hgroup)
      · split at hf
        · rw [List.mem_singleton] at hf; subst hf; exact labels_total (fun d h => labelsIn_expandPrevious _ h)
        · cases hf
    · split at hf
      · rw [List.mem_singleton] at hf; subst hf; exact labels_total (fun d h => labelsIn_expandFollowing _ h)
      · cases hf
  | figure s => rw [Tool.annotators, List.mem_singleton] at hf; subst hf; exact hmos _ _ hQ hP
  | table s => rw [Tool.annotators, List.mem_singleton] at hf; subst hf; exact hmos _ _ hQ hP
  | reference s i r =>
    have hQ' : ∀ n ∈ Spec.targetSubLabels a, OkName Q n := fun n hn => hQ n (List.mem_cons_of_mem _ hn)
    rcases List.mem_append.1 hf with hf | hf
    · simp only [List.mem_cons, List.not_mem_nil, or_false] at hf
      rcases hf with rfl | rfl
      · exact hmos _ _ hQ' hP
      · refine labels_reference _ _ (fun k v e => ?_)
        have := mem_of_get? e
        simp only [referenceCfg, List.mem_cons, Prod.mk.injEq, List.not_mem_nil, or_false] at this
        rcases this with ⟨_, rfl⟩ | ⟨_, rfl⟩ <;> exact hQ _ List.mem_cons_self
    · exact labels_remove r f hf
  | affiliation s r =>
    have hQ' : ∀ n ∈ Spec.targetSubLabels a, OkName Q n := fun n hn => hQ n (List.mem_cons_of_mem _ hn)
    rcases List.mem_append.1 hf with hf | hf
    · rcases List.mem_append.1 hf with hf | hf
      · rw [List.mem_singleton] at hf; subst hf; exact hmos _ _ hQ' hP
      · exact labels_remove r f hf
    · rw [List.mem_singleton] at hf; subst hf
      refine labels_total (fun d h => labelsIn_mergeGroupSub _ h (fun v g e => ?_))
      rw [addressGroup_name e]
      exact (hQ _ List.mem_cons_self).1 (by decide)

/-! Tokens which are not in the document have no attributes. -/

theorem foldl_outside {g : Doc → Nat → Doc} (hg : ∀ d i j m, j ≠ i → (g d i).getAttr j m = d.getAttr j m) (ids : List Nat) :
    ∀ (d : Doc) (j : Nat), j ∉ ids → ∀ m, (ids.foldl g d).getAttr j m = d.getAttr j m := by
  induction ids with
  | nil => intro d j _ m; rfl
  | cons i ids ih =>
    intro d j hj m
    rw [List.foldl_cons, ih _ _ (fun h => hj (List.mem_cons_of_mem _ h)), hg]
    exact fun e => hj (e ▸ List.mem_cons_self)

theorem setAttr_other (d : Doc) {i j : Nat} (h : j ≠ i) (n m : Str) (v : Option Str) : (d.setAttr i n v).getAttr j m = d.getAttr j m := by
  rw [getAttr_setAttr, if_neg (fun e => h e.1)]

theorem loaded_outside {dc : DocCfg} {root : Elem} {d : Doc} (hl : loadDoc dc root = .ok d) (j : Nat) (hj : j ∉ d.allTokens) (m : Str) :
    d.getAttr j m = none := by
  unfold loadDoc at hl
  split at hl
  · cases hl
  · next lines _ =>
    simp only [Except.ok.injEq] at hl
    have hs1 : SameBut (Doc.ofLines lines)
        (if dc.preserveTags = true then (Doc.ofLines lines).preserveCurrentTags (Doc.revMapping dc.mapping) else Doc.ofLines lines) := by
      split
      · exact sameBut_preserveCurrentTags _ _
      · exact .refl _
    have hall : d.allTokens = (Doc.ofLines lines).allTokens := by
      rw [← hl, (sameBut_resetCurrentTags _).allTokens, hs1.allTokens]
    rw [hall] at hj
    have hreset : d.getAttr j m = (if dc.preserveTags = true then
        (Doc.ofLines lines).preserveCurrentTags (Doc.revMapping dc.mapping) else Doc.ofLines lines).getAttr j m := by
      rw [← hl]
      refine foldl_outside (fun d i j m h => ?_) _ _ _ (by rw [hs1.allTokens]; exact hj) m
      exact (setAttr_other _ h _ _ _).trans (setAttr_other _ h _ _ _)
    rw [hreset]
    have hpres : (if dc.preserveTags = true then (Doc.ofLines lines).preserveCurrentTags (Doc.revMapping dc.mapping)
        else Doc.ofLines lines).getAttr j m = (Doc.ofLines lines).getAttr j m := by
      split
      · refine foldl_outside (fun d i j m h => ?_) _ _ _ hj m
        exact (setAttr_other _ h _ _ _).trans (setAttr_other _ h _ _ _)
      · rfl
    rw [hpres]
    rw [allTokens_ofLines, List.mem_range, Nat.not_lt] at hj
    show ((lines.flatten.getD j ⟨[], false, [], none⟩).attrib).get? m = none
    rw [List.getD_eq_getElem?_getD, List.getElem?_eq_none hj]
    rfl

theorem before_outside (cfg : AnnotateCfg) {d : Doc} (h : ∀ j, j ∉ d.allTokens → ∀ m, d.getAttr j m = none) (j : Nat)
    (hj : j ∉ d.allTokens) (m : Str) : (beforeAnnotator cfg d).getAttr j m = none := by
  have hmap : ∀ (fn : Option Str → Option Str) (l : Option Nat) (d1 : Doc), d1.allTokens = d.allTokens →
      (mapTokenTags fn l d1).allTokens = d.allTokens ∧ (mapTokenTags fn l d1).getAttr j m = d1.getAttr j m := by
    intro fn l d1 e
    constructor
    · rw [← e]
      refine SameBut.allTokens (sameBut_foldl _ (fun d i => ?_) _ _)
      unfold mapTokenTagsStep
      simp only
      split
      · exact (sameBut_setAttr _ _ _ _).trans (sameBut_setAttr _ _ _ _)
      · exact .refl d
    · refine foldl_outside (fun d i j m h => ?_) _ _ _ (by rw [e]; exact hj) m
      unfold mapTokenTagsStep
      simp only
      split
      · exact (setAttr_other _ h _ _ _).trans (setAttr_other _ h _ _ _)
      · rfl
  let d1 := if cfg.preserveFields.isEmpty then d else applyPreservedFields cfg.preserveFields d
  have h1 : d1.allTokens = d.allTokens ∧ d1.getAttr j m = d.getAttr j m := by
    show (if _ then _ else _ : Doc).allTokens = _ ∧ (if _ then _ else _ : Doc).getAttr j m = _
    split
    · exact ⟨rfl, rfl⟩
    · constructor
      · refine SameBut.allTokens (sameBut_foldl _ (fun d i => ?_) _ _)
        unfold applyPreservedStep
        simp only
        split
        · exact sameBut_setTag _ _ _ _ _
        · exact .refl d
      · rw [getAttr_applyPreservedFields, if_neg hj]
  obtain ⟨a1, a2⟩ := h1
  let fn : Option Str → Option Str := if cfg.preserveTags || !cfg.preserveFields.isEmpty then
      preserveTagFn cfg.preserveFields (cfg.fields.filter (fun f => !cfg.preserveFields.contains f))
    else fun _ => none
  obtain ⟨b1, b2⟩ := hmap fn none d1 a1
  have b3 : (mapTokenTags fn none d1).getAttr j m = none := by rw [b2, a2, h j hj]
  obtain ⟨sfn, _, _, _, s4⟩ := Props.C14_aux_sub cfg (mapTokenTags fn none d1)
  have h3 : (beforeAnnotator cfg d).getAttr j = (mapTokenTags sfn (some subLevel) (mapTokenTags fn none d1)).getAttr j := s4 j
  rw [h3, (hmap sfn (some subLevel) _ b1).2, b3]

theorem before_sub_tag (cfg : AnnotateCfg) {d : Doc} (i : Nat) (hi : i ∈ d.allTokens) (hn : d.getSubTag i = none) :
    (beforeAnnotator cfg d).getSubTag i = none := by
  let fn : Option Str → Option Str := if cfg.preserveTags || !cfg.preserveFields.isEmpty then
      preserveTagFn cfg.preserveFields (cfg.fields.filter (fun f => !cfg.preserveFields.contains f))
    else fun _ => none
  have hfn : ∀ t, fn t = t ∨ fn t = none := by
    intro t
    rcases Props.C14_aux_main cfg t with h | h
    · exact .inr h
    · exact .inl h.1
  let d1 := if cfg.preserveFields.isEmpty then d else applyPreservedFields cfg.preserveFields d
  have h1 : d1.allTokens = d.allTokens ∧ d1.getSubTag i = none := by
    show (if _ then _ else _ : Doc).allTokens = _ ∧ (if _ then _ else _ : Doc).getAttr i _ = _
    split
    · exact ⟨rfl, hn⟩
    · constructor
      · refine SameBut.allTokens (sameBut_foldl _ (fun d i => ?_) _ _)
        unfold applyPreservedStep
        simp only
        split
        · exact sameBut_setTag _ _ _ _ _
        · exact .refl d
      · rw [getAttr_applyPreservedFields, if_pos hi]
        unfold applyAttrs
        rw [if_neg (fun h => absurd h.2 (by decide))]
        exact hn
  obtain ⟨a1, a2⟩ := h1
  have b1 : (mapTokenTags fn none d1).allTokens = d.allTokens := by
    rw [← a1]
    refine SameBut.allTokens (sameBut_foldl _ (fun d i => ?_) _ _)
    unfold mapTokenTagsStep
    simp only
    split
    · exact (sameBut_setAttr _ _ _ _).trans (sameBut_setAttr _ _ _ _)
    · exact .refl d
  have b2 : (mapTokenTags fn none d1).getSubTag i = none := by
    show (mapTokenTags fn none d1).getAttr i _ = none
    rw [getAttr_mapTokenTags hfn, if_pos (by rw [a1]; exact hi)]
    unfold mapAttrs
    split
    · exact a2
    · exact a2
  obtain ⟨sfn, s1, _, _, s4⟩ := Props.C14_aux_sub cfg (mapTokenTags fn none d1)
  show (beforeAnnotator cfg d).getAttr i _ = none
  have h3 : (beforeAnnotator cfg d).getAttr i = (mapTokenTags sfn (some subLevel) (mapTokenTags fn none d1)).getAttr i := s4 i
  rw [h3, getAttr_mapTokenTags s1, if_pos (by rw [b1]; exact hi)]
  unfold mapAttrs
  by_cases hx : sfn (tagOr (some subLevel) ((mapTokenTags fn none d1).getAttr i)) ≠ tagOr (some subLevel) ((mapTokenTags fn none d1).getAttr i)
  · rw [if_pos hx, if_pos rfl]; exact (s1 _).resolve_left hx
  · rw [if_neg hx]; exact b2

theorem loaded_no_sub_tag {dc : DocCfg} {root : Elem} {d : Doc} (hl : loadDoc dc root = .ok d) (i : Nat) (hi : i ∈ d.allTokens) :
    d.getSubTag i = none := by
  obtain ⟨lines, _, _, h1, h2⟩ := Props.C11_preserved dc root d hl
  rw [h1, List.mem_range] at hi
  obtain ⟨t, ht⟩ : ∃ t, lines.flatten[i]? = some t := ⟨_, List.getElem?_eq_getElem hi⟩
  exact (h2 i t ht).2.2.1

theorem okTag_of_falsy {P : Str → Prop} {t : Option Str} (h : ¬ truthy t = true) : OkTag P t := by
  cases t with
  | none => exact okTag_none P
  | some s =>
    cases s with
    | nil => intro v hv hne; cases hv; exact absurd rfl hne
    | cons c s => exact absurd rfl h

theorem before_labels (cfg : AnnotateCfg) {dc : DocCfg} {root : Elem} {d : Doc} (hl : loadDoc dc root = .ok d) (P Q : Str → Prop)
    (hP : ∀ j ∈ d.allTokens, ∀ v, stripTagPrefix (d.getPreservedTag j) = some v → Spec.keepMain cfg (some v) → P v)
    (hQ : ∀ j ∈ d.allTokens, ∀ v, stripTagPrefix (d.getPreservedTag j (some subLevel)) = some v → Spec.keepSub cfg (some v) → Q v) :
    LabelsIn P Q (beforeAnnotator cfg d) := by
  have houter : ∀ j, j ∉ d.allTokens → ∀ m, (beforeAnnotator cfg d).getAttr j m = none :=
    fun j hj m => before_outside cfg (fun j hj m => loaded_outside hl j hj m) j hj m
  refine ⟨fun i => ?_, fun i => ?_⟩
  · by_cases hi : i ∈ d.allTokens
    · have hn := loaded_no_tag hl i hi
      have hor : d.getTagOrPreserved i = d.getPreservedTag i := by unfold Doc.getTagOrPreserved; rw [hn]; rfl
      obtain ⟨_, hk, hnk, _⟩ := Props.C14_before_annotation cfg d i hi
      have hbt := before_tags cfg d i hi hn
      have hok : OkTag P ((beforeAnnotator cfg d).getTagOrPreserved i) := by
        by_cases hkeep : Spec.keepMain cfg (stripTagPrefix (d.getTagOrPreserved i))
        · rw [hk hkeep, hor]
          intro v hv _
          refine hP i hi v hv ?_
          rw [hor, hv] at hkeep
          exact hkeep
        · rw [hnk hkeep]; exact okTag_none P
      generalize beforeAnnotator cfg d = b at *
      by_cases ht : truthy (b.getTag i) = true
      · have e : b.getTagOrPreserved i = b.getTag i := by
          unfold Doc.getTagOrPreserved pyOr; rw [if_pos ht]
        rw [e] at hok
        rcases hbt with h | h
        · rw [h] at ht; cases ht
        · rw [← h]; exact ⟨hok, hok⟩
      · have e : b.getTagOrPreserved i = b.getPreservedTag i := by
          unfold Doc.getTagOrPreserved pyOr; rw [if_neg ht]
        rw [e] at hok
        exact ⟨okTag_of_falsy ht, hok⟩
    · refine ⟨?_, ?_⟩
      · show OkTag P ((beforeAnnotator cfg d).getAttr i _); rw [houter i hi]; exact okTag_none P
      · show OkTag P ((beforeAnnotator cfg d).getAttr i _); rw [houter i hi]; exact okTag_none P
  · by_cases hi : i ∈ d.allTokens
    · have hn := loaded_no_sub_tag hl i hi
      have hor : d.getTagOrPreserved i (some subLevel) = d.getPreservedTag i (some subLevel) := by
        unfold Doc.getTagOrPreserved
        have : d.getTag i (some subLevel) = none := hn
        rw [this]; rfl
      obtain ⟨_, _, _, _, hk, hnk⟩ := Props.C14_before_annotation cfg d i hi
      have hbn := before_sub_tag cfg i hi hn
      have hbor : (beforeAnnotator cfg d).getTagOrPreserved i (some subLevel) = (beforeAnnotator cfg d).getPreservedTag i (some subLevel) := by
        unfold Doc.getTagOrPreserved
        have : (beforeAnnotator cfg d).getTag i (some subLevel) = none := hbn
        rw [this]; rfl
      refine ⟨by rw [hbn]; exact okTag_none Q, ?_⟩
      rw [← hbor]
      by_cases hkeep : Spec.keepSub cfg (stripTagPrefix (d.getTagOrPreserved i (some subLevel)))
      · rw [hk hkeep, hor]
        intro v hv _
        refine hQ i hi v hv ?_
        rw [hor, hv] at hkeep
        exact hkeep
      · rw [hnk hkeep]; exact okTag_none Q
    · refine ⟨?_, ?_⟩
      · show OkTag Q ((beforeAnnotator cfg d).getAttr i _); rw [houter i hi]; exact okTag_none Q
      · show OkTag Q ((beforeAnnotator cfg d).getAttr i _); rw [houter i hi]; exact okTag_none Q

/-- **C96.** Tools invent no labels: each label of the annotated document is one of those the tool may add (names of
target annotations and the few labels of the tool itself), or it is a label of the file which the options say to
keep. The same holds for sub labels. It holds for all files, target annotations and options, also if text is
removed. -/
theorem C96_labels (env : ToolEnv) (a : ToolArgs) (t : Tool) (dc : DocCfg) (root : Elem) (d0 d' : Doc)
    (hl : loadDoc dc root = .ok d0)
    (ha : annotateAll (t.annotators env a) (beforeAnnotator (t.annotateCfg a) d0) = .ok d') (i : Nat) (v : Str) (hne : v ≠ []) :
    (Spec.tagValue (d'.getTagOrPreserved i) = some v →
      Spec.oneOf (Spec.toolLabels a t) v ∨
      ∃ j ∈ d0.allTokens, Spec.tagValue (d0.getPreservedTag j) = some v ∧ Spec.keptLabel a t v) ∧
    (Spec.tagValue (d'.getTagOrPreserved i (some subLevel)) = some v →
      Spec.oneOf (Spec.toolSubLabels a t) v ∨
      ∃ j ∈ d0.allTokens, Spec.tagValue (d0.getPreservedTag j (some subLevel)) = some v ∧ Spec.keptSubLabel a t v) := by
  have h0 := before_labels (t.annotateCfg a) hl
    (fun v => Spec.oneOf (Spec.toolLabels a t) v ∨
      ∃ j ∈ d0.allTokens, Spec.tagValue (d0.getPreservedTag j) = some v ∧ Spec.keptLabel a t v)
    (fun v => Spec.oneOf (Spec.toolSubLabels a t) v ∨
      ∃ j ∈ d0.allTokens, Spec.tagValue (d0.getPreservedTag j (some subLevel)) = some v ∧ Spec.keptSubLabel a t v)
    (fun j hj v hv hk => .inr ⟨j, hj, by rw [← stripTagPrefix_eq_tagValue]; exact hv, keptLabel_of_keepMain hk⟩)
    (fun j hj v hv hk => .inr ⟨j, hj, by rw [← stripTagPrefix_eq_tagValue]; exact hv, keptSubLabel_of_keepSub hk⟩)
  have h1 := labels_annotateAll _ (tool_labels env a t (fun n hn => okName_oneOf hn) (fun n hn => okName_oneOf hn)) _ _ ha h0
  refine ⟨fun hv => h1.orPreserved i v ?_ hne, fun hv => h1.subOrPreserved i v ?_ hne⟩
  · rw [stripTagPrefix_eq_tagValue]; exact hv
  · rw [stripTagPrefix_eq_tagValue]; exact hv

/-- If tags are not to be preserved, and there is no field to be kept, all labels are the tool's. -/
theorem C96_nothing_preserved (env : ToolEnv) (a : ToolArgs) (t : Tool) (dc : DocCfg) (root : Elem) (d0 d' : Doc)
    (hl : loadDoc dc root = .ok d0)
    (ha : annotateAll (t.annotators env a) (beforeAnnotator (t.annotateCfg a) d0) = .ok d') (hp : a.noPreserveTags = true)
    (hf : a.alwaysPreserve = []) (ho : Spec.toolField t = none) (i : Nat) (v : Str) (hne : v ≠ [])
    (hv : Spec.tagValue (d'.getTagOrPreserved i) = some v) : Spec.oneOf (Spec.toolLabels a t) v := by
  rcases (C96_labels env a t dc root d0 d' hl ha i v hne).1 hv with h | ⟨_, _, _, hk⟩
  · exact h
  · unfold Spec.keptLabel at hk
    rw [ho] at hk
    simp [hf, hp] at hk

/-- A field which is to be annotated, and is not among the labels the tool adds in this run, does not occur in the
result, although it may occur in the file. -/
theorem C96_annotated_fields_cleared (env : ToolEnv) (a : ToolArgs) (t : Tool) (dc : DocCfg) (root : Elem) (d0 d' : Doc)
    (hl : loadDoc dc root = .ok d0)
    (ha : annotateAll (t.annotators env a) (beforeAnnotator (t.annotateCfg a) d0) = .ok d') (ht : ∀ c np, t ≠ .segmentation c np)
    (hf : a.alwaysPreserve = []) (ho : Spec.toolField t = none) (v : Str) (hne : v ≠ []) (hv : v ∈ a.fields)
    (hn : ¬ Spec.oneOf (Spec.toolLabels a t) v) (i : Nat) : Spec.tagValue (d'.getTagOrPreserved i) ≠ some v := by
  intro h
  rcases (C96_labels env a t dc root d0 d' hl ha i v hne).1 h with h | ⟨_, _, _, hk⟩
  · exact hn h
  · unfold Spec.keptLabel at hk
    rw [ho] at hk
    simp only [hf, if_true] at hk
    cases t <;> first | exact hk.2 hv | exact absurd rfl (ht _ _)

/-- The name of a target annotation is added, a label of the file is kept and that of an annotated field is not. -/
example : ∃ d', loadAndAnnotate exToolEnv { targets := exTargets, fields := [c!"table"] } .header
      exFigureCfg
      (.mk c!"tei" [] none [.mk c!"text" [] (some c!"some title")
        [.mk c!"lb" [] none [] none, .mk c!"figure" [] (some c!"one") [] none, .mk c!"table" [] (some c!"abc") [] none] none] none) = .ok d' ∧
      d'.allTokens.map (fun i => d'.getTagOrPreserved i) =
        [some c!"b-title", none, some c!"i-title", some c!"b-figure", none] :=
  exists_of_okAnd (by decide +kernel)

/-! ### C97 Fields which are always preserved -/

/-- A token has a tag with a value. -/
def HasValue (f : Str) (i : Nat) (d : Doc) : Prop := stripTagPrefix (d.getTag i) = some f

theorem HasValue.orPreserved {f : Str} {i : Nat} {d : Doc} (h : HasValue f i d) (hf : f ≠ []) : d.getTagOrPreservedValue i = some f := by
  unfold HasValue at h
  unfold Doc.getTagOrPreservedValue Doc.getTagOrPreserved pyOr
  by_cases ht : truthy (d.getTag i) = true
  · rw [if_pos ht]; exact h
  · exfalso
    cases hg : d.getTag i with
    | none => rw [hg] at h; cases h
    | some s =>
      cases s with
      | nil => rw [hg] at h; exact hf (Option.some.inj h).symm
      | cons c s => rw [hg] at ht; exact ht rfl

theorem hasValue_setTagOnly_ne {f : Str} {i j : Nat} {d : Doc} (h : HasValue f i d) (hj : i ≠ j) (t : Option Str) :
    HasValue f i (d.setTagOnly j t) := by
  unfold HasValue
  show stripTagPrefix ((d.setAttr j _ t).getAttr i _) = _
  rw [setAttr_other _ hj]
  exact h

theorem hasValue_setTagOnly_self {f : Str} {i : Nat} {d : Doc} {t : Option Str} (h : stripTagPrefix t = some f) :
    HasValue f i (d.setTagOnly i t) := by
  unfold HasValue
  show stripTagPrefix ((d.setAttr i _ t).getAttr i _) = _
  rw [getAttr_setAttr, if_pos ⟨rfl, rfl⟩]
  exact h

theorem hasValue_replaceTags {f : Str} {i : Nat} (hf : f ≠ []) (repl : Dict (Option Str)) (hr : repl.get? f = none) {d : Doc}
    (h : HasValue f i d) : HasValue f i (replaceTags repl d) := by
  refine labelsIn_loop (HasValue f i) _ _ (fun d j _ hd => ?_) d h
  unfold replaceTagsStep
  have hv := hd.orPreserved hf
  unfold Doc.getTagOrPreservedValue stripTagPrefix at hv
  by_cases hj : i = j
  · subst hj
    generalize splitTagPrefix (d.getTagOrPreserved i) = p at hv
    obtain ⟨pre, value⟩ := p
    simp only at hv
    subst hv
    simp only [Option.getD_some, hr]
    split
    · exact hd
    · exact hd
  · generalize splitTagPrefix (d.getTagOrPreserved j) = p
    obtain ⟨pre, value⟩ := p
    simp only
    split
    · exact hd
    · split
      · exact hd
      · unfold HasValue
        rw [getTag_setTag, if_neg hj]
        exact hd

theorem hasValue_mergeGroup {f : Str} {i : Nat} (hf : f ≠ []) (group : Str → Option Str) {d : Doc} (h : HasValue f i d) :
    HasValue f i (mergeGroupTags group none d) := by
  refine labelsIn_loop (fun st : Option Str × Doc => HasValue f i st.2) _ _ (fun st j _ hd => ?_) (none, d) h
  unfold mergeGroupStep
  split
  · exact hd
  · simp only
    split
    · exact hd
    · next hv =>
      split
      · exact hd
      · refine hasValue_setTagOnly_ne hd ?_ _
        rintro rfl
        rw [hd.orPreserved hf] at hv
        exact hv (truthy_some.2 hf)

theorem hasValue_expandFollowing {f : Str} {i : Nat} (hf : f ≠ []) (enabled : List Str) {d : Doc} (h : HasValue f i d) :
    HasValue f i (expandFollowing enabled d) := by
  refine labelsIn_loop (fun st : Option Str × Doc => HasValue f i st.2) _ _ (fun st j _ hd => ?_) (none, d) h
  unfold expandFollowingStep
  simp only
  split
  · exact hd
  · next hv =>
    split
    · exact hd
    · refine hasValue_setTagOnly_ne hd ?_ _
      rintro rfl
      rw [hd.orPreserved hf] at hv
      exact hv (truthy_some.2 hf)

theorem hasValue_expandPrevious {f : Str} {i : Nat} (hf : f ≠ []) (enabled : List Str) {d : Doc} (h : HasValue f i d) :
    HasValue f i (expandPrevious enabled d) := by
  refine (labelsIn_loop (fun st : PrevState => HasValue f i st.doc ∧ i ∉ st.pending) _ _ (fun st j _ hd => ?_) ⟨d, []⟩ ⟨h, List.not_mem_nil⟩).1
  obtain ⟨hd, hp⟩ := hd
  unfold expandPreviousStep
  simp only
  split
  · next hv =>
    refine ⟨hd, ?_⟩
    intro hm
    rcases List.mem_append.1 hm with hm | hm
    · exact hp hm
    · rw [List.mem_singleton] at hm
      subst hm
      rw [hd.orPreserved hf] at hv
      simp [truthy_some.2 hf] at hv
  · split
    · exact ⟨hd, hp⟩
    · split
      · exact ⟨hd, List.not_mem_nil⟩
      · refine ⟨?_, List.not_mem_nil⟩
        have h1 : ∀ w, HasValue f i (tagPending st.doc w st.pending) := by
          intro w
          cases hpend : st.pending with
          | nil => exact hd
          | cons k ks =>
            rw [hpend] at hp
            refine labelsIn_loop (HasValue f i) _ _ (fun d m hm hd => hasValue_setTagOnly_ne hd ?_ _) _ (hasValue_setTagOnly_ne hd ?_ _)
            · rintro rfl; exact hp (List.mem_cons_of_mem _ hm)
            · rintro rfl; exact hp List.mem_cons_self
        by_cases hj : i = j
        · subst hj
          refine hasValue_setTagOnly_self ?_
          rw [strip_addI]
          exact hd.orPreserved hf
        · exact hasValue_setTagOnly_ne (h1 _) hj _

theorem hasValue_simple (env : MatchEnv) (cfg : MatchCfg) (targets : List Target) {d d' : Doc} (hnd : d.nonSpaceTokens.Nodup)
    (hp : ∀ i, Spec.ProperTag (d.getTag i)) (hn : ∀ t ∈ targets, t.name ≠ [] ∧ Spec.tagValue (some t.name) = some t.name)
    (h : simpleAnnotate env cfg targets d = .ok d') {f : Str} {i : Nat} (hv : HasValue f i d) : HasValue f i d' := by
  unfold HasValue at hv ⊢
  have := (C19_keeps_values env cfg targets d d' hnd hp hn h i).1 (fun e => by rw [e] at hv; cases hv)
  rw [stripTagPrefix_eq_tagValue] at hv ⊢
  rw [this, hv]

/-- What holds before the annotators are run: tokens of a field that is always to be preserved have its label, and all labels are proper. -/
theorem before_kept (a : ToolArgs) (t : Tool) (dc : DocCfg) (root : Elem) (d0 : Doc) (hl : loadDoc dc root = .ok d0)
    (ho : t.ownField = none) (he : [] ∉ a.alwaysPreserve) (f : Str) (hf : f ∈ a.alwaysPreserve)
    (i : Nat) (hi : i ∈ d0.allTokens) (hv : Spec.tagValue (d0.getPreservedTag i) = some f) :
    HasValue f i (beforeAnnotator (t.annotateCfg a) d0) ∧ (∀ j, Spec.ProperTag ((beforeAnnotator (t.annotateCfg a) d0).getTag j)) ∧
      (beforeAnnotator (t.annotateCfg a) d0).nonSpaceTokens.Nodup := by
  have hpf : (t.annotateCfg a).preserveFields = a.alwaysPreserve := by simp only [Tool.annotateCfg, ho]
  have hb0 : HasValue f i (beforeAnnotator (t.annotateCfg a) d0) := by
    have hor : d0.getTagOrPreserved i = d0.getPreservedTag i := by
      unfold Doc.getTagOrPreserved; rw [loaded_no_tag hl i hi]; rfl
    obtain ⟨_, _, _, hx, _⟩ := Props.C14_before_annotation (t.annotateCfg a) d0 i hi
    have hv' : stripTagPrefix (d0.getTagOrPreserved i) = some f := by rw [hor, stripTagPrefix_eq_tagValue]; exact hv
    unfold HasValue
    rw [hx f (by rw [hpf]; exact hf) hv']
    exact hv'
  have hprop : ∀ j, Spec.ProperTag ((beforeAnnotator (t.annotateCfg a) d0).getTag j) := by
    intro j s hs
    by_cases hj : j ∈ d0.allTokens
    · have hbt := before_tags (t.annotateCfg a) d0 j hj (loaded_no_tag hl j hj)
      obtain ⟨_, hk, hnk, _⟩ := Props.C14_before_annotation (t.annotateCfg a) d0 j hj
      have hkeep : Spec.keepMain (t.annotateCfg a) (stripTagPrefix (d0.getTagOrPreserved j)) := by
        refine Classical.byContradiction fun hno => ?_
        have e := hnk hno
        rcases hbt with h | h
        · rw [h] at hs; cases hs
        · unfold Doc.getTagOrPreserved pyOr at e
          split at e
          · rw [e] at hs; cases hs
          · rw [h, e] at hs; cases hs
      have e := hk hkeep
      unfold Spec.keepMain at hkeep
      rw [hpf, if_neg (fun e => by rw [e] at hf; cases hf)] at hkeep
      obtain ⟨g, hg, hval⟩ := hkeep
      have hgne : g ≠ [] := fun e => he (e ▸ hg)
      rw [← e] at hval
      have hs' : (beforeAnnotator (t.annotateCfg a) d0).getTagOrPreserved j = some s := by
        unfold Doc.getTagOrPreserved pyOr
        split
        · exact hs
        · rcases hbt with h | h
          · rw [h] at hs; cases hs
          · rw [← h]; exact hs
      rw [hs'] at hval
      constructor
      · rintro rfl
        exact hgne (Option.some.inj hval).symm
      · rw [← stripTagPrefix_eq_tagValue, hs, hval]
        intro e
        exact hgne (Option.some.inj e)
    · have : (beforeAnnotator (t.annotateCfg a) d0).getTag j = none :=
        before_outside _ (fun j hj m => loaded_outside hl j hj m) j hj _
      rw [this] at hs
      cases hs
  have hnd : (beforeAnnotator (t.annotateCfg a) d0).nonSpaceTokens.Nodup :=
    (nodup_loadDoc hl (Props.C14_aux_sameBut _ _)).2
  exact ⟨hb0, hprop, hnd⟩

/-- **C97**, in part: tokens of fields which are always to be preserved keep the value of their label (its prefix may change, since
adjacent lines are joined), for the tools without a field of their own, except for segmentation and line
numbers. -/
theorem C97_kept_partial (env : ToolEnv) (a : ToolArgs) (t : Tool) (dc : DocCfg) (root : Elem) (d0 d' : Doc)
    (hl : loadDoc dc root = .ok d0)
    (ha : annotateAll (t.annotators env a) (beforeAnnotator (t.annotateCfg a) d0) = .ok d')
    (ho : Spec.toolField t = none) (hr : ¬ Spec.removesText t) (hs : ∀ c np, t ≠ .segmentation c np)
    (hln : t = .header ∨ t = .referenceSegmenter → a.useLineNumbers = false)
    (hn : ∀ x ∈ a.targets, x.name ≠ [] ∧ Spec.tagValue (some x.name) = some x.name)
    (hc : ∀ x ∈ a.coreTargets, x.name ≠ [] ∧ ∀ s ∈ x.subs, s.name ≠ [])
    (he : [] ∉ a.alwaysPreserve) (f : Str) (hf : f ∈ a.alwaysPreserve)
    (hrep : (∃ x y z, t = .fulltext x y z) → f ≠ c!"note_other" ∧ f ≠ c!"note[@type=\"other\"]")
    (i : Nat) (hi : i ∈ d0.allTokens) (hv : Spec.tagValue (d0.getPreservedTag i) = some f) :
    Spec.tagValue (d'.getTag i) = some f := by
  have hfne : f ≠ [] := fun e => he (e ▸ hf)
  rw [← ownField_eq] at ho
  obtain ⟨hb0, hprop, hnd⟩ := before_kept a t dc root d0 hl ho he f hf i hi hv
  rw [← stripTagPrefix_eq_tagValue]
  show HasValue f i d'
  generalize beforeAnnotator (t.annotateCfg a) d0 = b at *
  have hone : ∀ (g : Doc → Except Err Doc) (x y : Doc) rest, annotateAll (g :: rest) x = .ok y →
      ∃ z, g x = .ok z ∧ annotateAll rest z = .ok y := by
    intro g x y rest h
    unfold annotateAll at h
    split at h
    · cases h
    · next z hz => exact ⟨z, hz, h⟩
  have hsimple : ∀ (cfg : MatchCfg) (x : Doc), simpleAnnotate env.simple cfg a.targets b = .ok x → HasValue f i x :=
    fun cfg x h => hasValue_simple _ _ _ hnd hprop hn h hb0
  have hdef : ∀ s, a.useLineNumbers = false → annotateAll (defaultAnnotators env a s) b = .ok d' → HasValue f i d' := by
    intro s hu h
    unfold defaultAnnotators at h
    rw [hu] at h
    simp only [Bool.false_eq_true, if_false, List.nil_append] at h
    split at h
    · obtain ⟨z, hz, h⟩ := hone _ _ _ _ h
      obtain rfl := Except.ok.inj h
      split at hz
      · exact hsimple _ _ hz
      · have := (C83_safe _ _ _ _ _ (fun x hx => (hc x hx).1) (fun x hx => (hc x hx).2) hz).2 i
        rcases this with h | h
        · unfold HasValue; rw [h.1]; exact hb0
        · exfalso
          have e := h.1
          have hb1 := hb0
          unfold HasValue at hb1
          cases hg : b.getTag i with
          | none => rw [hg] at hb1; cases hb1
          | some s =>
            cases s with
            | nil => rw [hg] at hb1; exact hfne (Option.some.inj hb1).symm
            | cons c s => rw [hg] at e; cases e
    · obtain rfl := Except.ok.inj h; exact hb0
  have hmos : ∀ (cfg : MatchCfg) (x : Doc), matchOrSubTags env cfg a.targets true b = .ok x → HasValue f i x :=
    fun cfg x h => hsimple cfg x h
  cases t with
  | header => exact hdef _ (hln (.inl rfl)) ha
  | referenceSegmenter => exact hdef _ (hln (.inr rfl)) ha
  | segmentation c np => exact absurd rfl (hs c np)
  | fulltext x y z =>
    obtain ⟨h1, h2⟩ := hrep ⟨x, y, z, rfl⟩
    have hg : fulltextReplaced.get? f = none := by
      cases h : fulltextReplaced.get? f with
      | none => rfl
      | some w =>
        have := mem_of_get? h
        simp only [fulltextReplaced, List.mem_cons, Prod.mk.injEq, List.not_mem_nil, or_false] at this
        rcases this with h | h
        · exact absurd h.1 h1
        · exact absurd h.1 h2
    obtain ⟨z1, hz1, h⟩ := hone _ _ _ _ ha
    obtain ⟨z2, hz2, h⟩ := hone _ _ _ _ h
    obtain ⟨z3, hz3, h⟩ := hone _ _ _ _ h
    obtain rfl := Except.ok.inj hz2
    obtain rfl := Except.ok.inj hz3
    have k3 := hasValue_mergeGroup hfne fulltextGroup (hasValue_replaceTags hfne _ hg (hsimple _ _ hz1))
    generalize mergeGroupTags fulltextGroup none (replaceTags fulltextReplaced z1) = z3 at h k3
    cases y <;> cases z
    · obtain rfl := Except.ok.inj h; exact k3
    · obtain rfl := Except.ok.inj h; exact hasValue_expandFollowing hfne _ k3
    · obtain rfl := Except.ok.inj h; exact hasValue_expandPrevious hfne _ k3
    · obtain rfl := Except.ok.inj h; exact hasValue_expandFollowing hfne _ (hasValue_expandPrevious hfne _ k3)
  | figure s =>
    cases s with
    | false => cases ho
    | true =>
      obtain ⟨z, hz, h⟩ := hone _ _ _ _ ha
      obtain rfl := Except.ok.inj h
      exact hmos _ _ hz
  | table s =>
    cases s with
    | false => cases ho
    | true =>
      obtain ⟨z, hz, h⟩ := hone _ _ _ _ ha
      obtain rfl := Except.ok.inj h
      exact hmos _ _ hz
  | reference s p r =>
    cases r with
    | true => exact absurd rfl hr
    | false =>
      cases s with
      | false => cases ho
      | true =>
        obtain ⟨z, hz, h⟩ := hone _ _ _ _ ha
        obtain ⟨w, hw, h⟩ := hone _ _ _ _ h
        obtain rfl := Except.ok.inj h
        unfold HasValue
        rw [(subOnly_referenceAnnotate _ _ _ _ hw).getTag]
        exact hmos _ _ hz
  | affiliation s r =>
    cases r with
    | true => exact absurd rfl hr
    | false =>
      cases s with
      | false => cases ho
      | true =>
        obtain ⟨z, hz, h⟩ := hone _ _ _ _ ha
        obtain ⟨w, hw, h⟩ := hone _ _ _ _ h
        obtain rfl := Except.ok.inj h
        obtain rfl := Except.ok.inj hw
        unfold HasValue
        rw [(subOnly_mergeGroupTags _ _).getTag]
        exact hmos _ _ hz

/-- The figure is always preserved, although its text is that of a title to be annotated. -/
example : ∃ d', loadAndAnnotate exToolEnv { targets := exTargets, alwaysPreserve := [c!"figure"], noPreserveTags := true } .header
      exFigureCfg
      (.mk c!"tei" [] none [.mk c!"text" [] (some c!"some title")
        [.mk c!"lb" [] none [] none, .mk c!"figure" [] (some c!"some title") [] none, .mk c!"table" [] (some c!"abc") [] none] none] none) = .ok d' ∧
      d'.allTokens.map (fun i => d'.getTag i) =
        [some c!"b-title", none, some c!"i-title", some c!"b-figure", some c!"i-figure", some c!"i-figure", some c!"b-name"] :=
  exists_of_okAnd (by decide +kernel)

/-- Two lines within a figure, the first of which begins with a number. -/
def exNumberedFigure : Elem :=
  .mk c!"tei" [] none [.mk c!"text" [] none
    [.mk c!"figure" [] (some c!"1 one") [.mk c!"lb" [] none [] (some c!"two")] none] none] none

/-- **C97**, disagreement: line numbers are tagged before anything else and whatever their label: within a figure
that is always to be preserved. -/
theorem C97_line_numbers_overwrite :
    ∃ d', loadAndAnnotate exToolEnv { alwaysPreserve := [c!"figure"], useLineNumbers := true, lineNumbers := { minPerPage := 1 } }
        .header exFigureCfg exNumberedFigure = .ok d' ∧
      d'.allTokens.map (fun i => d'.getTag i) = [some c!"line_no", some c!"i-figure", some c!"i-figure", some c!"i-figure"] :=
  exists_of_okAnd (by decide +kernel)

/-- **C97**, exactly, with line numbers: a token of a field that is always to be preserved keeps the value of its label if and only if it is not
found to be a line number; otherwise it is labelled as line number (unless that is the field to be preserved). -/
theorem C97_line_numbers_exact (env : ToolEnv) (a : ToolArgs) (t : Tool) (ht : t = .header ∨ t = .referenceSegmenter) (dc : DocCfg)
    (root : Elem) (d0 d' : Doc) (hl : loadDoc dc root = .ok d0)
    (ha : annotateAll (t.annotators env a) (beforeAnnotator (t.annotateCfg a) d0) = .ok d')
    (hu : a.useLineNumbers = true) (hratio : a.lineNumbers.ratio = none)
    (hn : ∀ x ∈ a.targets, x.name ≠ [] ∧ Spec.tagValue (some x.name) = some x.name)
    (hc : ∀ x ∈ a.coreTargets, x.name ≠ [] ∧ ∀ s ∈ x.subs, s.name ≠ [])
    (he : [] ∉ a.alwaysPreserve) (f : Str) (hf : f ∈ a.alwaysPreserve)
    (i : Nat) (hi : i ∈ d0.allTokens) (hv : Spec.tagValue (d0.getPreservedTag i) = some f) :
    ∃ toks, findLineNumbers ⟨env.simple.cc, env.parseInt, c!"line_no", a.lineNumbers.minPerPage, 10, 1/10⟩
        (beforeAnnotator (t.annotateCfg a) d0) = .ok toks ∧
      Spec.tagValue (d'.getTag i) = some (if i ∈ toks then c!"line_no" else f) := by
  have hfne : f ≠ [] := fun e => he (e ▸ hf)
  have ho : t.ownField = none := by rcases ht with rfl | rfl <;> rfl
  obtain ⟨hb0, hprop, hnd⟩ := before_kept a t dc root d0 hl ho he f hf i hi hv
  generalize beforeAnnotator (t.annotateCfg a) d0 = b at *
  have hone : ∀ (g : Doc → Except Err Doc) (x y : Doc) rest, annotateAll (g :: rest) x = .ok y →
      ∃ z, g x = .ok z ∧ annotateAll rest z = .ok y := by
    intro g x y rest h
    unfold annotateAll at h
    split at h
    · cases h
    · next z hz => exact ⟨z, hz, h⟩
  have hdef : ∀ s, annotateAll (defaultAnnotators env a s) b = .ok d' → ∃ toks, findLineNumbers (lineNumberCfg env a.lineNumbers) b = .ok toks ∧
      Spec.tagValue (d'.getTag i) = some (if i ∈ toks then c!"line_no" else f) := by
    intro s h
    unfold defaultAnnotators at h
    rw [hu] at h
    simp only [if_true] at h
    rw [List.singleton_append] at h
    obtain ⟨b1, h1, h⟩ := hone _ _ _ _ h
    unfold lineNumberAnnotator at h1
    rw [hratio] at h1
    obtain ⟨toks, hfind, hsame, htag, _⟩ := Props.C26_annotate _ _ _ h1
    refine ⟨toks, hfind, ?_⟩
    have hb1 : HasValue (if i ∈ toks then c!"line_no" else f) i b1 := by
      unfold HasValue
      rw [htag i]
      split
      · rfl
      · exact hb0
    have hprop1 : ∀ j, Spec.ProperTag (b1.getTag j) := by
      intro j
      rw [htag j]
      split
      · intro s hs
        obtain rfl := Option.some.inj hs
        show c!"line_no" ≠ [] ∧ Spec.tagValue (some c!"line_no") ≠ some []
        exact ⟨by decide, by decide +kernel⟩
      · exact hprop j
    have hne1 : (if i ∈ toks then c!"line_no" else f) ≠ [] := by
      split
      · decide
      · exact hfne
    have hnd1 : b1.nonSpaceTokens.Nodup := by rw [hsame.nonSpaceTokens]; exact hnd
    generalize (if i ∈ toks then c!"line_no" else f) = g at hb1 hne1 ⊢
    rw [← stripTagPrefix_eq_tagValue]
    show HasValue g i d'
    split at h
    · obtain ⟨z, hz, h⟩ := hone _ _ _ _ h
      obtain rfl := Except.ok.inj h
      split at hz
      · exact hasValue_simple _ _ _ hnd1 hprop1 hn hz hb1
      · have := (C83_safe _ _ _ _ _ (fun x hx => (hc x hx).1) (fun x hx => (hc x hx).2) hz).2 i
        rcases this with h | h
        · unfold HasValue; rw [h.1]; exact hb1
        · exfalso
          have e := h.1
          have hb2 := hb1
          unfold HasValue at hb2
          cases hg : b1.getTag i with
          | none => rw [hg] at hb2; cases hb2
          | some s =>
            cases s with
            | nil => rw [hg] at hb2; exact hne1 (Option.some.inj hb2).symm
            | cons c s => rw [hg] at e; cases e
    · obtain rfl := Except.ok.inj h; exact hb1
  rcases ht with rfl | rfl
  · exact hdef _ ha
  · exact hdef _ ha

/-- Not vacuous: in the figure with a line number only the number loses its label. -/
example : (beforeAnnotator (Tool.header.annotateCfg { alwaysPreserve := [c!"figure"] }) <$> loadDoc exFigureCfg exNumberedFigure).bind
      (findLineNumbers ⟨exToolEnv.simple.cc, exToolEnv.parseInt, c!"line_no", 1, 10, 1/10⟩) = .ok [0] ∧
    (loadDoc exFigureCfg exNumberedFigure).map (fun d => d.allTokens.map (fun i => Spec.tagValue (d.getPreservedTag i))) =
      .ok [some c!"figure", some c!"figure", some c!"figure", some c!"figure"] := by decide +kernel

/-- **C97**, disagreement: the tool for segmentation labels lines as a whole by the label of most of their tokens, also
the tokens of fields that are always to be preserved. -/
theorem C97_segmentation_overwrites :
    ∃ d', loadAndAnnotate exToolEnv { targets := exTargets, alwaysPreserve := [c!"figure"] }
        (.segmentation { mapping := [(c!"front", [c!"title"])] } []) exFigureCfg
        (.mk c!"tei" [] none [.mk c!"text" [] (some c!"some title")
          [.mk c!"figure" [] (some c!"one") [] none] none] none) = .ok d' ∧
      d'.allTokens.map (fun i => d'.getTag i) = [some c!"front", some c!"front", some c!"front", some c!"front"] :=
  exists_of_okAnd (by decide +kernel)

end Verif
