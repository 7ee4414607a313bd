/-
Property C152: labels of the file which are to be kept, where the tool gives no label.
-/
import Verif.Lemmas.FullTextKept
import Verif.Lemmas.SegKept
import Verif.Props.SubKept
import Verif.Props.WrittenText

namespace Verif

namespace Spec

/-- The tools which label figures, tables or affiliations themselves and leave other labels as they are. -/
def keepsLabels : Tool → Prop
  | .figure seg => seg = true
  | .table seg => seg = true
  | .affiliation seg _ => seg = true
  | _ => False

/-- A word on the line of token `i`, which had the label `v` in `d0`, has got one of another field. -/
def LabelLost (d0 d' : Doc) (i : Nat) (v : Str) : Prop :=
  ∃ j, OnOneLine d0 i j ∧ (d0.tok j).isSpace = false ∧ tagValue (d0.getPreservedTag j) = some v ∧
    truthy (d'.getTag j) = true ∧ tagValue (d'.getTag j) ≠ some v

/-- A word on the line of token `i`, which had the label `v` in `d0`, has got a label. -/
def LineLabelled (d0 d' : Doc) (i : Nat) (v : Str) : Prop :=
  ∃ j, OnOneLine d0 i j ∧ (d0.tok j).isSpace = false ∧ tagValue (d0.getPreservedTag j) = some v ∧ truthy (d'.getTag j) = true

/-- The labels which the tool for full texts removes (auto_annotate_fulltext.py:119-122). -/
def removedNotes : List Str := [c!"note_other", c!"note[@type=\"other\"]"]

end Spec

/-- Without fields to be always preserved no token has an explicit tag before the annotators. -/
theorem before_tag_none (cfg : AnnotateCfg) (hc : cfg.preserveFields = []) {d : Doc} (i : Nat) (hi : i ∈ d.allTokens) (hn : d.getTag i = none) :
    (beforeAnnotator cfg d).getTag i = none := by
  let fn : Option Str → Option Str := if cfg.preserveTags || !cfg.preserveFields.isEmpty then
      preserveTagFn cfg.preserveFields (cfg.fields.filter (fun f => !cfg.preserveFields.contains f))
    else fun _ => none
  have hfn : ∀ t, fn t = t ∨ fn t = none := by
    intro t
    rcases Props.C14_aux_main cfg t with h | h
    · exact .inr h
    · exact .inl h.1
  let d1 := if cfg.preserveFields.isEmpty then d else applyPreservedFields cfg.preserveFields d
  have h1 : d1 = d := by
    show (if _ then _ else _ : Doc) = _
    rw [hc]; rfl
  have b1 : (mapTokenTags fn none d1).allTokens = d.allTokens := by
    rw [h1]
    refine SameBut.allTokens (sameBut_foldl _ (fun d i => ?_) _ _)
    unfold mapTokenTagsStep
    simp only
    split
    · exact (sameBut_setAttr _ _ _ _).trans (sameBut_setAttr _ _ _ _)
    · exact .refl d
  have b2 : (mapTokenTags fn none d1).getTag i = none := by
    show (mapTokenTags fn none d1).getAttr i _ = none
    rw [getAttr_mapTokenTags hfn, if_pos (by rw [h1]; exact hi)]
    unfold mapAttrs
    rw [h1]
    by_cases hx : fn (tagOr none (d.getAttr i)) ≠ tagOr none (d.getAttr i)
    · rw [if_pos hx, if_pos rfl]; exact (hfn _).resolve_left hx
    · rw [if_neg hx]; exact hn
  obtain ⟨sfn, s1, _, _, s4⟩ := Props.C14_aux_sub cfg (mapTokenTags fn none d1)
  show (beforeAnnotator cfg d).getAttr i _ = none
  have h3 : (beforeAnnotator cfg d).getAttr i = (mapTokenTags sfn (some subLevel) (mapTokenTags fn none d1)).getAttr i := s4 i
  rw [h3, getAttr_mapTokenTags s1, if_pos (by rw [b1]; exact hi)]
  unfold mapAttrs
  split
  · rw [if_neg (by decide), if_neg (by decide)]; exact b2
  · exact b2

/-- The labels to be kept, before the annotators. -/
theorem before_main_kept {cfg : AnnotateCfg} (hc : cfg.preserveFields = []) {dc : DocCfg} {root : Elem} {d0 : Doc} (hl : loadDoc dc root = .ok d0) :
    ∀ j ∈ d0.allTokens,
      (Spec.keepMain cfg (stripTagPrefix (d0.getPreservedTag j)) →
        (beforeAnnotator cfg d0).getAttr j keptMainAttr = d0.getPreservedTag j) ∧
      (¬ Spec.keepMain cfg (stripTagPrefix (d0.getPreservedTag j)) →
        (beforeAnnotator cfg d0).getAttr j keptMainAttr = none) := by
  intro j hj
  have hn := loaded_no_tag hl j hj
  have hor : d0.getTagOrPreserved j = d0.getPreservedTag j := by
    unfold Doc.getTagOrPreserved
    rw [hn]; rfl
  obtain ⟨_, hk, hnk, _⟩ := Props.C14_before_annotation cfg d0 j hj
  have hbn := before_tag_none cfg hc j hj hn
  have hbor : (beforeAnnotator cfg d0).getTagOrPreserved j =
      (beforeAnnotator cfg d0).getAttr j keptMainAttr := by
    unfold Doc.getTagOrPreserved
    rw [hbn]; rfl
  rw [hor] at hk hnk
  rw [← hbor]
  exact ⟨hk, hnk⟩

theorem label_of_falsy {d : Doc} {i : Nat} (h : truthy (d.getTag i) = false) : d.getTagOrPreserved i = d.getAttr i keptMainAttr := by
  unfold Doc.getTagOrPreserved pyOr
  rw [h]
  rfl

theorem label_of_truthy {d : Doc} {i : Nat} (h : truthy (d.getTag i) = true) : d.getTagOrPreserved i = d.getTag i := by
  unfold Doc.getTagOrPreserved pyOr
  rw [h]
  rfl

theorem tool_mainStays (env : ToolEnv) (a : ToolArgs) (t : Tool) (ht : Spec.keepsLabels t) (b d' : Doc)
    (h : annotateAll (t.annotators env a) b = .ok d') : MainStays b d' := by
  have key : ∀ d1, matchOrSubTags env (simpleCfg a true true false) a.targets true b = .ok d1 → MainStays b d1 :=
    fun d1 h => mainStays_simple _ _ _ rfl rfl h (fun _ => rfl)
  cases t with
  | figure seg =>
    cases ht
    unfold Tool.annotators annotateAll at h
    split at h
    · cases h
    · next d1 h1 => cases h; exact key _ h1
  | table seg =>
    cases ht
    unfold Tool.annotators annotateAll at h
    split at h
    · cases h
    · next d1 h1 => cases h; exact key _ h1
  | affiliation seg r =>
    cases ht
    unfold Tool.annotators annotateAll at h
    simp only [List.cons_append, List.nil_append] at h
    split at h
    · cases h
    · next d1 h1 =>
      have h2 := key d1 h1
      cases r with
      | false => cases h; exact h2.subOnly (subOnly_mergeGroupTags _ _)
      | true => cases h; exact MainStays.subOnly (d := d1.removeAllUntagged) h2 (subOnly_mergeGroupTags _ _)
  | header => cases ht
  | referenceSegmenter => cases ht
  | segmentation _ _ => cases ht
  | fulltext _ _ _ => cases ht
  | reference _ _ _ => cases ht

/-- **C152.** The tools labelling figures, tables or affiliations keep the label of each token which is not of a field to
be annotated, if they give none to the token. -/
theorem C152_kept (env : ToolEnv) (a : ToolArgs) (t : Tool) (ht : Spec.keepsLabels t) (dc : DocCfg) (root : Elem) (d0 d' : Doc)
    (hl : loadDoc dc root = .ok d0)
    (ha : annotateAll (t.annotators env a) (beforeAnnotator (t.annotateCfg a) d0) = .ok d')
    (hp : a.noPreserveTags = false) (hap : a.alwaysPreserve = []) (i : Nat) (hi : i ∈ d0.allTokens) (v : Str)
    (hv : Spec.tagValue (d0.getPreservedTag i) = some v) (hnf : v ∉ a.fields) (hnew : truthy (d'.getTag i) = false) :
    d'.getTagOrPreserved i = d0.getPreservedTag i := by
  have hf : (t.annotateCfg a).preserveFields = [] := by
    cases t <;> cases ht <;> exact hap
  have hkeep : Spec.keepMain (t.annotateCfg a) (some v) := by
    unfold Spec.keepMain
    rw [if_pos hf]
    refine ⟨by simp [Tool.annotateCfg, hp], fun f hfm e => ?_⟩
    cases e
    cases t <;> cases ht <;> exact hnf hfm
  rw [← stripTagPrefix_eq_tagValue] at hv
  rw [label_of_falsy hnew, tool_mainStays env a t ht _ _ ha i]
  exact (before_main_kept hf hl i hi).1 (by rw [hv]; exact hkeep)

/-- Before the annotators nothing has been removed. -/
theorem mainExact_before {cfg : AnnotateCfg} (hf : cfg.preserveFields = []) {dc : DocCfg} {root : Elem} {d0 : Doc} (hl : loadDoc dc root = .ok d0) :
    MainExact (beforeAnnotator cfg d0) (beforeAnnotator cfg d0) := by
  have hno : ∀ k, ¬ LosesMain (beforeAnnotator cfg d0) (beforeAnnotator cfg d0) k := by
    rintro k ⟨j, hj, hr, _⟩
    by_cases hja : j ∈ d0.allTokens
    · have := hr.2.2.1
      rw [before_tag_none cfg hf j hja (loaded_no_tag hl j hja)] at this
      cases this
    · have := hr.2.2.1
      rw [show (beforeAnnotator cfg d0).getTag j = none from before_outside _ (fun j hj m => loaded_outside hl j hj m) j hja _] at this
      cases this
  exact ⟨rfl, fun _ => rfl, fun k hk => absurd hk (hno k), fun _ _ => rfl⟩

/-- What is removed, in terms of the document loaded. -/
theorem label_exact {cfg : AnnotateCfg} (hf : cfg.preserveFields = []) {dc : DocCfg} {root : Elem} {d0 d' : Doc}
    (hl : loadDoc dc root = .ok d0) (hex : MainExact (beforeAnnotator cfg d0) d') (i : Nat) (hi : i ∈ d0.allTokens) (v : Str) (hv0 : v ≠ [])
    (hv : Spec.tagValue (d0.getPreservedTag i) = some v) (hkeep : Spec.keepMain cfg (some v)) (hnew : truthy (d'.getTag i) = false) :
    (Spec.LabelLost d0 d' i v → d'.getTagOrPreserved i = none) ∧
    (¬ Spec.LabelLost d0 d' i v → d'.getTagOrPreserved i = d0.getPreservedTag i) := by
  have hsame : SameBut d0 (beforeAnnotator cfg d0) := (Props.C14_before_annotation cfg d0 i hi).1
  have hb := before_main_kept (cfg := cfg) hf hl
  rw [← stripTagPrefix_eq_tagValue] at hv
  have hbi := (hb i hi).1 (by rw [hv]; exact hkeep)
  have hlost : LosesMain (beforeAnnotator cfg d0) d' i ↔ Spec.LabelLost d0 d' i v := by
    constructor
    · rintro ⟨j, hj, ⟨hsp, htr, hts, hne⟩, he⟩
      rw [hsame.lineOf] at hj
      have hone := onOneLine_loaded hl hj
      obtain ⟨l, hll, _, hjl⟩ := id hone
      have hbj := hb j (List.mem_flatMap.2 ⟨l, hll, hjl⟩)
      rw [hbi, hv] at he
      rw [← he] at hne
      refine ⟨j, hone, by rw [← hsame.isSpace]; exact hsp, ?_, hts, by rw [← stripTagPrefix_eq_tagValue]; exact hne⟩
      rw [← stripTagPrefix_eq_tagValue]
      by_cases hkj : Spec.keepMain cfg (stripTagPrefix (d0.getPreservedTag j))
      · rw [hbj.1 hkj] at he; exact he.symm
      · rw [hbj.2 hkj] at he; cases he
    · rintro ⟨j, hone, hsp, hvj, hts, hne⟩
      obtain ⟨l, hll, _, hjl⟩ := id hone
      rw [← stripTagPrefix_eq_tagValue] at hvj hne
      have hbj := (hb j (List.mem_flatMap.2 ⟨l, hll, hjl⟩)).1 (by rw [hvj]; exact hkeep)
      refine ⟨j, by rw [hsame.lineOf]; exact lineOf_loaded hl hone, ⟨by rw [hsame.isSpace]; exact hsp, ?_, hts, ?_⟩, ?_⟩
      · rw [hbj, hvj]
        cases v with
        | nil => exact absurd rfl hv0
        | cons _ _ => rfl
      · rw [hbj, hvj]; exact hne
      · rw [hbi, hbj, hv, hvj]
  rw [label_of_falsy hnew]
  exact ⟨fun hlo => hex.lost i (hlost.2 hlo), fun hlo => by rw [hex.kept i (fun h => hlo (hlost.1 h)), hbi]⟩

/-- **C152 (references).** The tool labelling references keeps the label of a token exactly if the token gets no new one
and no word on its line which had the same label gets another. -/
theorem C152_references (env : ToolEnv) (a : ToolArgs) (prefixes : Bool) (dc : DocCfg) (root : Elem) (d0 d' : Doc)
    (hl : loadDoc dc root = .ok d0)
    (ha : annotateAll ((Tool.reference true prefixes false).annotators env a)
      (beforeAnnotator ((Tool.reference true prefixes false).annotateCfg a) d0) = .ok d')
    (hp : a.noPreserveTags = false) (hap : a.alwaysPreserve = []) (hn : ∀ t ∈ a.targets, t.name ≠ [])
    (i : Nat) (hi : i ∈ d0.allTokens) (v : Str) (hv0 : v ≠ [])
    (hv : Spec.tagValue (d0.getPreservedTag i) = some v) (hnf : v ∉ a.fields) (hnew : truthy (d'.getTag i) = false) :
    (Spec.LabelLost d0 d' i v → d'.getTagOrPreserved i = none) ∧
    (¬ Spec.LabelLost d0 d' i v → d'.getTagOrPreserved i = d0.getPreservedTag i) := by
  generalize ht : (Tool.reference true prefixes false) = t at ha
  have hf : (t.annotateCfg a).preserveFields = [] := by subst ht; exact hap
  have hkeep : Spec.keepMain (t.annotateCfg a) (some v) := by
    unfold Spec.keepMain
    rw [if_pos hf]
    refine ⟨by simp [Tool.annotateCfg, hp], fun f hfm e => ?_⟩
    cases e
    subst ht
    exact hnf hfm
  have hsame : SameBut d0 (beforeAnnotator (t.annotateCfg a) d0) := (Props.C14_before_annotation (t.annotateCfg a) d0 i hi).1
  have hx := mainExact_before (cfg := t.annotateCfg a) hf hl
  have hex : MainExact (beforeAnnotator (t.annotateCfg a) d0) d' := by
    have hap := linesApart_loaded hl hsame
    generalize beforeAnnotator (t.annotateCfg a) d0 = b at ha hx hap
    subst ht
    unfold Tool.annotators removeUntaggedIf at ha
    simp only [Bool.false_eq_true, if_false, List.append_nil] at ha
    unfold annotateAll at ha
    split at ha
    · cases ha
    · next d1 h1 =>
      have g1 : MainExact b d1 := mainExact_simple _ _ _ rfl rfl hn hap h1 hx
      unfold annotateAll at ha
      split at ha
      · cases ha
      · next d2 h2 =>
        cases ha
        exact g1.subOnly (subOnly_referenceAnnotate _ _ _ _ h2)
  exact label_exact hf hl hex i hi v hv0 hv hkeep hnew

/-- **C152 (headers).** The same for the tools for headers and for the segmentation of references, also where labels are
extended to whole lines. -/
theorem C152_headers (env : ToolEnv) (a : ToolArgs) (t : Tool) (ht : t = .header ∨ t = .referenceSegmenter)
    (hsm : a.simpleMatcher = true) (hln : a.useLineNumbers = false) (dc : DocCfg) (root : Elem) (d0 d' : Doc)
    (hl : loadDoc dc root = .ok d0)
    (ha : annotateAll (t.annotators env a) (beforeAnnotator (t.annotateCfg a) d0) = .ok d')
    (hp : a.noPreserveTags = false) (hap : a.alwaysPreserve = []) (hn : ∀ t ∈ a.targets, Spec.ProperTag (some t.name))
    (i : Nat) (hi : i ∈ d0.allTokens) (v : Str) (hv0 : v ≠ [])
    (hv : Spec.tagValue (d0.getPreservedTag i) = some v) (hnf : v ∉ a.fields) (hnew : truthy (d'.getTag i) = false) :
    (Spec.LabelLost d0 d' i v → d'.getTagOrPreserved i = none) ∧
    (¬ Spec.LabelLost d0 d' i v → d'.getTagOrPreserved i = d0.getPreservedTag i) := by
  have hf : (t.annotateCfg a).preserveFields = [] := by rcases ht with rfl | rfl <;> exact hap
  have hkeep : Spec.keepMain (t.annotateCfg a) (some v) := by
    unfold Spec.keepMain
    rw [if_pos hf]
    refine ⟨by simp [Tool.annotateCfg, hp], fun f hfm e => ?_⟩
    cases e
    rcases ht with rfl | rfl <;> exact hnf hfm
  have hsame : SameBut d0 (beforeAnnotator (t.annotateCfg a) d0) := (Props.C14_before_annotation (t.annotateCfg a) d0 i hi).1
  have hx := mainExact_before (cfg := t.annotateCfg a) hf hl
  have hnd : (beforeAnnotator (t.annotateCfg a) d0).nonSpaceTokens.Nodup := by
    exact (nodup_loadDoc hl hsame).2
  have hpt : ∀ j, Spec.ProperTag ((beforeAnnotator (t.annotateCfg a) d0).getTag j) := by
    intro j
    by_cases hj : j ∈ d0.allTokens
    · rw [before_tag_none _ hf j hj (loaded_no_tag hl j hj)]; exact properTag_none
    · rw [show (beforeAnnotator (t.annotateCfg a) d0).getTag j = none from before_outside _ (fun j hj m => loaded_outside hl j hj m) j hj _]
      exact properTag_none
  have hex : MainExact (beforeAnnotator (t.annotateCfg a) d0) d' := by
    have hap := linesApart_loaded hl hsame
    generalize beforeAnnotator (t.annotateCfg a) d0 = b at ha hx hap hnd hpt
    have key : ∀ useSub, annotateAll (defaultAnnotators env a useSub) b = .ok d' → MainExact b d' := by
      intro useSub ha
      unfold defaultAnnotators at ha
      rw [hln, hsm] at ha
      simp only [Bool.false_eq_true, if_false, if_true, List.nil_append] at ha
      split at ha
      · unfold annotateAll at ha
        split at ha
        · cases ha
        · next d1 h1 =>
          cases ha
          exact mainExact_annotate _ _ _ rfl hn hap hnd hpt h1 hx
      · cases ha
        exact hx
    rcases ht with rfl | rfl
    · exact key _ ha
    · exact key _ ha
  exact label_exact hf hl hex i hi v hv0 hv hkeep hnew

theorem notNote_of_not_mem {v : Str} (h : v ∉ Spec.removedNotes) : NotNote v := by
  unfold NotNote
  cases hg : fulltextReplaced.get? v with
  | none => rfl
  | some new =>
    have := mem_of_get? hg
    simp only [fulltextReplaced, List.mem_cons, Prod.mk.injEq, List.not_mem_nil, or_false] at this
    exact absurd (by rcases this with ⟨rfl, _⟩ | ⟨rfl, _⟩ <;> decide) h

theorem tool_lineKept (env : ToolEnv) (a : ToolArgs) (noExtend previous following : Bool)
    (hn : ∀ t ∈ a.targets, t.name ≠ [] ∧ t.name ∉ Spec.removedNotes ∧ Spec.tagValue (some t.name) = some t.name) {b d d' : Doc}
    (ha : annotateAll ((Tool.fulltext noExtend previous following).annotators env a) d = .ok d') (hd : LineKept (noExtend = false) b d) : LineKept (noExtend = false) b d' := by
  have hone : ∀ (g : Doc → Except Err Doc) (x y : Doc) rest, annotateAll (g :: rest) x = .ok y →
      ∃ z, g x = .ok z ∧ annotateAll rest z = .ok y := by
    intro g x y rest h
    unfold annotateAll at h
    split at h
    · cases h
    · next z hz => exact ⟨z, hz, h⟩
  obtain ⟨z1, hz1, h⟩ := hone _ _ _ _ ha
  obtain ⟨z2, hz2, h⟩ := hone _ _ _ _ h
  obtain ⟨z3, hz3, h⟩ := hone _ _ _ _ h
  have hz2 := Except.ok.inj hz2
  have hz3 := Except.ok.inj hz3
  have k1 : LineKept (noExtend = false) b z1 := by
    refine lineKept_annotate _ _ _ (fun h => by rcases h with h | h; cases h; simpa [simpleCfg] using h) (fun t ht => ?_) hz1 hd
    obtain ⟨h1, h2, h3⟩ := hn t ht
    refine ⟨h1, notNote_of_not_mem h2, fun v e _ => ?_⟩
    rw [h3] at e
    cases e
    exact notNote_of_not_mem h2
  have k2 : LineKept (noExtend = false) b z2 := by rw [← hz2]; exact lineKept_replaceTags k1
  have k3 : LineKept (noExtend = false) b z3 := by rw [← hz3]; exact lineKept_mergeGroup k2
  have last : ∀ z, LineKept (noExtend = false) b z → annotateAll (if following then [total (expandFollowing fulltextExpanded)] else []) z = .ok d' →
      LineKept (noExtend = false) b d' := by
    intro z hz h
    split at h
    · obtain ⟨z5, hz5, h⟩ := hone _ _ _ _ h
      have hz5 := Except.ok.inj hz5
      obtain rfl := Except.ok.inj h
      rw [← hz5]
      exact lineKept_expandFollowing hz
    · obtain rfl := Except.ok.inj h
      exact hz
  cases previous with
  | false => exact last z3 k3 h
  | true =>
    obtain ⟨z4, hz4, h⟩ := hone _ _ _ _ h
    have hz4 := Except.ok.inj hz4
    exact last z4 (by rw [← hz4]; exact lineKept_expandPrevious k3) h

/-- **C152 (full texts).** The tool for full texts keeps the label of a token if it gives no label to it and, where labels are
extended to whole lines, to the words on its line which had the same label; it removes the labels of other notes. -/
theorem C152_fulltext (env : ToolEnv) (a : ToolArgs) (noExtend previous following : Bool) (dc : DocCfg) (root : Elem) (d0 d' : Doc)
    (hl : loadDoc dc root = .ok d0)
    (ha : annotateAll ((Tool.fulltext noExtend previous following).annotators env a)
      (beforeAnnotator ((Tool.fulltext noExtend previous following).annotateCfg a) d0) = .ok d')
    (hp : a.noPreserveTags = false) (hap : a.alwaysPreserve = [])
    (hn : ∀ t ∈ a.targets, t.name ≠ [] ∧ t.name ∉ Spec.removedNotes ∧ Spec.tagValue (some t.name) = some t.name)
    (i : Nat) (hi : i ∈ d0.allTokens) (v : Str) (hv0 : v ≠ []) (hv : Spec.tagValue (d0.getPreservedTag i) = some v)
    (hnf : v ∉ a.fields) (hvn : v ∉ Spec.removedNotes) (hnew : truthy (d'.getTag i) = false) (hline : noExtend = true ∨ ¬ Spec.LineLabelled d0 d' i v) :
    d'.getTagOrPreserved i = d0.getPreservedTag i := by
  generalize ht : (Tool.fulltext noExtend previous following) = t at ha
  have hf : (t.annotateCfg a).preserveFields = [] := by subst ht; exact hap
  have hkeep : Spec.keepMain (t.annotateCfg a) (some v) := by
    unfold Spec.keepMain
    rw [if_pos hf]
    refine ⟨by simp [Tool.annotateCfg, hp], fun f hfm e => ?_⟩
    cases e
    subst ht
    exact hnf hfm
  have hsame : SameBut d0 (beforeAnnotator (t.annotateCfg a) d0) := (Props.C14_before_annotation (t.annotateCfg a) d0 i hi).1
  have hb := before_main_kept (cfg := t.annotateCfg a) hf hl
  have hnone : ∀ j, (beforeAnnotator (t.annotateCfg a) d0).getTag j = none := by
    intro j
    by_cases hj : j ∈ d0.allTokens
    · exact before_tag_none _ hf j hj (loaded_no_tag hl j hj)
    · exact before_outside _ (fun j hj m => loaded_outside hl j hj m) j hj _
  rw [← stripTagPrefix_eq_tagValue] at hv
  have hbi := (hb i hi).1 (by rw [hv]; exact hkeep)
  have hex : LineKept (noExtend = false) (beforeAnnotator (t.annotateCfg a) d0) d' := by
    generalize beforeAnnotator (t.annotateCfg a) d0 = b at ha hnone
    subst ht
    exact tool_lineKept env a noExtend previous following hn ha
      ⟨rfl, fun _ => rfl, fun _ => .inl rfl, fun j => by rw [hnone]; exact okTag_none _, fun _ _ _ _ _ => .inr rfl⟩
  rw [label_of_falsy hnew]
  rcases hex.kept i v (by rw [hbi]; exact hv) hv0 (notNote_of_not_mem hvn) with ⟨hx, j, h1, h2, h3, h4⟩ | hk
  · have hline := hline.resolve_left (by simp [hx])
    rw [hsame.lineOf] at h1
    have hone := onOneLine_loaded hl h1
    obtain ⟨l, hll, _, hjl⟩ := id hone
    have hbj := hb j (List.mem_flatMap.2 ⟨l, hll, hjl⟩)
    refine absurd ⟨j, hone, by rw [← hsame.isSpace]; exact h2, ?_, h4⟩ hline
    rw [← stripTagPrefix_eq_tagValue]
    by_cases hkj : Spec.keepMain (t.annotateCfg a) (stripTagPrefix (d0.getPreservedTag j))
    · rw [hbj.1 hkj] at h3; exact h3
    · rw [hbj.2 hkj] at h3; cases h3
  · rw [hk, hbi]

/-- **C152 (segmentation).** Segmentation keeps the labels on a line, if the matcher labels nothing on it and the line gets
no label. -/
theorem C152_segmentation (env : ToolEnv) (a : ToolArgs) (scfg : SegConfig) (np : List Str)
    (hsm : a.simpleMatcher = true) (hln : a.useLineNumbers = false) (dc : DocCfg) (root : Elem) (d0 d1 d' : Doc)
    (hl : loadDoc dc root = .ok d0)
    (ha : annotateAll (defaultAnnotators env a false) (beforeAnnotator ((Tool.segmentation scfg np).annotateCfg a) d0) = .ok d1)
    (ha' : annotateAll ((Tool.segmentation scfg np).annotators env a)
      (beforeAnnotator ((Tool.segmentation scfg np).annotateCfg a) d0) = .ok d')
    (hp : a.noPreserveTags = false) (hap : a.alwaysPreserve = []) (hn : ∀ t ∈ a.targets, Spec.ProperTag (some t.name))
    (i : Nat) (hi : i ∈ d0.allTokens) (v : Str) (hv : Spec.tagValue (d0.getPreservedTag i) = some v) (hnf : v ∉ np)
    (hm : ∀ j, Spec.OnOneLine d0 i j → d1.getTag j = none)
    (hs : ∀ j, Spec.OnOneLine d0 i j → truthy (d'.getTag j) = false) :
    d'.getTagOrPreserved i = d0.getPreservedTag i := by
  generalize ht : (Tool.segmentation scfg np) = t at ha ha'
  have hf : (t.annotateCfg a).preserveFields = [] := by subst ht; exact hap
  have hkeep : Spec.keepMain (t.annotateCfg a) (some v) := by
    unfold Spec.keepMain
    rw [if_pos hf]
    refine ⟨by simp [Tool.annotateCfg, hp], fun f hfm e => ?_⟩
    cases e
    subst ht
    exact hnf hfm
  have hsame : SameBut d0 (beforeAnnotator (t.annotateCfg a) d0) := (Props.C14_before_annotation (t.annotateCfg a) d0 i hi).1
  have hx := mainExact_before (cfg := t.annotateCfg a) hf hl
  have hnd : (beforeAnnotator (t.annotateCfg a) d0).nonSpaceTokens.Nodup := (nodup_loadDoc hl hsame).2
  have hpt : ∀ j, Spec.ProperTag ((beforeAnnotator (t.annotateCfg a) d0).getTag j) := by
    intro j
    by_cases hj : j ∈ d0.allTokens
    · rw [before_tag_none _ hf j hj (loaded_no_tag hl j hj)]; exact properTag_none
    · rw [show (beforeAnnotator (t.annotateCfg a) d0).getTag j = none from before_outside _ (fun j hj m => loaded_outside hl j hj m) j hj _]
      exact properTag_none
  rw [← stripTagPrefix_eq_tagValue] at hv
  have hbi := (before_main_kept hf hl i hi).1 (by rw [hv]; exact hkeep)
  have hlines := linesApart_loaded hl hsame
  generalize beforeAnnotator (t.annotateCfg a) d0 = b at *
  have hd' : d' = segment env.seg scfg (!a.noPreserveTags) d1 := by
    subst ht
    have ha2 : annotateAll (defaultAnnotators env a false ++ [total (segment env.seg scfg (!a.noPreserveTags))]) b = .ok d' := ha'
    rw [annotateAll_append, ha] at ha2
    exact (Except.ok.inj ha2).symm
  have hex : MainExact b d1 ∧ SameBut b d1 := by
    unfold defaultAnnotators at ha
    rw [hln, hsm] at ha
    simp only [Bool.false_eq_true, if_false, if_true, List.nil_append] at ha
    split at ha
    · unfold annotateAll at ha
      split at ha
      · cases ha
      · next d2 h2 =>
        obtain rfl := Except.ok.inj ha
        exact ⟨mainExact_annotate _ _ _ rfl hn hlines hnd hpt h2 hx, keeps_simpleAnnotate _ _ _ _ _ h2⟩
    · obtain rfl := Except.ok.inj ha
      exact ⟨hx, .refl _⟩
  have hs1 : SameBut d0 d1 := hsame.trans hex.2
  have hk1 : d1.getAttr i keptMainAttr = d0.getPreservedTag i := by
    rw [hex.1.kept i ?_, hbi]
    rintro ⟨j, hj, ⟨_, _, htr, _⟩, _⟩
    rw [hsame.lineOf] at hj
    rw [hm j (onOneLine_loaded hl hj)] at htr
    cases htr
  obtain ⟨ln, hln1, hiln⟩ := List.mem_flatMap.1 hi
  obtain ⟨k, hk⟩ := List.mem_iff_getElem?.1 hln1
  have hsl : (⟨k, ln, joinStr c!" " (ln.nonSpace.map (fun i => (d1.tok i).text))⟩ : SegLine) ∈ segLines d1 := by
    unfold segLines
    rw [hs1.lines]
    exact List.mem_map.2 ⟨(ln, k), List.mem_zipIdx_iff_getElem?.2 hk, rfl⟩
  have hon : ∀ j ∈ ln.tokens, Spec.OnOneLine d0 i j := fun j hj => ⟨ln, hln1, hiln, hj⟩
  rw [label_of_falsy (hs i (hon i hiln))]
  rcases segment_unlabelled_line env.seg scfg (!a.noPreserveTags) (ownLines_loadDoc hl hs1) hsl (List.ne_nil_of_mem hiln) (fun j hj => hm j (hon j hj)) with h | ⟨j, hj, h⟩
  · rw [hd', h i hiln]
    exact hk1
  · have := hs j (hon j hj)
    rw [hd', h] at this
    cases this

/-- A line with two notes and text in between. -/
def exKeptRoot : Elem :=
  .mk c!"tei" [] none
    [.mk c!"text" [] none [.mk c!"note" [] (some c!"on some title") [] (some c!" by "),
      .mk c!"note" [] (some c!"abc") [] none] none] none

/-- The labels of the words after annotating. -/
def labelsAfter (a : ToolArgs) (t : Tool) : Option (List (Option Str)) :=
  match loadDoc exToolCfg exKeptRoot with
  | .error _ => none
  | .ok d =>
    match annotateAll (t.annotators exToolEnv a) (beforeAnnotator (t.annotateCfg a) d) with
    | .error _ => none
    | .ok d' => some (d'.nonSpaceTokens.map (fun i => d'.getTagOrPreserved i))

/-- Examples for `C152_kept` and `C152_references`: the labels of the words in front of and behind the new label are
kept by the tool for figures, and by that for references if the value is where there is no label. -/
example : labelsAfter { fields := [c!"figure"], targets := [⟨c!"figure", .one c!"some title", []⟩] } (.figure true) =
      some [some c!"b-note", some c!"b-figure", some c!"i-figure", none, some c!"b-note"] ∧
    labelsAfter { fields := [c!"reference"], targets := [⟨c!"reference", .one c!"by", []⟩] } (.reference true false false) =
      some [some c!"b-note", some c!"i-note", some c!"i-note", some c!"b-reference", some c!"b-note"] := by
  decide +kernel

/-- Example for `C152_headers`: the labels of the words around a title which had none are kept. -/
example : labelsAfter { fields := [c!"title"], targets := [⟨c!"title", .one c!"by", []⟩], tagConfigMap := [(c!"title", { extendToLineEnabled := false })] } .header =
      some [some c!"b-note", some c!"i-note", some c!"i-note", some c!"b-title", some c!"b-note"] := by
  decide +kernel

/-- Example for `C152_fulltext`: labels around a section title which had none are kept. -/
example : labelsAfter { fields := [c!"section_title"], targets := [⟨c!"section_title", .one c!"by", []⟩] } (.fulltext true true true) =
      some [some c!"b-note", some c!"i-note", some c!"i-note", some c!"b-section_title", some c!"b-note"] ∧
    labelsAfter { fields := [c!"section_title"], targets := [⟨c!"section_title", .one c!"some title", []⟩] } (.fulltext true true true) =
      some [some c!"b-note", some c!"b-section_title", some c!"i-section_title", none, some c!"b-note"] := by
  decide +kernel

/-- A word loses its label, although it gets none, because another word on its line does: with the tool for references,
and with those for headers and full texts also in another element. -/
theorem C152_neighbours_lost :
    labelsAfter {} (.reference true false false) =
      some [some c!"b-note", some c!"i-note", some c!"i-note", none, some c!"b-note"] ∧
    labelsAfter { fields := [c!"reference"], targets := [⟨c!"reference", .one c!"some title", []⟩] } (.reference true false false) =
      some [none, some c!"b-reference", some c!"i-reference", none, none] ∧
    labelsAfter { fields := [c!"title"], targets := [⟨c!"title", .one c!"some title", []⟩] } .header =
      some [some c!"b-title", some c!"i-title", some c!"i-title", none, none] ∧
    labelsAfter { fields := [c!"section_title"], targets := [⟨c!"section_title", .one c!"some title", []⟩] } (.fulltext false true true) =
      some [some c!"b-section_title", some c!"i-section_title", some c!"i-section_title", none, none] := by
  decide +kernel

/-- Example for `C152_segmentation`: nothing is found on the line. -/
example : labelsAfter { fields := [c!"title"], targets := [⟨c!"title", .one c!"elsewhere", []⟩] }
      (.segmentation { mapping := [(c!"front", [c!"title"])] } [c!"front"]) =
      some [some c!"b-note", some c!"i-note", some c!"i-note", none, some c!"b-note"] := by
  decide +kernel

/-- Segmentation removes the labels of a line, without giving it one, if a value is found in a small part of it. -/
theorem C152_segmentation_lost :
    labelsAfter { fields := [c!"title"], targets := [⟨c!"title", .one c!"some title", []⟩], tagConfigMap := [(c!"title", { extendToLineEnabled := false })] }
      (.segmentation { mapping := [(c!"front", [c!"title"])] } [c!"front"]) = some [none, none, none, none, none] := by
  decide +kernel

end Verif
